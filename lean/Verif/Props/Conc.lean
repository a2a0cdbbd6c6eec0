import Verif.Heap.Proofs.Spawn
import Verif.Props.Budget
/-
C73: threads.
-/
namespace Verif.Props
open Verif Verif.Heap Verif.Spec
open Verif.BTree (Map)

variable {K V Q : Type} {pl : Nat → Heap.Addr}

theorem keeps_wf [Ord K] [Ord Q] (bor : K → Q) (mem : Prop) : Keeps (V := V) bor mem Map.WF where
  wf := fun _ h => h
  run := fun ms al op o ms' al' hm _ h => by
    rcases BTree.Op.run_wf bor hm al op with ⟨msg, h'⟩ | ⟨o2, p2, a2, h', h2⟩
    · rw [h] at h'; cases h'
    · rw [h] at h'
      simp only [Exec.ok.injEq, Prod.mk.injEq] at h'
      obtain ⟨rfl, rfl, rfl⟩ := h'
      rcases h2 with h2 | h2
      · exact .inl (spoils_iff.2 h2)
      · exact .inr h2

section
variable [Ord K] [Std.TransOrd K] [Ord Q] [Std.TransOrd Q] {bor : K → Q}

theorem keeps_valid (hbo : BorrowOK bor) : Keeps (V := V) bor True Map.Valid where
  wf := fun _ h => h.toShaped
  run := fun ms al op o ms' al' hm ha h => by
    rcases BTree.Op.run_agrees hbo hm al op with ⟨_, h2⟩ | ⟨o2, p2, a2, h', _, h2⟩
    · exact absurd (ha trivial) h2
    · rw [h] at h'
      simp only [Exec.ok.injEq, Prod.mk.injEq] at h'
      obtain ⟨rfl, rfl, rfl⟩ := h'
      rcases h2 with h2 | h2
      · exact absurd (ha trivial) h2.2
      · exact .inr h2.1

theorem no_panics (hbo : BorrowOK bor) {msg : String} : ¬ Panics (V := V) (Q := Q) bor True Map.Valid msg := by
  rintro ⟨ms, al, op, hm, ha, h⟩
  rcases BTree.Op.run_agrees hbo hm al op with ⟨_, h2⟩ | ⟨o2, p2, a2, h', _⟩
  · exact h2 (ha trivial)
  · rw [h] at h'; cases h'

theorem run_spec (hbo : BorrowOK bor) {ms : List (Map K V)} (hm : ∀ m ∈ ms, m.Valid) {al : Alloc} (ha : al.Good) {op : Op K V Q} {o ms' al'}
    (h : BTree.Op.run bor ms al op = .ok (o, ms', al')) : (o, ms'.map Map.toList) = op.spec bor (ms.map Map.toList) ∧ ∀ m ∈ ms', m.Valid := by
  rcases BTree.Op.run_agrees hbo hm al op with ⟨_, h2⟩ | ⟨o2, p2, a2, h', _, h2⟩
  · exact absurd ha h2
  · rw [h] at h'
    simp only [Exec.ok.injEq, Prod.mk.injEq] at h'
    obtain ⟨rfl, rfl, rfl⟩ := h'
    rcases h2 with h2 | h2
    · exact absurd ha h2.2
    · exact ⟨by rw [h2.2.1, h2.2.2], h2.1⟩

theorem spec_spoils {op : Op K V Q} {l : List (List (K × V))} : Op.spoils op (op.spec bor l).1 = false := by
  cases op <;> first | rfl | (simp only [Op.spec, Spec.onList]; (repeat' split) <;> first | rfl | (simp only []; split <;> rfl)) | (simp only [Op.spec]; repeat' split) <;> rfl

theorem ran_spec (hbo : BorrowOK bor) {psh : List (Map K V)} (hps : ∀ m ∈ psh, m.Valid) : ∀ (cs : List (Call K V Q)) {ms : List (Map K V)} {r ms'}, (∀ m ∈ ms, m.Valid) →
    Ran bor True psh cs ms r ms' → r = ((Call.specs bor (psh.map Map.toList) cs (ms.map Map.toList)).1, true) ∧
      ms'.map Map.toList = (Call.specs bor (psh.map Map.toList) cs (ms.map Map.toList)).2
  | [], ms, r, ms', _, h => ⟨h.1, by rw [h.2]; rfl⟩
  | .shared op :: cs, ms, r, ms', hm, ⟨al, o, q, al', r', ha, h1, h2, h3⟩ => by
    obtain ⟨e1, e2⟩ := ran_spec hbo hps cs hm h2
    have e3 := (run_spec hbo hps (ha trivial) h1).1
    simp only [Call.specs, ← e3, h3, e1, e2, and_self]
  | .own op :: cs, ms, r, ms', hm, ⟨al, o, q, al', ha, h1, h2⟩ => by
    obtain ⟨e3, e4⟩ := run_spec hbo hm (ha trivial) h1
    have e5 : Op.spoils op o = false := by
      have := spec_spoils (bor := bor) (op := op) (l := ms.map Map.toList)
      rwa [← e3] at this
    rcases h2 with ⟨h2, _⟩ | ⟨_, r', h2, h3⟩
    · rw [e5] at h2; cases h2
    · obtain ⟨e1, e2⟩ := ran_spec hbo hps cs e4 h2
      simp only [Call.specs, ← e3, h3, e1, e2, and_self]
  | .copy op :: cs, ms, r, ms', hm, ⟨al, o, x, al', r', ha, h1, h2, h3⟩ => by
    obtain ⟨e3, e4⟩ := run_spec hbo hps (ha trivial) h1
    obtain ⟨e1, e2⟩ := ran_spec hbo hps cs (ms := ms ++ x) (fun m hmm => (List.mem_append.1 hmm).elim (hm m) fun hmm => e4 m (by simp [hmm])) h2
    have e5 : ((psh ++ x).map Map.toList).drop (psh.map Map.toList).length = x.map Map.toList := by rw [List.map_append, List.drop_left]
    rw [List.map_append] at e1 e2
    simp only [Call.specs, ← e3, h3, e1, e2, e5, and_self]

theorem runs_good (hbo : BorrowOK bor) : ∀ (ops : List (Op K V Q)) {p : List (Map K V)} {a : Alloc} {os p' a'}, (∀ m ∈ p, m.Valid) → a.Good →
    BTree.Op.runs bor ops p a = .ok (os, p', a') → a'.Good ∧ (∀ m ∈ p', m.Valid) ∧ p'.map Map.toList = (Op.specs bor ops (p.map Map.toList)).2
  | [], p, a, os, p', a', hp, ha, h => by
    simp only [BTree.Op.runs, Exec.ok.injEq, Prod.mk.injEq] at h
    obtain ⟨rfl, rfl, rfl⟩ := h
    exact ⟨ha, hp, rfl⟩
  | op :: ops, p, a, os, p', a', hp, ha, h => by
    rcases BTree.Op.run_agrees hbo hp a op with ⟨_, h2⟩ | ⟨o2, p2, a2, h', h3, h2⟩
    · exact absurd ha h2
    · rcases h2 with h2 | ⟨h4, h5, h6⟩
      · exact absurd ha h2.2
      · simp only [BTree.Op.runs, h', Exec.ok_bind] at h
        obtain ⟨⟨os3, p3, a3⟩, h7, h8⟩ := Exec.bind_eq_ok.1 h
        simp only [Exec.ok.injEq, Prod.mk.injEq] at h8
        obtain ⟨_, rfl, rfl⟩ := h8
        obtain ⟨g1, g2, g3⟩ := runs_good hbo ops h4 (h3 ha) h7
        exact ⟨g1, g2, by rw [g3, h6]; rfl⟩

end

/-! ### the threads of a program -/

section
variable [Ord K] [Ord Q] {bor : K → Q} {setup : List (Op K V Q)} {al : Alloc} {os : List (Out K V)} {sh : List HMap} {jobs : List (Job K V Q)} {s : Heap K V}
  {d : List HMap → Op K V Q → Prog K V (Out K V × List HMap)}

theorem threads_start (mem : Prop) (hmem : mem → s.alloc.Good) (hr : Op.hprog bor setup [] (Heap.start al pl) = .ok ((os, true, sh ++ moved jobs), s)) (hok : ∀ job ∈ jobs, ∀ c ∈ job.calls, c.Ok) (hd : TakesApart bor d) :
    ∃ psh mss w, mss.map List.length = jobs.map (·.maps.length) ∧ (∀ m ∈ psh, m.WF) ∧ pool sh psh ⟨s.only sh, none⟩ ∧ (∀ (j : Nat) job, jobs[j]? = some job → w j = s.only job.maps) ∧
      Going (s.only sh) mem (Panics (V := V) (Q := Q) bor mem Map.WF) (JobPost bor mem Map.WF psh jobs mss) s (spawn d sh jobs) w (spawn d sh jobs) s w := by
  obtain ⟨ms, _, h2, h3⟩ := hprog_alloc hr
  obtain ⟨psh, mss, w, rfl, _, h5, h6, h7, h8⟩ := going_start hd (keeps_wf bor mem) (hprog_ok hr).1 hmem h2 h3 hok (hd.spares hr)
  exact ⟨psh, mss, w, h5, fun m hm => h2 m (by simp [hm]), h6, h7, h8⟩

/-- **C73** Threads that each have their own maps and that all read some shared ones (`get`, `contains_key`, iteration and the like), take turns at every single
access to a node, in any order: whatever the order on keys and the allocator, no access is ever undefined behaviour (no thread ever uses a node that another one has
freed). -/
theorem C73_no_ub (hr : Op.hprog bor setup [] (Heap.start al pl) = .ok ((os, true, sh ++ moved jobs), s)) (hok : ∀ job ∈ jobs, ∀ c ∈ job.calls, c.Ok) (hd : TakesApart bor d) (js : List Nat) :
    interleave js (spawn d sh jobs) s ≠ none := by
  obtain ⟨psh, mss, w, _, _, _, _, h⟩ := threads_start False False.elim hr hok hd
  obtain ⟨ts', s', w', h1, _⟩ := h.run js
  rw [h1]; simp

/-- **C73** … there is never a data race: when the next access of one thread stores into a node or frees it, the next access of no other thread is to that node. -/
theorem C73_no_race (hr : Op.hprog bor setup [] (Heap.start al pl) = .ok ((os, true, sh ++ moved jobs), s)) (hok : ∀ job ∈ jobs, ∀ c ∈ job.calls, c.Ok) (hd : TakesApart bor d)
    {js : List Nat} {ts : List (Prog K V (List (Out K V) × Bool × List HMap))} {s' : Heap K V} (h : interleave js (spawn d sh jobs) s = some (ts, s'))
    {i j : Nat} (hij : i ≠ j) {t u : Prog K V (List (Out K V) × Bool × List HMap)} (hi : ts[i]? = some t) (hj : ts[j]? = some u) {a : Addr} (ht : t.changes a) : ¬ u.touches a := by
  obtain ⟨psh, mss, w, _, _, _, _, hg⟩ := threads_start False False.elim hr hok hd
  obtain ⟨ts', s2, w', h1, h2⟩ := hg.run js
  rw [h] at h1
  simp only [Option.some.injEq, Prod.mk.injEq] at h1
  obtain ⟨rfl, rfl⟩ := h1
  have h3 := h2.fine i t hi
  have h4 := h2.fine j u hj
  have hmine : ∃ nd, w' i a = some nd := by
    cases t with
    | write b nd k => obtain rfl := ht; exact h3.2.1
    | free b lay k => obtain rfl := ht; obtain ⟨nd, h5, _⟩ := h3.2.1; exact ⟨nd, h5⟩
    | done r => exact ht.elim
    | ub => exact ht.elim
    | panic msg => exact ht.elim
    | read b k => exact ht.elim
    | alloc lay k => exact ht.elim
  obtain ⟨nd, hnd⟩ := hmine
  have hother : w' j a = none := (h2.apart i j a hij).resolve_left (by rw [hnd]; simp)
  have hshared : s.only sh a = none := (h2.aside i a).resolve_left (by rw [hnd]; simp)
  intro hu
  cases u with
  | write b n k => obtain rfl := hu; obtain ⟨n', h5⟩ := h4.2.1; rw [hother] at h5; cases h5
  | free b lay k => obtain rfl := hu; obtain ⟨n', h5, _⟩ := h4.2.1; rw [hother] at h5; cases h5
  | read b k =>
    obtain rfl := hu
    obtain ⟨n', h5, _⟩ := h4.2
    rcases h5 with h5 | h5
    · rw [hother] at h5; cases h5
    · rw [hshared] at h5; cases h5
  | done r => exact hu.elim
  | ub => exact hu.elim
  | panic msg => exact hu.elim
  | alloc lay k => exact hu.elim

/-- **C73** … every thread that gets its turn again and again comes to its end (or to a panic): no thread waits for another one. -/
theorem C73_ends (hr : Op.hprog bor setup [] (Heap.start al pl) = .ok ((os, true, sh ++ moved jobs), s)) (hok : ∀ job ∈ jobs, ∀ c ∈ job.calls, c.Ok) (hd : TakesApart bor d)
    {f : Nat → Nat} {j : Nat} (hj : j < jobs.length) (hf : ∀ m, ∃ m', m ≤ m' ∧ f m' = j) :
    ∃ m ts s', interleave (turns f m) (spawn d sh jobs) s = some (ts, s') ∧ ∃ t, ts[j]? = some t ∧ t.Ended := by
  obtain ⟨psh, mss, w, _, _, _, _, h⟩ := threads_start False False.elim hr hok hd
  have hl : j < (spawn d sh jobs).length := by simpa [spawn] using hj
  exact h.ends _ hf (List.getElem?_eq_getElem hl)

/-- **C73** … and it ends exactly as it could have ended had it been alone: with the same answers and the same maps, run to its end in one go from a memory in which
there are only the shared maps and its own, just where they were, with some other answers and addresses from the allocator (answers that are never a refusal, if there was none). -/
theorem C73_alone (hr : Op.hprog bor setup [] (Heap.start al pl) = .ok ((os, true, sh ++ moved jobs), s)) (hok : ∀ job ∈ jobs, ∀ c ∈ job.calls, c.Ok) (hd : TakesApart bor d)
    {js : List Nat} {ts : List (Prog K V (List (Out K V) × Bool × List HMap))} {s' : Heap K V} (h : interleave js (spawn d sh jobs) s = some (ts, s'))
    {j : Nat} {job : Job K V Q} (hj : jobs[j]? = some job) :
    ∃ next al' pl', s.next ≤ next ∧ (s.alloc.Good → al'.Good) ∧
      (∀ r, ts[j]? = some (.done r) → ∃ s2, alone bor sh job.calls job.maps ⟨s.only (sh ++ job.maps), next, al', pl'⟩ = .ok (r, s2)) ∧
      ∀ msg, ts[j]? = some (.panic msg) → alone bor sh job.calls job.maps ⟨s.only (sh ++ job.maps), next, al', pl'⟩ = .panic msg := by
  obtain ⟨psh, mss, w, _, _, _, hw, hg⟩ := threads_start s.alloc.Good id hr hok hd
  obtain ⟨ts', s2, w', h1, h2⟩ := hg.run js
  rw [h] at h1
  simp only [Option.some.injEq, Prod.mk.injEq] at h1
  obtain ⟨rfl, rfl⟩ := h1
  have h0 : (spawn d sh jobs)[j]? = some (thread d sh job.calls job.maps) := by
    unfold spawn; rw [List.getElem?_map, hj]; rfl
  have hl : j < ts.length := by
    rw [h2.len]; exact (List.getElem?_eq_some_iff.1 h0).1
  obtain ⟨next, al', pl', h3, h4, h5⟩ := h2.solo j _ _ (List.getElem?_eq_getElem hl) h0 s'.next (fun _ => true) (fun _ => 0) (Nat.le_refl _) fun _ _ => rfl
  rw [thread_whole hd, hw j job hj, ← only_append] at h5
  refine ⟨next, al', pl', h3, h4, fun r hr => ?_, fun msg hr => ?_⟩
  · rw [List.getElem?_eq_getElem hl] at hr
    rw [h5, Option.some.inj hr]
    exact ⟨_, rfl⟩
  · rw [List.getElem?_eq_getElem hl] at hr
    rw [h5, Option.some.inj hr]
    rfl

theorem ends_pool {mem : Prop} {I : Map K V → Prop} {psh : List (Map K V)} {mss : List (List (Map K V))} {ro : Cells K V} {w fs : Nat → Cells K V} {s' : Heap K V}
    (hm : mss.map List.length = jobs.map (·.maps.length)) (hro : pool sh psh ⟨ro, none⟩)
    {rs : List (List (Out K V) × Bool × List HMap)} (hg : Going ro mem (Panics (Q := Q) bor mem I) (JobPost bor mem I psh jobs mss) s (spawn d sh jobs) fs (rs.map .done) s' w)
    (hb : ∀ r ∈ rs, r.2.1 = true) : ∃ mss' : List (List (Map K V)), pool (sh ++ (rs.map (·.2.2)).flatten) (psh ++ mss'.flatten) ⟨s'.cells, none⟩ ∧ mss'.length = jobs.length ∧
      ∀ (j : Nat) r job mj mj', rs[j]? = some r → jobs[j]? = some job → mss[j]? = some mj → mss'[j]? = some mj' → (∀ m ∈ mj', I m) ∧ Ran bor mem psh job.calls mj (r.1, true) mj' := by
  have hlr : rs.length = jobs.length := by simpa [spawn] using hg.len
  have hlm : mss.length = jobs.length := by simpa using congrArg List.length hm
  have hex : ∀ j : Nat, ∃ mj', ∀ r job mj, rs[j]? = some r → jobs[j]? = some job → mss[j]? = some mj → ((∀ m ∈ mj', I m) ∧ Ran bor mem psh job.calls mj (r.1, true) mj') ∧ pool r.2.2 mj' ⟨w j, none⟩ := by
    intro j
    by_cases hj : j < jobs.length
    · have h1 : rs[j]? = some rs[j] := by rw [List.getElem?_eq_getElem]
      have h2 : mss[j]? = some mss[j] := by rw [List.getElem?_eq_getElem]
      have h3 := hg.fine j (.done rs[j]) (by rw [List.getElem?_map, h1]; rfl)
      obtain ⟨ms', h4, h5, h6⟩ := (show JobPost bor mem I psh jobs mss j rs[j] (w j) from h3) jobs[j] mss[j] (by rw [List.getElem?_eq_getElem]) h2
      have hbj := hb rs[j] (List.getElem_mem _)
      refine ⟨ms', fun r job mj hr hjob hmj => ?_⟩
      rw [h1] at hr
      rw [h2] at hmj
      rw [List.getElem?_eq_getElem hj] at hjob
      cases hr; cases hmj; cases hjob
      rw [hbj] at h4 h6
      refine ⟨⟨h5 hbj, h4⟩, ?_⟩
      have h7 : (pool rs[j].2.2 ms' ∗ emp) ⟨w j, none⟩ := h6
      rwa [sep_emp] at h7
    · exact ⟨[], fun r job mj _ hjob => by rw [List.getElem?_eq_none (by omega)] at hjob; cases hjob⟩
  obtain ⟨g, hgm⟩ := Classical.axiomOfChoice hex
  refine ⟨(List.range jobs.length).map g, ?_, by simp, ?_⟩
  · refine pool_join _ ?_
    have hboth : s'.cells = both ro fun x => if (ro x).isSome then none else s'.cells x := by
      funext x
      unfold both
      cases h0 : ro x with
      | none => simp [h0]
      | some nd => simp [hg.look x nd h0]
    rw [hboth]
    refine cells_sep hro ?_ fun x => ?_
    · refine parts_pool (w := w) ?_ (by simp [hlr]) hg.apart (fun j x hj => hg.out j x (by simpa [spawn, hlr] using hj)) ?_ ?_
      · intro j hs mj' h1 h2
        obtain ⟨r, h3, rfl⟩ := Option.map_eq_some_iff.1 ((List.getElem?_map ..).symm.trans h1)
        have hj : j < jobs.length := hlr ▸ (List.getElem?_eq_some_iff.1 h3).1
        rw [List.getElem?_map, List.getElem?_range hj] at h2
        simp only [Option.map_some, Option.some.injEq] at h2
        subst h2
        exact (hgm j r jobs[j] mss[j] h3 (by rw [List.getElem?_eq_getElem]) (by rw [List.getElem?_eq_getElem])).2
      · intro j x nd hx
        have : ro x = none := (hg.aside j x).resolve_left (by rw [hx]; simp)
        simp only [this]
        exact hg.mine j x nd hx
      · intro x nd hx
        cases h0 : ro x with
        | some n => rw [h0] at hx; simp at hx
        | none =>
          rw [h0] at hx
          exact (hg.all x nd (by simpa using hx)).resolve_left fun h => h h0
    · cases h0 : ro x with
      | none => exact .inl rfl
      | some nd => exact .inr (by simp)
  · intro j r job mj mj' h1 h2 h3 h4
    have hj : j < jobs.length := (List.getElem?_eq_some_iff.1 h2).1
    rw [List.getElem?_map, List.getElem?_range hj] at h4
    simp only [Option.map_some, Option.some.injEq] at h4
    subst h4
    exact (hgm j r job mj h1 h2 h3).1

/-- **C73** … when all of them have come to their ends, the shared maps and all their own maps can be dropped, and nothing is left allocated. -/
theorem C73_memory (hr : Op.hprog bor setup [] (Heap.start al pl) = .ok ((os, true, sh ++ moved jobs), s)) (hok : ∀ job ∈ jobs, ∀ c ∈ job.calls, c.Ok) (hd : TakesApart bor d)
    {js : List Nat} {rs : List (List (Out K V) × Bool × List HMap)} {s' : Heap K V} (h : interleave js (spawn d sh jobs) s = some (rs.map .done, s')) (hb : ∀ r ∈ rs, r.2.1 = true) :
    ∃ ls s2, dropAll (sh ++ (rs.map (·.2.2)).flatten) s' = .ok (ls, s2) ∧ ∀ a, s2.cells a = none := by
  obtain ⟨psh, mss, w, hm, hps, hro, _, hg⟩ := threads_start False False.elim hr hok hd
  obtain ⟨ts', s2, w', h1, h2⟩ := hg.run js
  rw [h] at h1
  simp only [Option.some.injEq, Prod.mk.injEq] at h1
  obtain ⟨rfl, rfl⟩ := h1
  obtain ⟨mss', h3, h4, h5⟩ := ends_pool hm hro h2 hb
  have hlr : rs.length = jobs.length := by simpa [spawn] using h2.len
  have hlm : mss.length = jobs.length := by simpa using congrArg List.length hm
  have hwf : ∀ m ∈ psh ++ mss'.flatten, m.WF := by
    intro m hmm
    rcases List.mem_append.1 hmm with hmm | hmm
    · exact hps m hmm
    · obtain ⟨mj', hmj, hmm⟩ := List.mem_flatten.1 hmm
      obtain ⟨j, hj⟩ := List.mem_iff_getElem?.1 hmj
      have hjl : j < jobs.length := h4 ▸ (List.getElem?_eq_some_iff.1 hj).1
      exact (h5 j rs[j] jobs[j] mss[j] mj' (by rw [List.getElem?_eq_getElem]) (by rw [List.getElem?_eq_getElem]) (by rw [List.getElem?_eq_getElem]) hj).1 m hmm
  obtain ⟨s3, h6, h7⟩ := all_freed (dropAll_spec hwf) h2.good (al := s'.alloc)
    ⟨⟨s'.cells, none⟩, ⟨fun _ => none, some s'.alloc⟩, ⟨fun x => .inr rfl, .inl rfl⟩, by simp [World.union, Heap.world], h3, rfl⟩
  exact ⟨_, s3, h6, h7⟩

end

section
variable [Ord K] [Std.TransOrd K] [Ord Q] [Std.TransOrd Q] {bor : K → Q} {setup : List (Op K V Q)} {al : Alloc} {os : List (Out K V)} {sh : List HMap} {jobs : List (Job K V Q)} {s : Heap K V}
  {d : List HMap → Op K V Q → Prog K V (Out K V × List HMap)}

theorem threads_valid (hbo : BorrowOK bor) (hal : al.Good) (hr : Op.hprog bor setup [] (Heap.start al pl) = .ok ((os, true, sh ++ moved jobs), s)) (hok : ∀ job ∈ jobs, ∀ c ∈ job.calls, c.Ok) (hd : TakesApart bor d)
    {lsh : List (List (K × V))} {low : List (List (List (K × V)))} (hl : (Op.specs bor setup []).2 = lsh ++ low.flatten) (hls : lsh.length = sh.length)
    (hlo : low.map List.length = jobs.map (·.maps.length)) :
    ∃ psh mss w, mss.map List.length = jobs.map (·.maps.length) ∧ (∀ m ∈ psh, m.Valid) ∧ psh.map Map.toList = lsh ∧ (∀ mj ∈ mss, ∀ m ∈ mj, m.Valid) ∧ mss.map (·.map Map.toList) = low ∧ pool sh psh ⟨s.only sh, none⟩ ∧
      Going (s.only sh) True (Panics (V := V) (Q := Q) bor True Map.Valid) (JobPost bor True Map.Valid psh jobs mss) s (spawn d sh jobs) w (spawn d sh jobs) s w := by
  obtain ⟨ms, h1, _, h3⟩ := hprog_alloc hr
  obtain ⟨g1, g2, g3⟩ := runs_good hbo setup (by simp) hal h1
  obtain ⟨psh, mss, w, rfl, h4, h5, h6, _, h7⟩ := going_start hd (keeps_valid hbo) (hprog_ok hr).1 (fun _ => g1) g2 h3 hok (hd.spares hr)
  rw [show List.map Map.toList ([] : List (Map K V)) = [] from rfl, hl, List.map_append] at g3
  obtain ⟨e1, e2⟩ := List.append_inj g3 (by simp [h4, hls])
  refine ⟨psh, mss, w, h5, fun m hm => g2 m (by simp [hm]), e1, fun mj hmj m hm => g2 m ?_, ?_, h6, h7⟩
  · rw [List.mem_append]; exact .inr (List.mem_flatten.2 ⟨mj, hmj, hm⟩)
  · rw [List.eq_iff_flatten_eq]
    refine ⟨by rw [← e2, List.map_flatten], ?_⟩
    rw [hlo, ← h5, List.map_map]
    congr 1; funext l; simp

/-- **C73** … with a lawful order and an allocator that refuses nothing, no thread panics, and each gets exactly the answers of the sorted lists: those of the shared maps as they were
when the threads were started, and those of its own maps with its own changes. -/
theorem C73_answers (hbo : BorrowOK bor) (hal : al.Good) (hr : Op.hprog bor setup [] (Heap.start al pl) = .ok ((os, true, sh ++ moved jobs), s)) (hok : ∀ job ∈ jobs, ∀ c ∈ job.calls, c.Ok)
    (hd : TakesApart bor d) {lsh : List (List (K × V))} {low : List (List (List (K × V)))} (hl : (Op.specs bor setup []).2 = lsh ++ low.flatten) (hls : lsh.length = sh.length)
    (hlo : low.map List.length = jobs.map (·.maps.length)) {js : List Nat} {ts : List (Prog K V (List (Out K V) × Bool × List HMap))} {s' : Heap K V}
    (h : interleave js (spawn d sh jobs) s = some (ts, s')) {j : Nat} {job : Job K V Q} (hj : jobs[j]? = some job) {l : List (List (K × V))} (hlj : low[j]? = some l)
    {t : Prog K V (List (Out K V) × Bool × List HMap)} (ht : ts[j]? = some t) (he : t.Ended) :
    ∃ p, t = .done ((Call.specs bor lsh job.calls l).1, true, p) := by
  obtain ⟨psh, mss, w, hm, hps, hpl, hmv, hml, hro, hg⟩ := threads_valid hbo hal hr hok hd hl hls hlo
  obtain ⟨ts', s2, w', h1, h2⟩ := hg.run js
  rw [h] at h1
  simp only [Option.some.injEq, Prod.mk.injEq] at h1
  obtain ⟨rfl, rfl⟩ := h1
  have h3 := h2.fine j t ht
  cases t with
  | panic msg => exact (no_panics hbo h3).elim
  | done r =>
    rw [← hml, List.getElem?_map] at hlj
    obtain ⟨mj, hmj, rfl⟩ := Option.map_eq_some_iff.1 hlj
    obtain ⟨ms', h4, _⟩ := (show JobPost bor True Map.Valid psh jobs mss j r (w' j) from h3) job mj hj hmj
    obtain ⟨e1, _⟩ := ran_spec hbo hps job.calls (hmv mj (List.mem_of_getElem? hmj)) h4
    rw [hpl] at e1
    obtain ⟨os, b, p⟩ := r
    simp only [Prod.mk.injEq] at e1
    exact ⟨p, by rw [e1.1, e1.2]⟩
  | ub => exact he.elim
  | read a k => exact he.elim
  | write a n k => exact he.elim
  | alloc lay k => exact he.elim
  | free a lay k => exact he.elim

/-- **C73** … and when all have come to their ends, dropping the shared maps and all the threads' maps yields exactly the lists: the shared ones unchanged, and each thread's own. -/
theorem C73_contents (hbo : BorrowOK bor) (hal : al.Good) (hr : Op.hprog bor setup [] (Heap.start al pl) = .ok ((os, true, sh ++ moved jobs), s)) (hok : ∀ job ∈ jobs, ∀ c ∈ job.calls, c.Ok)
    (hd : TakesApart bor d) {lsh : List (List (K × V))} {low : List (List (List (K × V)))} (hl : (Op.specs bor setup []).2 = lsh ++ low.flatten) (hls : lsh.length = sh.length)
    (hlo : low.map List.length = jobs.map (·.maps.length)) {js : List Nat} {rs : List (List (Out K V) × Bool × List HMap)} {s' : Heap K V}
    (h : interleave js (spawn d sh jobs) s = some (rs.map .done, s')) :
    ∃ s2, dropAll (sh ++ (rs.map (·.2.2)).flatten) s' = .ok (lsh ++ ((jobs.zip low).map fun x => (Call.specs bor lsh x.1.calls x.2).2).flatten, s2) ∧ ∀ a, s2.cells a = none := by
  obtain ⟨psh, mss, w, hm, hps, hpl, hmv, hml, hro, hg⟩ := threads_valid hbo hal hr hok hd hl hls hlo
  obtain ⟨ts', s2, w', h1, h2⟩ := hg.run js
  have h' := h
  rw [h] at h1
  simp only [Option.some.injEq, Prod.mk.injEq] at h1
  obtain ⟨rfl, rfl⟩ := h1
  have hlr : rs.length = jobs.length := by simpa [spawn] using h2.len
  have hlm : mss.length = jobs.length := by simpa using congrArg List.length hm
  have hll : low.length = jobs.length := by simpa using congrArg List.length hlo
  have hb : ∀ r ∈ rs, r.2.1 = true := by
    intro r hrr
    obtain ⟨j, hj⟩ := List.mem_iff_getElem?.1 hrr
    have hjl : j < jobs.length := hlr ▸ (List.getElem?_eq_some_iff.1 hj).1
    obtain ⟨p, hp⟩ := C73_answers hbo hal hr hok hd hl hls hlo h' (List.getElem?_eq_getElem hjl) (List.getElem?_eq_getElem (hll ▸ hjl)) (t := .done r) (by rw [List.getElem?_map, hj]; rfl) trivial
    cases hp; rfl
  obtain ⟨mss', h3, h4, h5⟩ := ends_pool hm hro h2 hb
  have hwf : ∀ m ∈ psh ++ mss'.flatten, m.WF := by
    intro m hmm
    rcases List.mem_append.1 hmm with hmm | hmm
    · exact (hps m hmm).toShaped
    · obtain ⟨mj', hmj, hmm⟩ := List.mem_flatten.1 hmm
      obtain ⟨j, hj⟩ := List.mem_iff_getElem?.1 hmj
      have hjl : j < jobs.length := h4 ▸ (List.getElem?_eq_some_iff.1 hj).1
      exact ((h5 j rs[j] jobs[j] mss[j] mj' (by rw [List.getElem?_eq_getElem]) (by rw [List.getElem?_eq_getElem]) (by rw [List.getElem?_eq_getElem]) hj).1 m hmm).toShaped
  obtain ⟨s3, h6, h7⟩ := all_freed (dropAll_spec hwf) h2.good (al := s'.alloc)
    ⟨⟨s'.cells, none⟩, ⟨fun _ => none, some s'.alloc⟩, ⟨fun x => .inr rfl, .inl rfl⟩, by simp [World.union, Heap.world], h3, rfl⟩
  refine ⟨s3, ?_, h7⟩
  rw [h6, List.map_append, hpl, List.map_flatten]
  congr 3
  congr 1
  refine List.ext_getElem (by simp [h4, hll]) fun j hj hj' => ?_
  have hjl : j < jobs.length := by simpa [h4] using hj
  have e := h5 j rs[j] jobs[j] mss[j] mss'[j] (by rw [List.getElem?_eq_getElem]) (by rw [List.getElem?_eq_getElem]) (by rw [List.getElem?_eq_getElem]) (by rw [List.getElem?_eq_getElem])
  obtain ⟨_, e2⟩ := ran_spec hbo hps jobs[j].calls (hmv mss[j] (List.getElem_mem _)) e.2
  simp only [List.getElem_map, List.getElem_zip]
  rw [e2, hpl]
  subst hml
  simp only [List.getElem_map]

end

section
variable [Ord K] [Ord Q]

theorem takesApart_exists (bor : K → Q) : ∃ d : List HMap → Op K V Q → Prog K V (Out K V × List HMap), TakesApart bor d := by
  have h : ∀ x : List HMap × Op K V Q, ∃ t : Prog K V (Out K V × List HMap), t.whole = Op.hrun bor x.1 x.2 ∧ (Op.shared x.2 = true → t.OnlyReads) ∧ (Op.copies x.2 = true → t = copyP x.1 x.2) := by
    intro ⟨p, op⟩
    by_cases hs : Op.shared op = true
    · obtain ⟨t, h1, h2⟩ := (Op.hrun_looks bor p op hs).ex
      exact ⟨t, h1, fun _ => h2 rfl, fun h => by cases op <;> simp [Op.shared, Op.copies] at hs h⟩
    · by_cases hc : Op.copies op = true
      · exact ⟨copyP p op, copyP_whole bor p hc, fun h => absurd h hs, fun _ => rfl⟩
      · obtain ⟨t, h1, _⟩ := (Op.hrun_steps bor p op).ex
        exact ⟨t, h1, fun h => absurd h hs, fun h => absurd h hc⟩
  obtain ⟨d, hd⟩ := Classical.axiomOfChoice h
  refine ⟨fun p op => d (p, op), fun p op => (hd (p, op)).1, fun p op => (hd (p, op)).2.1, ?_⟩
  intro setup al pl os sh rest s hr op hop next al' pl' hn
  rw [(hd (sh, op)).2.2 hop]
  obtain ⟨ms, _, hwf, hp⟩ := hprog_alloc hr
  obtain ⟨psh, m2, rfl, hl, h1⟩ := pool_append hp
  obtain ⟨ro, c2, h2, _, _, hc⟩ := sep_cells h1
  have hg := (hprog_ok hr).1
  have hro : ro = s.only sh := pool_only h2 fun x nd hx => by rw [hc]; unfold both; rw [hx]; rfl
  subst hro
  have hsub : ∀ x, s.cells x = none → s.only sh x = none := fun x hx => by
    cases h : s.only sh x with
    | none => rfl
    | some nd => rw [only_part s sh h] at hx; cases hx
  have hk : Known (s.only sh) (pool sh psh) := ⟨s.only sh, fun _ _ h => h, h2⟩
  exact (copyP_look (bor := bor) (E := fun _ => True) hk (fun m hm => hwf m (by simp [hm])) hop (al := al') (fun _ _ => trivial) emp ⟨s.only sh, next, al', pl'⟩
    ⟨fun x hx => hsub x (hg.1 x (Nat.le_trans hn hx)), hsub _ hg.2.1, Nat.lt_of_lt_of_le hg.2.2 hn⟩ ⟨fun _ => none, fun _ => .inl rfl, by funext x; simp [both], by rw [sep_emp]; rfl⟩).spares

/-- **C73** Every call can be taken apart into single accesses to nodes, and those that take `&self` only look: so the theorems above speak about something. -/
theorem C73_exists (bor : K → Q) : ∃ d : List HMap → Op K V Q → Prog K V (Out K V × List HMap), TakesApart bor d := takesApart_exists bor

end

/-! ### a case -/

/-- Three maps: one to be shared, with 30 entries, and one for each of two threads. -/
def threeMaps : List (Op Nat Nat Nat) := [.new, .new, .new, .extend 0 ((List.range 30).map fun i => (i, i * i)), .extend 1 ((List.range 20).map fun i => (i, 0))]

/-- The first thread looks things up in the shared map and removes from its own. -/
def looker : List (Call Nat Nat Nat) := [.shared (.get 0 5), .own (.remove 0 7), .shared (.range 0 (.included 27) .unbounded [.front, .back, .back, .back]), .own (.len 0), .own (.splitOff 0 10), .own (.len 0), .own (.len 1)]

/-- The second one iterates over the shared map and fills its own. -/
def filler : List (Call Nat Nat Nat) := [.own (.extend 0 ((List.range 15).map fun i => (i, i))), .shared (.containsKey 0 30), .own (.get 0 14), .shared (.len 0), .own (.clear 0), .own (.isEmpty 0)]

/-- The three maps are there after the first part of the program. -/
theorem threeMaps_run : ∃ a b c s, Op.hprog id threeMaps [] (Heap.start allOk reuse) = .ok (([.done, .done, .done, .done, .done], true, [a, b, c]), s) := by
  have h : (match Op.hprog id threeMaps [] (Heap.start allOk reuse) with
    | .ok ((os, true, [_, _, _]), _) => decide (os = [.done, .done, .done, .done, .done])
    | _ => false) = true := by decide +kernel
  revert h
  cases Op.hprog id threeMaps [] (Heap.start allOk reuse) with
  | ub => intro h; cases h
  | panic msg => intro h; cases h
  | ok r =>
    obtain ⟨⟨os, b, p⟩, s⟩ := r
    cases b with
    | false => intro h; cases h
    | true =>
      match p with
      | [a, b, c] => intro h; exact ⟨a, b, c, s, by rw [of_decide_eq_true h]⟩
      | [] => intro h; cases h
      | [_] => intro h; cases h
      | [_, _] => intro h; cases h
      | _ :: _ :: _ :: _ :: _ => intro h; cases h

/-- What the first one should be told. -/
def lookerTold : List (Out Nat Nat) :=
  [.value (some 25), .value (some 0), .items [some (27, 729), some (29, 841), some (28, 784), none], .count 19, .done, .count 9, .count 10]

/-- What the second one should be told. -/
def fillerTold : List (Out Nat Nat) := [.done, .flag false, .value (some 14), .count 30, .done, .flag true]

/-- The shared list. -/
def squares : List (List (Nat × Nat)) := [(List.range 30).map fun i => (i, i * i)]

/-- The threads' lists. -/
def theirs : List (List (List (Nat × Nat))) := [[(List.range 20).map fun i => (i, 0)], [[]]]

theorem threads_ok {b c : HMap} : ∀ job ∈ ([⟨looker, [b]⟩, ⟨filler, [c]⟩] : List (Job Nat Nat Nat)), ∀ c ∈ job.calls, c.Ok := by
  have h1 : ∀ c ∈ looker, c.Ok := by simp [looker, Call.Ok, Op.shared]
  have h2 : ∀ c ∈ filler, c.Ok := by simp [filler, Call.Ok, Op.shared]
  intro job hj
  simp only [List.mem_cons, List.not_mem_nil, or_false] at hj
  rcases hj with rfl | rfl
  · exact h1
  · exact h2

theorem threads_lists : (Op.specs id threeMaps []).2 = squares ++ theirs.flatten := by decide +kernel
theorem looker_told : (Call.specs id squares looker [(List.range 20).map fun i => (i, 0)]).1 = lookerTold := by decide +kernel
theorem filler_told : (Call.specs id squares filler [[]]).1 = fillerTold := by decide +kernel

/-- However the two threads are interleaved, these are the answers they get. -/
example : ∃ (a b c : HMap) (s : Heap.Heap Nat Nat), Op.hprog id threeMaps [] (Heap.start allOk reuse) = .ok (([.done, .done, .done, .done, .done], true, [a] ++ moved [⟨looker, [b]⟩, ⟨filler, [c]⟩]), s) ∧
    ∀ d, TakesApart id d → ∀ js, ∃ ts s', interleave js (spawn d [a] [⟨looker, [b]⟩, ⟨filler, [c]⟩]) s = some (ts, s') ∧
      (∀ t, ts[0]? = some t → t.Ended → ∃ p, t = .done (lookerTold, true, p)) ∧ (∀ t, ts[1]? = some t → t.Ended → ∃ p, t = .done (fillerTold, true, p)) := by
  obtain ⟨a, b, c, s, hr⟩ := threeMaps_run
  refine ⟨a, b, c, s, hr, fun d hd js => ?_⟩
  cases h : interleave js (spawn d [a] [⟨looker, [b]⟩, ⟨filler, [c]⟩]) s with
  | none => exact absurd h (C73_no_ub (sh := [a]) hr threads_ok hd js)
  | some r =>
    obtain ⟨ts, s'⟩ := r
    have key := fun {j : Nat} {job : Job Nat Nat Nat} (hj : [⟨looker, [b]⟩, ⟨filler, [c]⟩][j]? = some job) {l : List (List (Nat × Nat))} (hl : theirs[j]? = some l)
        {t : Prog Nat Nat (List (Out Nat Nat) × Bool × List HMap)} (ht : ts[j]? = some t) (he : t.Ended) =>
      C73_answers (bor := id) (fun _ _ => rfl) (al := allOk) (fun _ => rfl) (sh := [a]) hr threads_ok hd threads_lists rfl rfl h hj hl ht he
    refine ⟨ts, s', rfl, fun t ht he => ?_, fun t ht he => ?_⟩
    · have := key (j := 0) rfl rfl ht he
      rwa [looker_told] at this
    · have := key (j := 1) rfl rfl ht he
      rwa [filler_told] at this

end Verif.Props
