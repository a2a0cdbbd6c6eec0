import Verif.Heap.Proofs.ConcWhole
import Verif.Heap.Proofs.Program
import Verif.Props.Heap
/-
Threads that use the whole API: what is true however they take turns.
-/
namespace Verif.Heap
open Verif
open Verif.BTree (Map)
open Verif.Spec (Turn)

variable {K V A X : Type} {lawful mem : Prop}
variable [Ord K] {right : List (List (K × V)) → A → X → List (List (K × V)) → Prop} {stops : A → X → Prop}
  {L : Api K V A X} {fit : A → Prop} {d : List HMap → A → Prog K V (X × List HMap)} {s : Heap K V} {sh : List HMap} {tasks : List (Worker A)} {ms : List (Map K V)}

/-- Everything is ready to start the threads. -/
structure Ready (lawful mem : Prop) (L : Api K V A X) (fit : A → Prop) (s : Heap K V) (sh : List HMap) (tasks : List (Worker A)) (ms : List (Map K V)) : Prop where
  good : s.Good
  mem : mem → s.alloc.Good
  wf : ∀ m ∈ ms, m.WF
  valid : lawful → ∀ m ∈ ms, m.Valid
  here : pool (sh ++ given tasks) ms ⟨s.cells, none⟩
  ok : ∀ t ∈ tasks, ∀ c ∈ t.turns, c.Ok L.looks L.makes ∧ fit (Turn.act c)

theorem tasks_no_ub (hd : L.TakesApart d) (hO : Obeys lawful mem right stops L fit) (h : Ready lawful mem L fit s sh tasks ms) (js : List Nat) : interleave js (L.spawn d sh tasks) s ≠ none := by
  obtain ⟨psh, mss, w, _, _, _, _, _, h⟩ := tasks_start hd hO h.good h.mem h.wf h.valid h.here h.ok
  obtain ⟨ts', s', w', h1, _⟩ := h.run js
  rw [h1]; simp

theorem tasks_no_race (hd : L.TakesApart d) (hO : Obeys lawful mem right stops L fit) (h : Ready lawful mem L fit s sh tasks ms) {js : List Nat}
    {ts : List (Prog K V (List X × Bool × List HMap))} {s' : Heap K V} (hi' : interleave js (L.spawn d sh tasks) s = some (ts, s'))
    {i j : Nat} (hij : i ≠ j) {t u : Prog K V (List X × Bool × List HMap)} (hi : ts[i]? = some t) (hj : ts[j]? = some u) {a : Addr} (ht : t.changes a) : ¬ u.touches a := by
  obtain ⟨psh, mss, w, _, _, _, _, _, hg⟩ := tasks_start hd hO h.good h.mem h.wf h.valid h.here h.ok
  obtain ⟨ts', s2, w', h1, h2⟩ := hg.run js
  rw [hi'] at h1
  simp only [Option.some.injEq, Prod.mk.injEq] at h1
  obtain ⟨rfl, rfl⟩ := h1
  have h3 := h2.fine i t hi
  have h4 := h2.fine j u hj
  have hmine : ∃ nd, w' i a = some nd := by
    cases t with
    | write b nd k => obtain rfl := ht; exact h3.2.1
    | free b lay k => obtain rfl := ht; obtain ⟨nd, h5, _⟩ := h3.2.1; exact ⟨nd, h5⟩
    | done r => exact ht.elim
    | ub => exact ht.elim
    | panic msg => exact ht.elim
    | read b k => exact ht.elim
    | alloc lay k => exact ht.elim
  obtain ⟨nd, hnd⟩ := hmine
  have hother : w' j a = none := (h2.apart i j a hij).resolve_left (by rw [hnd]; simp)
  have hshared : s.only sh a = none := (h2.aside i a).resolve_left (by rw [hnd]; simp)
  intro hu
  cases u with
  | write b n k => obtain rfl := hu; obtain ⟨n', h5⟩ := h4.2.1; rw [hother] at h5; cases h5
  | free b lay k => obtain rfl := hu; obtain ⟨n', h5, _⟩ := h4.2.1; rw [hother] at h5; cases h5
  | read b k =>
    obtain rfl := hu
    obtain ⟨n', h5, _⟩ := h4.2
    rcases h5 with h5 | h5
    · rw [hother] at h5; cases h5
    · rw [hshared] at h5; cases h5
  | done r => exact hu.elim
  | ub => exact hu.elim
  | panic msg => exact hu.elim
  | alloc lay k => exact hu.elim

theorem tasks_ends (hd : L.TakesApart d) (hO : Obeys lawful mem right stops L fit) (h : Ready lawful mem L fit s sh tasks ms)
    {f : Nat → Nat} {j : Nat} (hj : j < tasks.length) (hf : ∀ m, ∃ m', m ≤ m' ∧ f m' = j) :
    ∃ m ts s', interleave (turns f m) (L.spawn d sh tasks) s = some (ts, s') ∧ ∃ t, ts[j]? = some t ∧ t.Ended := by
  obtain ⟨psh, mss, w, _, _, _, _, _, h⟩ := tasks_start hd hO h.good h.mem h.wf h.valid h.here h.ok
  have hl : j < (L.spawn d sh tasks).length := by simpa [Api.spawn] using hj
  exact h.ends _ hf (List.getElem?_eq_getElem hl)

theorem tasks_alone (hd : L.TakesApart d) (hO : Obeys lawful mem right stops L fit) (h : Ready lawful mem L fit s sh tasks ms)
    {js : List Nat} {ts : List (Prog K V (List X × Bool × List HMap))} {s' : Heap K V} (hi : interleave js (L.spawn d sh tasks) s = some (ts, s'))
    {j : Nat} {t : Worker A} (hj : tasks[j]? = some t) :
    ∃ next al' pl', s.next ≤ next ∧ (mem → al'.Good) ∧
      (∀ r, ts[j]? = some (.done r) → ∃ s2, L.alone sh t.turns t.maps ⟨s.only (sh ++ t.maps), next, al', pl'⟩ = .ok (r, s2)) ∧
      ∀ msg, ts[j]? = some (.panic msg) → L.alone sh t.turns t.maps ⟨s.only (sh ++ t.maps), next, al', pl'⟩ = .panic msg := by
  obtain ⟨psh, mss, w, _, _, _, _, hw, hg⟩ := tasks_start hd hO h.good h.mem h.wf h.valid h.here h.ok
  obtain ⟨ts', s2, w', h1, h2⟩ := hg.run js
  rw [hi] at h1
  simp only [Option.some.injEq, Prod.mk.injEq] at h1
  obtain ⟨rfl, rfl⟩ := h1
  have h0 : (L.spawn d sh tasks)[j]? = some (L.thread d sh t.turns t.maps) := by
    unfold Api.spawn; rw [List.getElem?_map, hj]; rfl
  have hl : j < ts.length := by
    rw [h2.len]; exact (List.getElem?_eq_some_iff.1 h0).1
  obtain ⟨next, al', pl', h3, h4, h5⟩ := h2.solo j _ _ (List.getElem?_eq_getElem hl) h0 s'.next (fun _ => true) (fun _ => 0) (Nat.le_refl _) fun _ _ => rfl
  rw [task_whole hd, hw j t hj, ← only_append] at h5
  refine ⟨next, al', pl', h3, h4, fun r hr => ?_, fun msg hr => ?_⟩
  · rw [List.getElem?_eq_getElem hl] at hr
    rw [h5, Option.some.inj hr]
    exact ⟨_, rfl⟩
  · rw [List.getElem?_eq_getElem hl] at hr
    rw [h5, Option.some.inj hr]
    rfl

theorem tasks_pool {psh : List (Map K V)} {mss : List (List (Map K V))} {ro : Cells K V} {w fs : Nat → Cells K V} {s' : Heap K V}
    (hm : mss.map List.length = tasks.map (·.maps.length)) (hro : pool sh psh ⟨ro, none⟩)
    {rs : List (List X × Bool × List HMap)} (hg : Going ro mem (fun _ => lawful → ¬ mem) (TaskLeft lawful mem right stops psh tasks mss) s (L.spawn d sh tasks) fs (rs.map .done) s' w)
    (hb : ∀ r ∈ rs, r.2.1 = true) : ∃ mss' : List (List (Map K V)), pool (sh ++ (rs.map (·.2.2)).flatten) (psh ++ mss'.flatten) ⟨s'.cells, none⟩ ∧ mss'.length = tasks.length ∧
      ∀ (j : Nat) r t mj mj', rs[j]? = some r → tasks[j]? = some t → mss[j]? = some mj → mss'[j]? = some mj' →
        (∀ m ∈ mj', m.WF) ∧ Turn.Rights right stops (psh.map Map.toList) t.turns (mj.map Map.toList) r.1 (mj'.map Map.toList) := by
  have hlr : rs.length = tasks.length := by simpa [Api.spawn] using hg.len
  have hlm : mss.length = tasks.length := by simpa using congrArg List.length hm
  have hex : ∀ j : Nat, ∃ mj', ∀ r t mj, rs[j]? = some r → tasks[j]? = some t → mss[j]? = some mj →
      ((∀ m ∈ mj', m.WF) ∧ Turn.Rights right stops (psh.map Map.toList) t.turns (mj.map Map.toList) r.1 (mj'.map Map.toList)) ∧ pool r.2.2 mj' ⟨w j, none⟩ := by
    intro j
    by_cases hj : j < tasks.length
    · have h1 : rs[j]? = some rs[j] := by rw [List.getElem?_eq_getElem]
      have h2 : mss[j]? = some mss[j] := by rw [List.getElem?_eq_getElem]
      have h3 := hg.fine j (.done rs[j]) (by rw [List.getElem?_map, h1]; rfl)
      have h4 := (show TaskLeft lawful mem right stops psh tasks mss j rs[j] (w j) from h3) tasks[j] mss[j] (by rw [List.getElem?_eq_getElem]) h2
      have hbj := hb rs[j] (List.getElem_mem _)
      unfold TaskPost at h4
      rw [hbj] at h4
      obtain ⟨ms', h4, h5, h6⟩ := h4
      refine ⟨ms', fun r t mj hr ht hmj => ?_⟩
      rw [h1] at hr
      rw [h2] at hmj
      rw [List.getElem?_eq_getElem hj] at ht
      cases hr; cases hmj; cases ht
      exact ⟨⟨h5, h4⟩, h6⟩
    · exact ⟨[], fun r t mj _ ht => by rw [List.getElem?_eq_none (by omega)] at ht; cases ht⟩
  obtain ⟨g, hgm⟩ := Classical.axiomOfChoice hex
  refine ⟨(List.range tasks.length).map g, ?_, by simp, ?_⟩
  · refine pool_join _ ?_
    have hboth : s'.cells = both ro fun x => if (ro x).isSome then none else s'.cells x := by
      funext x
      unfold both
      cases h0 : ro x with
      | none => simp [h0]
      | some nd => simp [hg.look x nd h0]
    rw [hboth]
    refine cells_sep hro ?_ fun x => ?_
    · refine parts_pool (w := w) ?_ (by simp [hlr]) hg.apart (fun j x hj => hg.out j x (by simpa [Api.spawn, hlr] using hj)) ?_ ?_
      · intro j hs mj' h1 h2
        obtain ⟨r, h3, rfl⟩ := Option.map_eq_some_iff.1 ((List.getElem?_map ..).symm.trans h1)
        have hj : j < tasks.length := hlr ▸ (List.getElem?_eq_some_iff.1 h3).1
        rw [List.getElem?_map, List.getElem?_range hj] at h2
        simp only [Option.map_some, Option.some.injEq] at h2
        subst h2
        exact (hgm j r tasks[j] mss[j] h3 (by rw [List.getElem?_eq_getElem]) (by rw [List.getElem?_eq_getElem])).2
      · intro j x nd hx
        have : ro x = none := (hg.aside j x).resolve_left (by rw [hx]; simp)
        simp only [this]
        exact hg.mine j x nd hx
      · intro x nd hx
        cases h0 : ro x with
        | some n => rw [h0] at hx; simp at hx
        | none =>
          rw [h0] at hx
          exact (hg.all x nd (by simpa using hx)).resolve_left fun h => h h0
    · cases h0 : ro x with
      | none => exact .inl rfl
      | some nd => exact .inr (by simp)
  · intro j r t mj mj' h1 h2 h3 h4
    have hj : j < tasks.length := (List.getElem?_eq_some_iff.1 h2).1
    rw [List.getElem?_map, List.getElem?_range hj] at h4
    simp only [Option.map_some, Option.some.injEq] at h4
    subst h4
    exact (hgm j r t mj h1 h2 h3).1

/-- Everything that the threads are told, and what is left of them. -/
theorem tasks_told (hd : L.TakesApart d) (hO : Obeys lawful mem right stops L fit) (h : Ready lawful mem L fit s sh tasks ms) :
    ∃ (lsh : List (List (K × V))) (low : List (List (List (K × V)))), ms.map Map.toList = lsh ++ low.flatten ∧ lsh.length = sh.length ∧ low.map List.length = tasks.map (·.maps.length) ∧
      ∀ (js : List Nat) (ts : List (Prog K V (List X × Bool × List HMap))) (s' : Heap K V), interleave js (L.spawn d sh tasks) s = some (ts, s') → ts.length = tasks.length ∧
        (∀ (j : Nat) t l r, tasks[j]? = some t → low[j]? = some l → ts[j]? = some (.done r) → Turn.Told right stops (lawful → ¬ mem) lsh t.turns l r.1 r.2.1) ∧
        (∀ (j : Nat) msg, ts[j]? = some (.panic msg) → lawful → ¬ mem) ∧
        ∀ rs : List (List X × Bool × List HMap), ts = rs.map .done → (∀ r ∈ rs, r.2.1 = true) → ∃ low' : List (List (List (K × V))), low'.length = tasks.length ∧
          (∀ (j : Nat) t l r l', tasks[j]? = some t → low[j]? = some l → rs[j]? = some r → low'[j]? = some l' → Turn.Rights right stops lsh t.turns l r.1 l') ∧
          ∃ s2, dropAll (sh ++ (rs.map (·.2.2)).flatten) s' = .ok (lsh ++ low'.flatten, s2) ∧ ∀ a, s2.cells a = none := by
  obtain ⟨psh, mss, w, rfl, hl, hm, hro, _, hg⟩ := tasks_start hd hO h.good h.mem h.wf h.valid h.here h.ok
  refine ⟨psh.map Map.toList, mss.map (·.map Map.toList), by rw [List.map_append, List.map_flatten], by simpa using hl, by rw [← hm, List.map_map]; congr 1; funext l; simp, ?_⟩
  intro js ts s' hi
  obtain ⟨ts', s2, w', h1, h2⟩ := hg.run js
  rw [hi] at h1
  simp only [Option.some.injEq, Prod.mk.injEq] at h1
  obtain ⟨rfl, rfl⟩ := h1
  refine ⟨by simpa [Api.spawn] using h2.len, fun j t l r hj hlj hr => ?_, fun j msg hr => h2.fine j _ hr, ?_⟩
  · rw [List.getElem?_map] at hlj
    obtain ⟨mj, hmj, rfl⟩ := Option.map_eq_some_iff.1 hlj
    have h3 := (show TaskLeft lawful mem right stops psh tasks mss j r (w' j) from h2.fine j _ hr) t mj hj hmj
    unfold TaskPost at h3
    unfold Turn.Told
    cases hb : r.2.1 with
    | true =>
      rw [hb] at h3
      obtain ⟨ms', h4, _⟩ := h3
      exact ⟨_, h4⟩
    | false =>
      rw [hb] at h3
      exact h3
  · rintro rs rfl hb
    obtain ⟨mss', h3, h4, h5⟩ := tasks_pool hm hro h2 hb
    have hlr : rs.length = tasks.length := by simpa [Api.spawn] using h2.len
    have hlm : mss.length = tasks.length := by simpa using congrArg List.length hm
    have hwf : ∀ m ∈ psh ++ mss'.flatten, m.WF := by
      intro m hmm
      rcases List.mem_append.1 hmm with hmm | hmm
      · exact h.wf m (by simp [hmm])
      · obtain ⟨mj', hmj, hmm⟩ := List.mem_flatten.1 hmm
        obtain ⟨j, hj⟩ := List.mem_iff_getElem?.1 hmj
        have hjl : j < tasks.length := h4 ▸ (List.getElem?_eq_some_iff.1 hj).1
        exact (h5 j rs[j] tasks[j] mss[j] mj' (by rw [List.getElem?_eq_getElem]) (by rw [List.getElem?_eq_getElem]) (by rw [List.getElem?_eq_getElem]) hj).1 m hmm
    refine ⟨mss'.map (·.map Map.toList), by simpa using h4, ?_, ?_⟩
    · intro j t l r l' hj hlj hr hl'
      rw [List.getElem?_map] at hlj hl'
      obtain ⟨mj, hmj, rfl⟩ := Option.map_eq_some_iff.1 hlj
      obtain ⟨mj', hmj', rfl⟩ := Option.map_eq_some_iff.1 hl'
      exact (h5 j r t mj mj' hr hj hmj hmj').2
    · obtain ⟨s3, h6, h7⟩ := Props.all_freed (dropAll_spec hwf) h2.good (world_sched h3 s'.next s'.alloc s'.place)
      refine ⟨s3, ?_, h7⟩
      rw [h6, List.map_append, List.map_flatten]

end Verif.Heap
