import Verif.Heap.Proofs.Copy
import Verif.Heap.Proofs.Parts
/-
Threads: the calls of one thread.
-/
namespace Verif.Heap
open Verif
open Verif.BTree (Map)
open Verif.Spec (Op Out)

variable {K V Q α β : Type} {ro : Cells K V} {mem : Prop} {E : String → Prop}

/-! ### calls -/

/-- What is kept of the maps. -/
structure Keeps [Ord K] [Ord Q] (bor : K → Q) (mem : Prop) (I : Map K V → Prop) : Prop where
  wf : ∀ m, I m → m.WF
  run : ∀ ms al (op : Op K V Q) o ms' al', (∀ m ∈ ms, I m) → (mem → al.Good) → BTree.Op.run bor ms al op = .ok (o, ms', al') → Op.spoils op o = true ∨ ∀ m ∈ ms', I m

/-- The ways a call may be unwound. -/
def Panics [Ord K] [Ord Q] (bor : K → Q) (mem : Prop) (I : Map K V → Prop) (msg : String) : Prop :=
  ∃ ms al, ∃ op : Op K V Q, (∀ m ∈ ms, I m) ∧ (mem → al.Good) ∧ BTree.Op.run bor ms al op = .panic msg

variable [Ord K] [Ord Q] {bor : K → Q} {I : Map K V → Prop}

/-- A call in a row. -/
theorem hrun_ends {hs : List HMap} {ms : List (Map K V)} (hI : Keeps bor mem I) (hm : ∀ m ∈ ms, I m) {op : Op K V Q} {w : Cells K V} (hw : pool hs ms ⟨w, none⟩)
    {n : Nat} (hb : Below w n) {next : Nat} {al : Alloc} {pl : Nat → Addr} (hn : n ≤ next) (ha : mem → al.Good) :
    EndsWell (Panics (Q := Q) bor mem I) (fun r c => ∃ al ms' al', (mem → al.Good) ∧ BTree.Op.run bor ms al op = .ok (r.1, ms', al') ∧ (pool r.2 ms' ∗ spill op.inserts r.1) ⟨c, none⟩)
      (Op.hrun bor hs op ⟨w, next, al, pl⟩) := by
  have h := hrun_ref (E := Panics (Q := Q) bor mem I) bor (fun m hm' => hI.wf m (hm m hm')) al op (hs := hs) (fun msg hp => ⟨ms, al, op, hm, ha, hp⟩) emp ⟨w, next, al, pl⟩
    ⟨fun x hx => hb.1 x (Nat.le_trans hn hx), hb.2.1, Nat.lt_of_lt_of_le hb.2.2 hn⟩ ?_
  · cases hr : Op.hrun bor hs op ⟨w, next, al, pl⟩ with
    | ub => rw [hr] at h; exact h.elim
    | panic msg => rw [hr] at h; exact h
    | ok r =>
      rw [hr] at h
      obtain ⟨_, h2⟩ := h
      rw [sep_emp] at h2
      obtain ⟨⟨ms', al'⟩, h3⟩ := h2
      obtain ⟨h4, h5⟩ := fact_sep.1 h3
      refine ⟨al, ms', al', ha, h4, ?_⟩
      have h6 : (sched al' ∗ pool r.1.2 ms' ∗ spill op.inserts r.1.1) r.2.world := by
        rw [sep_left_comm] at h5; exact h5
      obtain ⟨w₁, w₂, hd, hu, rfl, h7⟩ := h6
      have hc : w₂ = ⟨r.2.cells, none⟩ := by
        have e1 : r.2.cells = fun x => (none : Option (Node K V)).or (w₂.cells x) := congrArg World.cells hu
        have e2 := hd.2
        cases w₂ with
        | mk c sc =>
          simp only [reduceCtorEq, false_or] at e2
          subst e2
          simp only [Option.none_or] at e1
          rw [e1]
      rw [← hc]; exact h7
  · rw [sep_emp]
    refine ⟨⟨w, none⟩, ⟨fun _ => none, some al⟩, ⟨fun x => .inr rfl, .inl rfl⟩, ?_, hw, rfl⟩
    simp [World.union, Heap.world]

/-- What a thread computes, one call at a time, on the level of Verif/BTree: with whatever the allocator answers. -/
def Ran (bor : K → Q) (mem : Prop) (psh : List (Map K V)) : List (Call K V Q) → List (Map K V) → List (Out K V) × Bool → List (Map K V) → Prop
  | [], ms, r, ms' => r = ([], true) ∧ ms' = ms
  | .shared op :: cs, ms, r, ms' => ∃ al o q al' r', (mem → al.Good) ∧ BTree.Op.run bor psh al op = .ok (o, q, al') ∧ Ran bor mem psh cs ms r' ms' ∧ r = (o :: r'.1, r'.2)
  | .copy op :: cs, ms, r, ms' => ∃ al o x al' r', (mem → al.Good) ∧ BTree.Op.run bor psh al op = .ok (o, psh ++ x, al') ∧ Ran bor mem psh cs (ms ++ x) r' ms' ∧ r = (o :: r'.1, r'.2)
  | .own op :: cs, ms, r, ms' => ∃ al o q al', (mem → al.Good) ∧ BTree.Op.run bor ms al op = .ok (o, q, al') ∧
    ((Op.spoils op o = true ∧ r = ([o], false) ∧ ms' = q) ∨ (Op.spoils op o = false ∧ ∃ r', Ran bor mem psh cs q r' ms' ∧ r = (o :: r'.1, r'.2)))

/-- What is left of the memory when a thread has ended. -/
def ThreadPost (bor : K → Q) (mem : Prop) (I : Map K V → Prop) (psh : List (Map K V)) (cs : List (Call K V Q)) (ms : List (Map K V)) (r : List (Out K V) × Bool × List HMap) (w : Cells K V) : Prop :=
  ∃ ms', Ran bor mem psh cs ms (r.1, r.2.1) ms' ∧ (r.2.1 = true → ∀ m ∈ ms', I m) ∧ (pool r.2.2 ms' ∗ leak r.2.1) ⟨w, none⟩

/-- A copying call in a row. -/
theorem hrun_copies {hs : List HMap} {ms : List (Map K V)} (hI : Keeps bor mem I) (hm : ∀ m ∈ ms, I m) {op : Op K V Q} (hop : Op.copies op = true) (hw : pool hs ms ⟨ro, none⟩)
    {n : Nat} (hb : Below ro n) {next : Nat} {al : Alloc} {pl : Nat → Addr} (hn : n ≤ next) (ha : mem → al.Good) :
    EndsWell (Panics (Q := Q) bor mem I) (fun r c => ∃ v al x al', Apart v ro ∧ c = both v ro ∧ (mem → al.Good) ∧ BTree.Op.run bor ms al op = .ok (r.1, ms ++ x, al') ∧ pool (r.2.drop hs.length) x ⟨v, none⟩)
      (Op.hrun bor hs op ⟨ro, next, al, pl⟩) := by
  have h := copyP_look (ro := ro) (E := Panics (Q := Q) bor mem I) (bor := bor) (hs := hs) ⟨ro, fun _ _ h => h, hw⟩ (fun m hm' => hI.wf m (hm m hm')) hop (al := al)
    (fun msg hp => ⟨ms, al, op, hm, ha, hp⟩) emp ⟨ro, next, al, pl⟩ ⟨fun x hx => hb.1 x (Nat.le_trans hn hx), hb.2.1, Nat.lt_of_lt_of_le hb.2.2 hn⟩
    ⟨fun _ => none, fun _ => .inl rfl, by funext x; simp [both], by rw [sep_emp]; rfl⟩
  have h2 := h.whole
  rw [copyP_whole bor hs hop] at h2
  revert h2
  cases Op.hrun bor hs op ⟨ro, next, al, pl⟩ with
  | ub => exact id
  | panic msg => exact id
  | ok r =>
    rintro ⟨_, v, h1, h3, h4⟩
    rw [sep_emp] at h4
    obtain ⟨⟨x, al'⟩, h5⟩ := h4
    obtain ⟨h6, h7⟩ := fact_sep.1 h5
    refine ⟨v, al, x, al', h1, h3, ha, h6, ?_⟩
    rw [sep_comm] at h7
    exact sched_off (s := ⟨v, 0, r.2.alloc, fun _ => 0⟩) h7

theorem both_inj {v v' : Cells K V} (h : Apart v ro) (h' : Apart v' ro) (he : both v ro = both v' ro) : v = v' := by
  funext x
  have := congrFun he x
  unfold both at this
  rcases h x with h1 | h1
  · rcases h' x with h2 | h2
    · rw [h1, h2]
    · rw [h1, h2] at this; simpa [h1] using this
  · rcases h' x with h2 | h2
    · rw [h1, h2] at this; simpa [h2] using this
    · rw [h1] at this; simpa using this

/-- A thread keeps clear of the shared nodes. -/
theorem Prog.Fine.beside {F : α → Cells K V → Prop} {t : Prog K V α} : ∀ {w : Cells K V}, t.Fine ro mem E F w → Apart w ro →
    t.Fine ro mem E (fun a w' => F a w' ∧ Apart w' ro) w := by
  have hro : ∀ {w : Cells K V} {a : Addr} {nd : Node K V}, Apart w ro → w a = some nd → ro a = none := fun h1 h2 => (h1 _).resolve_left (by rw [h2]; simp)
  induction t with
  | done a => exact fun h h1 => ⟨h, h1⟩
  | ub => exact fun h _ => h
  | panic msg => exact fun h _ => h
  | read a k ih => exact fun ⟨h1, nd, h2, h3⟩ ha => ⟨h1, nd, h2, ih nd h3 ha⟩
  | write a nd k ih => exact fun ⟨h1, ⟨nd', h2⟩, h3⟩ ha => ⟨h1, ⟨nd', h2⟩, ih h3 (ha.upd (hro ha h2))⟩
  | alloc lay k ih => exact fun ⟨h1, h2⟩ ha => ⟨fun a h3 h4 h5 => ih _ (h1 a h3 h4 h5) (ha.upd h5), fun hm => ih _ (h2 hm) ha⟩
  | free a lay k ih => exact fun ⟨h1, ⟨nd, h2, h4⟩, h3⟩ ha => ⟨h1, ⟨nd, h2, h4⟩, ih h3 (ha.upd (hro ha h2))⟩

theorem below_later {w : Cells K V} {n n' : Nat} (h : Below w n) (hn : n ≤ n') : Below w n' := ⟨fun x hx => h.1 x (Nat.le_trans hn hx), h.2.1, Nat.lt_of_lt_of_le h.2.2 hn⟩

theorem copies_spoils {op : Op K V Q} (h : Op.copies op = true) {o : Out K V} : Op.spoils op o = false := by
  cases op <;> first | (simp [Op.copies] at h; done) | rfl

theorem thread_fine {d : List HMap → Op K V Q → Prog K V (Out K V × List HMap)} (hd : TakesApart bor d) (hI : Keeps bor mem I) {sh : List HMap} {psh : List (Map K V)} (hps : ∀ m ∈ psh, I m)
    (hro : pool sh psh ⟨ro, none⟩) {n0 : Nat} (hrb : Below ro n0)
    (hsp : ∀ op, Op.copies op = true → ∀ next al pl, n0 ≤ next → (mem → al.Good) → (d sh op).Spares (fun a => ro a ≠ none) ⟨ro, next, al, pl⟩) :
    ∀ (cs : List (Call K V Q)) {own : List HMap} {ms : List (Map K V)} {w : Cells K V}, (∀ c ∈ cs, c.Ok) →
    (∀ m ∈ ms, I m) → pool own ms ⟨w, none⟩ → Low w → Apart w ro →
    (thread d sh cs own).Fine ro mem (Panics (Q := Q) bor mem I) (fun r w => ThreadPost bor mem I psh cs ms r w) w
  | [], own, ms, w, _, hm, hw, hb, har => by
    refine ⟨ms, ⟨rfl, rfl⟩, fun _ => hm, ?_⟩
    show (pool own ms ∗ emp) _
    rw [sep_emp]; exact hw
  | .shared op :: cs, own, ms, w, hc, hm, hw, hb, har => by
    have hop : Op.shared op = true := hc (.shared op) (by simp)
    have h1 := hrun_ends (op := op) (pl := fun _ => 0) hI hps hro hrb (Nat.le_refl n0) (al := fun _ => true) fun _ _ => rfl
    rw [← hd.whole] at h1
    have h2 := fine_of_looks (mem := mem) (w := w) (hd.looks sh op hop) (s := ⟨ro, n0, fun _ => true, fun _ => 0⟩) rfl
      (F := fun r => ∃ al ms' al', (mem → al.Good) ∧ BTree.Op.run bor psh al op = .ok (r.1, ms', al')) (E := Panics (Q := Q) bor mem I) (by
        revert h1
        cases (d sh op).whole ⟨ro, n0, fun _ => true, fun _ => 0⟩ with
        | ok r => exact fun ⟨al, ms', al', h1, h2, _⟩ => ⟨al, ms', al', h1, h2⟩
        | ub => exact id
        | panic msg => exact id)
    unfold thread
    refine h2.bind ?_
    rintro r w ⟨⟨al, ms', al', h3, h4⟩, rfl⟩
    refine Prog.Fine.bind (thread_fine hd hI hps hro hrb hsp cs (fun c h => hc c (by simp [h])) hm hw hb har) ?_
    rintro rs w ⟨ms2, h5, h6, h7⟩
    exact ⟨ms2, ⟨al, r.1, ms', al', (rs.1, rs.2.1), h3, h4, h5, rfl⟩, h6, h7⟩
  | .own op :: cs, own, ms, w, hc, hm, hw, hb, har => by
    obtain ⟨n, hb'⟩ := hb
    have h2 := fine_of_whole (ro := ro) hb' fun next al pl hn ha => by
      have := hrun_ends (op := op) (pl := pl) hI hm hw hb' hn ha
      rw [← hd.whole] at this
      exact this
    unfold thread
    refine ((h2.low ⟨n, hb'⟩).beside har).bind ?_
    rintro ⟨o, own'⟩ w ⟨⟨⟨al, ms', al', h3, h4, h5⟩, hb⟩, har⟩
    dsimp only at h4 h5 ⊢
    by_cases hspo : Op.spoils op o = true
    · rw [if_pos hspo]
      refine ⟨ms', ⟨al, o, ms', al', h3, h4, .inl ⟨hspo, rfl, rfl⟩⟩, by simp, ?_⟩
      exact Ent.sep (Ent.refl _) spill_leak _ h5
    · rw [if_neg hspo]
      have hsp' : Op.spoils op o = false := by simpa using hspo
      rw [spill_keep hsp', sep_emp] at h5
      have hm' := (hI.run _ _ _ _ _ _ hm h3 h4).resolve_left hspo
      refine Prog.Fine.bind (thread_fine hd hI hps hro hrb hsp cs (fun c h => hc c (by simp [h])) hm' h5 hb har) ?_
      rintro rs w ⟨ms2, h6, h7, h8⟩
      exact ⟨ms2, ⟨al, o, ms', al', h3, h4, .inr ⟨hsp', (rs.1, rs.2.1), h6, rfl⟩⟩, h7, h8⟩

  | .copy op :: cs, own, ms, w, hc, hm, hw, hb, har => by
    have hop : Op.copies op = true := hc (.copy op) (by simp)
    have e0 : both (fun _ => none) ro = ro := by funext x; simp [both]
    have e1 : both w (fun _ => none) = w := by funext x; simp [both]
    have h2 := fine_of_spares (ro := ro) (mem := mem) (n := n0) (w := w) (v := fun _ => none) (t := d sh op) (fun _ => .inl rfl) (fun _ => .inr rfl)
      fun next al pl hn ha => by
        have := hrun_copies (pl := pl) hI hps hop hro hrb hn ha
        rw [← hd.whole] at this
        rw [e0]
        exact ⟨this, hsp op hop next al pl hn ha⟩
    rw [e1] at h2
    unfold thread
    refine ((h2.low hb).beside har).bind ?_
    rintro ⟨o, p⟩ w' ⟨⟨⟨v, g1, g2, rfl, v', al, x, al', g3, g4, g5, g6, g7⟩, hb'⟩, har'⟩
    obtain rfl := both_inj g1 g3 g4
    dsimp only at g6 g7 ⊢
    have hm' : ∀ m ∈ ms ++ x, I m := fun m hmm => by
      rcases List.mem_append.1 hmm with hmm | hmm
      · exact hm m hmm
      · exact (hI.run _ _ _ _ _ _ hps g5 g6).resolve_left (by rw [copies_spoils hop]; simp) m (by simp [hmm])
    refine Prog.Fine.bind (thread_fine hd hI hps hro hrb hsp cs (fun c h => hc c (by simp [h])) hm' (pool_join _ (cells_sep hw g7 g2)) hb' har') ?_
    rintro rs w ⟨ms2, h6, h7, h8⟩
    exact ⟨ms2, ⟨al, o, x, al', (rs.1, rs.2.1), g5, g6, h6, rfl⟩, h7, h8⟩

end Verif.Heap
