import Verif.Heap.Proofs.CloneLook
import Verif.Heap.Proofs.Program
/-
Threads that copy shared maps.
-/
namespace Verif.Heap
open Verif
open Verif.BTree (Map)
open Verif.Spec (Op Out)

variable {K V Q α β : Type} {ro : Cells K V} {mem : Prop} {E : String → Prop}

/-! ### the accesses of a copying call -/

/-- `clone` and `try_clone`, taken apart. -/
noncomputable def copyP (p : List HMap) : Op K V Q → Prog K V (Out K V × List HMap)
  | .clone i =>
    match p[i]? with
    | some m => (m.cloneP id id).bind fun c => .done (.done, p ++ [c])
    | none => .done (.skipped, p)
  | .tryClone i ck cv =>
    match p[i]? with
    | some m => (m.tryCloneP (BTree.keyCloner ck) (BTree.valCloner cv)).bind fun r =>
      match r with
      | .ok c => .done (.done, p ++ [c])
      | .error _ => .done (.failed, p)
    | none => .done (.skipped, p)
  | _ => .ub

theorem copyP_whole [Ord K] [Ord Q] (bor : K → Q) (p : List HMap) {op : Op K V Q} (h : Op.copies op = true) : (copyP p op).whole = Op.hrun bor p op := by
  cases op <;> first | (simp [Op.copies] at h; done) | skip
  case clone i =>
    simp only [copyP, Op.hrun]
    cases p[i]? with
    | none => rfl
    | some m =>
      dsimp only
      rw [Prog.whole_bind, HMap.cloneP_whole]
      rfl
  case tryClone i ck cv =>
    simp only [copyP, Op.hrun]
    cases p[i]? with
    | none => rfl
    | some m =>
      dsimp only
      rw [Prog.whole_bind, HMap.tryCloneP_whole]
      congr 1; funext r
      cases r <;> rfl

/-- What a copying call leaves: the copies. -/
def Copied [Ord K] [Ord Q] (bor : K → Q) (hs : List HMap) (ms : List (Map K V)) (al : Alloc) (op : Op K V Q) (r : Out K V × List HMap) : HProp K V :=
  hex fun x : List (Map K V) × Alloc => fact (BTree.Op.run bor ms al op = .ok (r.1, ms ++ x.1, x.2)) ∗ sched x.2 ∗ pool (r.2.drop hs.length) x.1

theorem known_split {hs : List HMap} {ms : List (Map K V)} (hk : Known ro (pool hs ms)) {i : Nat} {M : Map K V} (hM : ms[i]? = some M) : ∃ hm, hs[i]? = some hm ∧ Known ro (rep hm M) := by
  obtain ⟨hl, hk⟩ := (hk.mono pool_length).fact
  obtain ⟨hm, F, h1, h2, _⟩ := pool_split hl hM
  exact ⟨hm, h1, Known.left (h2 ▸ hk)⟩

theorem copyP_look [Ord K] [Ord Q] {bor : K → Q} {hs : List HMap} {ms : List (Map K V)} (hk : Known ro (pool hs ms)) (hw : ∀ m ∈ ms, m.WF) {op : Op K V Q} (hc : Op.copies op = true) {al : Alloc}
    (hE : ∀ msg, BTree.Op.run bor ms al op = .panic msg → E msg) : LTriple ro E (sched al) (copyP hs op) (Copied bor hs ms al op) := by
  have hl := (hk.mono pool_length).fact.1
  have hskip : ∀ {i : Nat}, ms[i]? = none → hs[i]? = none := fun h => pool_none hl h
  have keep : ∀ (o : Out K V) (a : Alloc), BTree.Op.run bor ms al op = .ok (o, ms, a) → Ent (sched a) (Copied bor hs ms al op (o, hs)) := fun o a h => by
    refine Ent.hex_right ([], a) (Ent.putFact (by rw [h]; simp) ?_)
    rw [List.drop_length, pool_nil]
    simp only [sep_emp]
    ent_ac
  have more : ∀ (c : HMap) (C : Map K V) (o : Out K V) (a : Alloc), BTree.Op.run bor ms al op = .ok (o, ms ++ [C], a) → Ent (sched a ∗ rep c C) (Copied bor hs ms al op (o, hs ++ [c])) := fun c C o a h => by
    refine Ent.hex_right ([C], a) (Ent.putFact h ?_)
    rw [List.drop_left, pool_cons, pool_nil]
    simp only [sep_emp]
    ent_ac
  cases op <;> first | (simp [Op.copies] at hc; done) | skip
  case clone i =>
    simp only [copyP]
    cases hi : ms[i]? with
    | none =>
      rw [hskip hi]
      exact LTriple.ofPure (keep _ _ (by simp [BTree.Op.run, hi]))
    | some M =>
      obtain ⟨hm, h1, hk1⟩ := known_split hk hi
      rw [h1]
      dsimp only
      refine LTriple.seq (clone_look hk1 (hw M (List.mem_of_getElem? hi)) (al := al) (fun msg h => hE msg (by simp [BTree.Op.run, hi, h]))) fun c => ?_
      refine LTriple.ofHex fun x => ?_
      refine LTriple.getFact fun hx => ?_
      refine LTriple.ofPure (more c x.1 _ x.2 (by simp [BTree.Op.run, hi, hx]))
  case tryClone i ck cv =>
    simp only [copyP]
    cases hi : ms[i]? with
    | none =>
      rw [hskip hi]
      exact LTriple.ofPure (keep _ _ (by simp [BTree.Op.run, hi]))
    | some M =>
      obtain ⟨hm, h1, hk1⟩ := known_split hk hi
      rw [h1]
      dsimp only
      have hM := hw M (List.mem_of_getElem? hi)
      obtain ⟨res, al', h2, _⟩ := BTree.Map.tryClone_wf (BTree.keyCloner ck) (BTree.valCloner cv) hM al
      refine LTriple.seq (tryClone_look hk1 (shared_empty hM) h2) fun o => ?_
      cases res with
      | error e =>
        rw [copyPost_error]
        refine LTriple.getFact fun ho => ?_
        subst ho
        exact LTriple.ofPure (Ent.trans (Ent.of_eq (sep_emp _)) (keep _ _ (by simp [BTree.Op.run, hi, h2])))
      | ok C =>
        rw [copyPost_ok, sep_hex]
        refine LTriple.ofHex fun c => ?_
        refine LTriple.getFact fun ho => ?_
        subst ho
        refine LTriple.ofPure (more c C _ al' (by simp [BTree.Op.run, hi, h2]))

/-! ### sparing -/

theorem interleave_one {t t' : Prog K V α} {s s' : Heap K V} (h : t.step s = some (t', s')) (n : Nat) :
    interleave (List.replicate (n + 1) 0) [t] s = interleave (List.replicate n 0) [t'] s' := by
  rw [List.replicate_succ]
  show (match stepAt [t] 0 s with | none => none | some (ts', s') => interleave (List.replicate n 0) ts' s') = _
  simp [stepAt, h]

theorem interleave_stuck {t : Prog K V α} {s : Heap K V} (h : t.step s = none) (n : Nat) : interleave (List.replicate (n + 1) 0) [t] s = none := by
  rw [List.replicate_succ]
  show (match stepAt [t] 0 s with | none => none | some (ts', s') => interleave (List.replicate n 0) ts' s') = _
  simp [stepAt, h]

theorem Prog.Spares.now {S : Addr → Prop} {t : Prog K V α} {s : Heap K V} (h : t.Spares S s) : ∀ a, S a → ¬ t.changes a := h 0 t s rfl

theorem Prog.Spares.next {S : Addr → Prop} {t t' : Prog K V α} {s s' : Heap K V} (h : t.Spares S s) (hs : t.step s = some (t', s')) : t'.Spares S s' := fun n t2 s2 h2 =>
  h (n + 1) t2 s2 (by rw [interleave_one hs]; exact h2)

theorem Prog.Spares.intro {S : Addr → Prop} {t : Prog K V α} {s : Heap K V} (h0 : ∀ a, S a → ¬ t.changes a) (h : ∀ t' s', t.step s = some (t', s') → t'.Spares S s') : t.Spares S s := by
  intro n t2 s2 h2
  cases n with
  | zero => cases h2; exact h0
  | succ n =>
    cases hs : t.step s with
    | none => rw [interleave_stuck hs] at h2; cases h2
    | some x =>
      rw [interleave_one hs] at h2
      exact h x.1 x.2 hs n t2 s2 h2

theorem spares_ended {S : Addr → Prop} {t : Prog K V α} (he : t.Ended) (s : Heap K V) : t.Spares S s := by
  intro n
  induction n generalizing s with
  | zero =>
    intro t2 s2 h a ha hc
    cases h
    cases t <;> first | exact he.elim | exact hc.elim
  | succ n ih =>
    intro t2 s2 h
    have hs : t.step s = some (t, s) := by cases t <;> first | rfl | exact he.elim
    rw [interleave_one hs] at h
    exact ih s t2 s2 h

theorem Prog.Spares.weaken {S S' : Addr → Prop} (hS : ∀ a, S' a → S a) {t : Prog K V α} {s : Heap K V} (h : t.Spares S s) : t.Spares S' s := fun n t2 s2 h2 a ha => h n t2 s2 h2 a (hS a ha)

theorem Prog.Safe.spares {F : α → Heap K V → Prop} {t : Prog K V α} : ∀ {s : Heap K V}, t.Safe ro E F s → t.Spares (fun a => ro a ≠ none) s := by
  induction t with
  | done a => exact fun _ => spares_ended (by exact trivial) _
  | ub => exact fun h => h.elim
  | panic msg => exact fun _ => spares_ended (by exact trivial) _
  | read a k ih =>
    rintro s ⟨h1, nd, h2, h3⟩
    refine .intro (fun _ _ h => h) fun t' s' hs => ?_
    simp only [Prog.step, h1, if_false, h2, Option.some.injEq, Prod.mk.injEq] at hs
    obtain ⟨rfl, rfl⟩ := hs
    exact ih nd h3
  | write a nd k ih =>
    rintro s ⟨h1, h2, ⟨nd', h3⟩, h4⟩
    refine .intro (fun x hx h => hx (by rw [show x = a from h]; exact h2)) fun t' s' hs => ?_
    simp only [Prog.step, h1, if_false, h3, Option.some.injEq, Prod.mk.injEq] at hs
    obtain ⟨rfl, rfl⟩ := hs
    exact ih h4
  | alloc lay k ih =>
    intro s h
    refine .intro (fun _ _ h => h) fun t' s' hs => ?_
    simp only [Prog.Safe] at h
    simp only [Prog.step] at hs
    by_cases hb : s.alloc.request.1 = true
    · rw [if_pos hb] at h hs
      simp only [Option.some.injEq, Prod.mk.injEq] at hs
      obtain ⟨rfl, rfl⟩ := hs
      exact ih _ h
    · rw [if_neg hb] at h hs
      simp only [Option.some.injEq, Prod.mk.injEq] at hs
      obtain ⟨rfl, rfl⟩ := hs
      exact ih _ h
  | free a lay k ih =>
    rintro s ⟨h1, h2, ⟨nd, h3, h5⟩, h4⟩
    refine .intro (fun x hx h => hx (by rw [show x = a from h]; exact h2)) fun t' s' hs => ?_
    simp only [Prog.step, h1, if_false, h3, h5, if_true, Option.some.injEq, Prod.mk.injEq] at hs
    obtain ⟨rfl, rfl⟩ := hs
    exact ih h4

theorem Prog.Safe.runs {F : α → Heap K V → Prop} {t : Prog K V α} : ∀ {s : Heap K V}, t.Safe ro E F s → ∀ n, interleave (List.replicate n 0) [t] s ≠ none := by
  have ended : ∀ {t : Prog K V α} {s : Heap K V}, t.Ended → ∀ n, interleave (List.replicate n 0) [t] s ≠ none := by
    intro t s he n
    have hs : t.step s = some (t, s) := by cases t <;> first | rfl | exact he.elim
    induction n with
    | zero => exact nofun
    | succ n ih => rw [interleave_one hs]; exact ih
  induction t with
  | done a => exact fun _ => ended (by exact trivial)
  | ub => exact fun h => h.elim
  | panic msg => exact fun _ => ended (by exact trivial)
  | read a k ih =>
    rintro s ⟨h1, nd, h2, h3⟩ n
    cases n with
    | zero => exact nofun
    | succ n => rw [interleave_one (t' := k nd) (s' := s) (by simp [Prog.step, h1, h2])]; exact ih nd h3 n
  | write a nd k ih =>
    rintro s ⟨h1, h2, ⟨nd', h3⟩, h4⟩ n
    cases n with
    | zero => exact nofun
    | succ n => rw [interleave_one (t' := k) (s' := { s with cells := upd s.cells a (some nd) }) (by simp [Prog.step, h1, h3])]; exact ih h4 n
  | alloc lay k ih =>
    intro s h n
    simp only [Prog.Safe] at h
    cases n with
    | zero => exact nofun
    | succ n =>
      by_cases hb : s.alloc.request.1 = true
      · rw [if_pos hb] at h
        rw [interleave_one (t' := k (some s.spot)) (s' := ⟨upd s.cells s.spot (some (Node.new lay)), s.nextAfter, s.alloc.request.2, fun n => s.place (n + 1)⟩) (by simp [Prog.step, hb])]
        exact ih _ h n
      · rw [if_neg hb] at h
        rw [interleave_one (t' := k none) (s' := { s with alloc := s.alloc.request.2 }) (by simp [Prog.step, hb])]
        exact ih _ h n
  | free a lay k ih =>
    rintro s ⟨h1, h2, ⟨nd, h3, h5⟩, h4⟩ n
    cases n with
    | zero => exact nofun
    | succ n => rw [interleave_one (t' := k) (s' := { s with cells := upd s.cells a none }) (by simp [Prog.step, h1, h3, h5])]; exact ih h4 n

/-! ### a copying call in a thread -/

theorem both_upd' {w v : Cells K V} {a : Addr} {n : Option (Node K V)} (h : w a = none) : both w (upd v a n) = upd (both w v) a n := by
  funext x
  unfold both
  by_cases hx : x = a
  · subst hx; rw [upd_same, upd_same, h]; rfl
  · rw [upd_other hx, upd_other hx]

/-- A computation that goes well on the nodes `ro` and spares them is fine for a thread that has the nodes `w` and may look at `ro`: it leaves `w` alone. -/
theorem fine_of_spares {F : α → Cells K V → Prop} {w : Cells K V} {t : Prog K V α} : ∀ {v : Cells K V} {n : Nat}, Apart v ro → Apart w v →
    (∀ next al pl, n ≤ next → (mem → al.Good) → EndsWell E F (t.whole ⟨both v ro, next, al, pl⟩) ∧ t.Spares (fun a => ro a ≠ none) ⟨both v ro, next, al, pl⟩) →
    t.Fine ro mem E (fun a w' => ∃ v', Apart v' ro ∧ Apart w v' ∧ w' = both w v' ∧ F a (both v' ro)) (both w v) := by
  have some_both : ∀ {v : Cells K V} {a : Addr} {nd : Node K V}, Apart w v → v a = some nd → both w v a = some nd := by
    intro v a nd h1 h2
    unfold both
    rw [(h1 a).resolve_right (by rw [h2]; simp), h2]; rfl
  have apart_upd : ∀ {v : Cells K V} {a : Addr} {n : Option (Node K V)}, Apart w v → w a = none → Apart w (upd v a n) := by
    intro v a n h1 h2 x
    by_cases hx : x = a
    · subst hx; exact .inl h2
    · rw [upd_other hx]; exact h1 x
  -- storing and freeing happen in `v`
  have mine : ∀ {v : Cells K V} {a : Addr} {nd : Node K V}, Apart w v → both v ro a = some nd → ¬ ro a ≠ none → v a = some nd ∧ ro a = none ∧ w a = none := by
    intro v a nd h1 h2 h3
    have h4 : ro a = none := by
      cases h : ro a with
      | none => rfl
      | some n => exact absurd (by rw [h]; simp) h3
    have h5 : v a = some nd := by
      unfold both at h2; rw [h4] at h2; simpa using h2
    exact ⟨h5, h4, (h1 a).resolve_right (by rw [h5]; simp)⟩
  induction t with
  | done a => exact fun {v n} h1 h2 h => ⟨v, h1, h2, rfl, (h n (fun _ => true) (fun _ => 0) (Nat.le_refl _) (fun _ _ => rfl)).1⟩
  | ub => exact fun {v n} _ _ h => (h n (fun _ => true) (fun _ => 0) (Nat.le_refl _) (fun _ _ => rfl)).1.elim
  | panic msg => exact fun {v n} _ _ h => (h n (fun _ => true) (fun _ => 0) (Nat.le_refl _) (fun _ _ => rfl)).1
  | read a k ih =>
    intro v n h1 h2 h
    simp only [whole_read] at h
    have h0 := (h n (fun _ => true) (fun _ => 0) (Nat.le_refl _) (fun _ _ => rfl)).1
    by_cases ha : a = SHARED
    · rw [if_pos ha] at h0; exact h0.elim
    rw [if_neg ha] at h0
    cases hc : both v ro a with
    | none => simp only [hc] at h0; exact h0.elim
    | some nd =>
      refine ⟨ha, nd, ?_, ih nd (n := n) h1 h2 fun next al pl hx hm => ?_⟩
      · cases hv : v a with
        | some nd' =>
          have : nd' = nd := by unfold both at hc; rw [hv] at hc; simpa using hc
          subst this
          exact .inl (some_both h2 hv)
        | none => unfold both at hc; rw [hv] at hc; exact .inr (by simpa using hc)
      · have := h next al pl hx hm
        rw [if_neg ha] at this
        simp only [hc] at this
        exact ⟨this.1, this.2.next (by simp [Prog.step, ha, hc])⟩
  | write a nd k ih =>
    intro v n h1 h2 h
    simp only [whole_write] at h
    have h0 := h n (fun _ => true) (fun _ => 0) (Nat.le_refl _) (fun _ _ => rfl)
    by_cases ha : a = SHARED
    · rw [if_pos ha] at h0; exact h0.1.elim
    rw [if_neg ha] at h0
    cases hc : both v ro a with
    | none => simp only [hc] at h0; exact h0.1.elim
    | some nd' =>
      obtain ⟨g1, g2, g3⟩ := mine h2 hc fun hr => h0.2.now a hr rfl
      refine ⟨ha, ⟨nd', some_both h2 g1⟩, ?_⟩
      rw [← both_upd' g3]
      refine ih (n := n) (h1.upd g2) (apart_upd h2 g3) fun next al pl hx hm => ?_
      have := h next al pl hx hm
      rw [if_neg ha] at this
      simp only [hc] at this
      rw [both_upd g2]
      exact ⟨this.1, this.2.next (by simp [Prog.step, ha, hc])⟩
  | alloc lay k ih =>
    intro v n h1 h2 h
    refine ⟨fun a ha hwv g2 => ?_, fun hm => ih _ (n := n) h1 h2 fun next al pl hx hm' => ?_⟩
    · have hwv' : w a = none ∧ v a = none := by
        unfold both at hwv
        cases hw : w a with
        | none => rw [hw] at hwv; exact ⟨rfl, by simpa using hwv⟩
        | some nd => rw [hw] at hwv; cases hwv
      obtain ⟨g3, g4⟩ := hwv'
      have g5 : both v ro a = none := by unfold both; rw [g4, g2]; rfl
      rw [← both_upd' g3]
      refine ih _ (n := max n (a + 1)) (h1.upd g2) (apart_upd h2 g3) fun next al pl hx hm => ?_
      have hx' : n ≤ next ∧ a < next := Nat.max_le.1 hx
      have := h next (first true al) (firstPlace a pl) hx'.1 fun hh => first_good (hm hh)
      rw [whole_first ha g5 hx'.2] at this
      rw [both_upd g2]
      exact ⟨this.1, this.2.next (step_first ha g5 hx'.2)⟩
    · have := h next (first false al) pl hx fun hh => absurd hh hm
      simp only [whole_alloc, first_request, Bool.false_eq_true, if_false] at this
      exact ⟨this.1, this.2.next (by simp [Prog.step, first_request])⟩
  | free a lay k ih =>
    intro v n h1 h2 h
    simp only [whole_free] at h
    have h0 := h n (fun _ => true) (fun _ => 0) (Nat.le_refl _) (fun _ _ => rfl)
    by_cases ha : a = SHARED
    · rw [if_pos ha] at h0; exact h0.1.elim
    rw [if_neg ha] at h0
    cases hc : both v ro a with
    | none => simp only [hc] at h0; exact h0.1.elim
    | some nd' =>
      simp only [hc] at h0
      by_cases hl : nd'.lay = lay
      · obtain ⟨g1, g2, g3⟩ := mine h2 hc fun hr => h0.2.now a hr rfl
        refine ⟨ha, ⟨nd', some_both h2 g1, hl⟩, ?_⟩
        rw [← both_upd' g3]
        refine ih (n := n) (h1.upd g2) (apart_upd h2 g3) fun next al pl hx hm => ?_
        have := h next al pl hx hm
        rw [if_neg ha] at this
        simp only [hc, hl, if_true] at this
        rw [both_upd g2]
        exact ⟨this.1, this.2.next (by simp [Prog.step, ha, hc, hl])⟩
      · simp only [hl, if_false] at h0; exact h0.1.elim

end Verif.Heap
