import Verif.Heap.Proofs.Threads
import Verif.Heap.Proofs.Program
/-
The memory of several maps, in parts.
-/
namespace Verif.Heap
open Verif
open Verif.BTree (Map)
open Verif.Spec (Op Out)

variable {K V Q α β : Type} {mem : Prop}

theorem pool_append : ∀ {a b : List HMap} {ms : List (Map K V)} {w : World K V}, pool (a ++ b) ms w → ∃ m1 m2, ms = m1 ++ m2 ∧ m1.length = a.length ∧ (pool a m1 ∗ pool b m2) w
  | [], b, ms, w, h => ⟨[], ms, rfl, rfl, by rw [pool_nil, emp_sep]; exact h⟩
  | h1 :: a, b, [], w, h => h.1.elim
  | h1 :: a, b, m :: ms, w, h => by
    rw [List.cons_append, pool_cons] at h
    obtain ⟨w1, w2, hd, rfl, h2, h3⟩ := h
    obtain ⟨m1, m2, rfl, hl, h4⟩ := pool_append h3
    refine ⟨m :: m1, m2, rfl, by simp [hl], ?_⟩
    rw [pool_cons, sep_assoc]
    exact ⟨w1, w2, hd, rfl, h2, h4⟩

theorem pool_join : ∀ {a b : List HMap} {m1 m2 : List (Map K V)}, (Ent (pool a m1 ∗ pool b m2) (pool (a ++ b) (m1 ++ m2)))
  | [], b, [], m2 => by rw [pool_nil, emp_sep]; exact Ent.refl _
  | [], b, _ :: _, m2 => fun _ h => (fact_sep.1 h).1.elim
  | _ :: _, b, [], m2 => fun _ h => (fact_sep.1 h).1.elim
  | h1 :: a, b, m :: m1, m2 => by
    rw [pool_cons, sep_assoc, List.cons_append, List.cons_append, pool_cons]
    exact Ent.sep (Ent.refl _) pool_join

theorem sched_off {P : HProp K V} {al : Alloc} {s : Heap K V} (h : (P ∗ sched al) s.world) : P ⟨s.cells, none⟩ := by
  obtain ⟨w₁, w₂, hd, hu, h7, rfl⟩ := h
  have e1 : s.cells = fun x => (w₁.cells x).or none := congrArg World.cells hu
  have e2 := hd.2
  cases w₁ with
  | mk c sc =>
    simp only [reduceCtorEq, or_false] at e2
    subst e2
    simp only [Option.or_none] at e1
    rw [e1]; exact h7

/-- Two parts. -/
theorem sep_cells {P P' : HProp K V} {c : Cells K V} (h : (P ∗ P') ⟨c, none⟩) : ∃ c1 c2 : Cells K V, P ⟨c1, none⟩ ∧ P' ⟨c2, none⟩ ∧ (∀ x, c1 x = none ∨ c2 x = none) ∧ c = both c1 c2 := by
  obtain ⟨⟨c1, s1⟩, ⟨c2, s2⟩, hd, hu, h1, h2⟩ := h
  have e2 : none = s1.or s2 := congrArg World.sched hu
  have e3 := World.or_none_iff.1 e2.symm
  obtain ⟨rfl, rfl⟩ := e3
  exact ⟨c1, c2, h1, h2, hd.1, congrArg World.cells hu⟩

theorem cells_sep {P P' : HProp K V} {c1 c2 : Cells K V} (h1 : P ⟨c1, none⟩) (h2 : P' ⟨c2, none⟩) (h : ∀ x, c1 x = none ∨ c2 x = none) : (P ∗ P') ⟨both c1 c2, none⟩ :=
  ⟨⟨c1, none⟩, ⟨c2, none⟩, ⟨h, .inl rfl⟩, rfl, h1, h2⟩

/-- The parts of several threads. -/
theorem pool_parts : ∀ {hss : List (List HMap)} {ms : List (Map K V)} {c : Cells K V}, pool hss.flatten ms ⟨c, none⟩ →
    ∃ (mss : List (List (Map K V))) (w : Nat → Cells K V), mss.flatten = ms ∧ mss.map List.length = hss.map List.length ∧
      (∀ (j : Nat) hs mj, hss[j]? = some hs → mss[j]? = some mj → pool hs mj ⟨w j, none⟩) ∧
      (∀ i j x, i ≠ j → w i x = none ∨ w j x = none) ∧ (∀ j x, hss.length ≤ j → w j x = none) ∧
      (∀ j x nd, w j x = some nd → c x = some nd) ∧ (∀ x nd, c x = some nd → ∃ j, w j x ≠ none)
  | [], [], c, h => by
    have hc : c = fun _ => none := congrArg World.cells (show (⟨c, none⟩ : World K V) = World.empty from h)
    exact ⟨[], fun _ _ => none, rfl, rfl, by simp, fun _ _ _ _ => .inl rfl, fun _ _ _ => rfl, fun _ _ _ h => by simp at h, fun x nd h => by rw [hc] at h; simp at h⟩
  | [], _ :: _, c, h => h.1.elim
  | hs :: hss, ms, c, h => by
    rw [List.flatten_cons] at h
    obtain ⟨m1, m2, rfl, hl, h1⟩ := pool_append h
    obtain ⟨c1, c2, h2, h3, h4, rfl⟩ := sep_cells h1
    obtain ⟨mss, w, rfl, e2, e3, e4, e5, e6, e7⟩ := pool_parts h3
    refine ⟨m1 :: mss, fun j => match j with
      | 0 => c1
      | j + 1 => w j, rfl, by simp [hl, e2], ?_, ?_, ?_, ?_, ?_⟩
    · intro j hs' mj hj hmj
      cases j with
      | zero => simp at hj hmj; subst hj; subst hmj; exact h2
      | succ j => exact e3 j hs' mj (by simpa using hj) (by simpa using hmj)
    · have hin : ∀ j x, c1 x = none ∨ w j x = none := fun j x => by
        rcases h4 x with h | h
        · exact .inl h
        · refine .inr ?_
          cases hw : w j x with
          | none => rfl
          | some nd => rw [e6 j x nd hw] at h; cases h
      intro i j x hij
      cases i with
      | zero =>
        cases j with
        | zero => exact absurd rfl hij
        | succ j => exact hin j x
      | succ i =>
        cases j with
        | zero => exact (hin i x).symm
        | succ j => exact e4 i j x fun e => hij (by rw [e])
    · intro j x hj
      cases j with
      | zero => simp at hj
      | succ j => exact e5 j x (by simpa using hj)
    · intro j x nd hx
      unfold both
      cases j with
      | zero => rw [show c1 x = some nd from hx]; rfl
      | succ j =>
        have h8 := e6 j x nd hx
        rcases h4 x with h | h
        · rw [h, h8]; rfl
        · rw [h] at h8; cases h8
    · intro x nd hx
      unfold both at hx
      cases hc : c1 x with
      | some n => exact ⟨0, by show c1 x ≠ none; rw [hc]; simp⟩
      | none =>
        rw [hc] at hx
        obtain ⟨j, hj⟩ := e7 x nd hx
        exact ⟨j + 1, hj⟩

/-- All the parts together. -/
theorem parts_pool : ∀ {hss : List (List HMap)} {mss : List (List (Map K V))} {w : Nat → Cells K V} {c : Cells K V},
    (∀ (j : Nat) hs mj, hss[j]? = some hs → mss[j]? = some mj → pool hs mj ⟨w j, none⟩) → mss.length = hss.length →
    (∀ i j x, i ≠ j → w i x = none ∨ w j x = none) → (∀ j x, hss.length ≤ j → w j x = none) →
    (∀ j x nd, w j x = some nd → c x = some nd) → (∀ x nd, c x = some nd → ∃ j, w j x ≠ none) → pool hss.flatten mss.flatten ⟨c, none⟩
  | [], [], w, c, _, _, _, h5, _, h7 => by
    have hc : c = fun _ => none := by
      funext x
      cases h : c x with
      | none => rfl
      | some nd =>
        obtain ⟨j, hj⟩ := h7 x nd h
        exact absurd (h5 j x (Nat.zero_le _)) hj
    rw [hc]
    rfl
  | [], _ :: _, _, _, _, hl, _, _, _, _ => by simp at hl
  | _ :: _, [], _, _, _, hl, _, _, _, _ => by simp at hl
  | hs :: hss, mj :: mss, w, c, h3, hl, h4, h5, h6, h7 => by
    rw [List.flatten_cons, List.flatten_cons]
    have hrest := parts_pool (hss := hss) (mss := mss) (w := fun j => w (j + 1)) (c := fun x => if (w 0 x).isSome then none else c x)
      (fun j hs' mj' h h' => h3 (j + 1) hs' mj' (by simpa using h) (by simpa using h')) (by simpa using hl) (fun i j x hij => h4 _ _ x fun e => hij (by omega))
      (fun j x hj => h5 _ x (by simp; omega)) (fun j x nd hx => by
        have : w 0 x = none := (h4 0 (j + 1) x (by omega)).resolve_right (by rw [hx]; simp)
        rw [this]; exact h6 _ x nd hx) (fun x nd hx => by
        cases h0 : w 0 x with
        | some n => rw [h0] at hx; simp at hx
        | none =>
          rw [h0] at hx
          obtain ⟨j, hj⟩ := h7 x nd (by simpa using hx)
          cases j with
          | zero => exact absurd h0 hj
          | succ j => exact ⟨j, hj⟩)
    refine pool_join _ ?_
    have hboth : c = both (w 0) fun x => if (w 0 x).isSome then none else c x := by
      funext x
      unfold both
      cases h0 : w 0 x with
      | none => simp [h0]
      | some nd => simp [h6 0 x nd h0]
    rw [hboth]
    refine cells_sep (h3 0 hs mj rfl rfl) hrest fun x => ?_
    cases h0 : w 0 x with
    | none => exact .inl rfl
    | some nd => exact .inr (by simp)

end Verif.Heap
