import Verif.BTree.Proofs.ReachInv
/-
Facts about the specification functions on sorted lists.
-/
namespace Verif.BTree
open Verif Verif.Spec

variable {K V Q α : Type}

section
variable [Ord K] [Ord Q] [Std.TransOrd Q] {bor : K → Q}

/-- Equal keys answer the same to every query. -/
theorem BorrowOK.congr (hbo : BorrowOK bor) {k k' : K} (h : compare k k' = .eq) (q : Q) :
    compare q (bor k) = compare q (bor k') := by
  have : compare (bor k) (bor k') = .eq := by rw [hbo, h]
  exact Std.TransCmp.congr_right this

theorem find?_sorted_split (hbo : BorrowOK bor) {l : List (K × V)} (hs : Sorted l) (q : Q) :
    (∃ A kv B, l = A ++ kv :: B ∧ (∀ a ∈ A, compare q (bor a.1) = .gt) ∧ compare q (bor kv.1) = .eq ∧
      (∀ b ∈ B, compare q (bor b.1) = .lt)) ∨
    (∃ A B, l = A ++ B ∧ (∀ a ∈ A, compare q (bor a.1) = .gt) ∧ (∀ b ∈ B, compare q (bor b.1) = .lt)) := by
  induction l with
  | nil => exact .inr ⟨[], [], rfl, by simp, by simp⟩
  | cons a l ih =>
    obtain ⟨h1, h2⟩ := List.pairwise_cons.1 hs
    have hlt : ∀ b ∈ l, compare (bor a.1) (bor b.1) = .lt := fun b hb => by rw [hbo]; exact h1 b hb
    cases hc : compare q (bor a.1) with
    | lt =>
      refine .inr ⟨[], a :: l, rfl, by simp, ?_⟩
      intro b hb
      rcases List.mem_cons.1 hb with rfl | hb
      · exact hc
      · exact Std.TransCmp.lt_trans hc (hlt b hb)
    | eq =>
      exact .inl ⟨[], a, l, rfl, by simp, hc, fun b hb => Std.TransCmp.lt_of_eq_of_lt hc (hlt b hb)⟩
    | gt =>
      rcases ih h2 with ⟨A, kv, B, rfl, h3, h4, h5⟩ | ⟨A, B, rfl, h3, h4⟩
      · refine .inl ⟨a :: A, kv, B, rfl, ?_, h4, h5⟩
        intro x hx
        rcases List.mem_cons.1 hx with rfl | hx
        · exact hc
        · exact h3 x hx
      · refine .inr ⟨a :: A, B, rfl, ?_, h4⟩
        intro x hx
        rcases List.mem_cons.1 hx with rfl | hx
        · exact hc
        · exact h3 x hx

theorem find?_append_of_none {A B : List (K × V)} {q : Q} (h : find? bor q A = none) :
    find? bor q (A ++ B) = find? bor q B := by
  simp only [find?] at *
  rw [List.find?_append, h]; rfl

/-- What a lookup finds in a list, whatever the query. -/
theorem find?_append (A B : List (K × V)) (q : Q) : find? bor q (A ++ B) = (find? bor q A).or (find? bor q B) := by
  simp [find?, List.find?_append]

theorem find?_cons (kv : K × V) (B : List (K × V)) (q : Q) :
    find? bor q (kv :: B) = if compare q (bor kv.1) = .eq then some kv else find? bor q B := by
  simp only [find?, List.find?_cons]
  split <;> simp_all

end

theorem find?_insert [Ord K] [Std.TransOrd K] [Ord Q] [Std.TransOrd Q] {bor : K → Q} (hbo : BorrowOK bor) {l : List (K × V)}
    (hs : Sorted l) (k : K) (v : V) (q : Q) :
    find? bor q (Spec.insert k v l) =
      if compare q (bor k) = .eq then some (((find? id k l).map (·.1)).getD k, v) else find? bor q l := by
  rcases find?_sorted_split borrowOK_id hs k with ⟨A, kv, B, rfl, h3, h4, h5⟩ | ⟨A, B, rfl, h3, h4⟩
  · rw [insert_hit h3 h4, find?_hit h3 h4, find?_append, find?_append, find?_cons, find?_cons]
    have hq := BorrowOK.congr hbo h4 q
    by_cases hc : compare q (bor k) = .eq
    · have hA : find? bor q A = none := by
        simp only [find?, List.find?_eq_none]
        intro a ha
        have h1 : compare (bor k) (bor a.1) = .gt := by rw [hbo]; exact h3 a ha
        have h2 : compare q (bor a.1) = .gt := Std.TransCmp.gt_of_eq_of_gt hc h1
        simp [h2]
      have hc' : compare q (bor kv.1) = .eq := by rw [← hc]; exact hq.symm
      simp [hA, hc, hc']
    · have hc' : compare q (bor kv.1) ≠ .eq := by rw [← show _ = compare q (bor kv.1) from hq]; exact hc
      simp [hc, hc']
  · rw [insert_miss h3 h4, find?_miss h3 h4, find?_append, find?_append, find?_cons]
    by_cases hc : compare q (bor k) = .eq
    · have hA : find? bor q A = none := by
        simp only [find?, List.find?_eq_none]
        intro a ha
        have h1 : compare (bor k) (bor a.1) = .gt := by rw [hbo]; exact h3 a ha
        have h2 : compare q (bor a.1) = .gt := Std.TransCmp.gt_of_eq_of_gt hc h1
        simp [h2]
      simp [hA, hc]
    · simp [hc]

theorem Sorted.insert [Ord K] [Std.TransOrd K] {l : List (K × V)} (hs : Sorted l) (k : K) (v : V) :
    Sorted (Spec.insert k v l) := by
  rcases find?_sorted_split borrowOK_id hs k with ⟨A, kv, B, rfl, h3, h4, h5⟩ | ⟨A, B, rfl, h3, h4⟩
  · rw [insert_hit h3 h4]; exact sorted_set hs rfl
  · rw [insert_miss h3 h4]; exact sorted_insert hs h3 h4

theorem length_insert [Ord K] [Std.TransOrd K] {l : List (K × V)} (hs : Sorted l) (k : K) (v : V) :
    (Spec.insert k v l).length = l.length + (if (find? id k l).isSome then 0 else 1) := by
  rcases find?_sorted_split borrowOK_id hs k with ⟨A, kv, B, rfl, h3, h4, h5⟩ | ⟨A, B, rfl, h3, h4⟩
  · rw [insert_hit h3 h4, find?_hit h3 h4]; simp
  · rw [insert_miss h3 h4, find?_miss h3 h4]; simp; omega

theorem find?_erase [Ord K] [Ord Q] [Std.TransOrd Q] {bor : K → Q} (l : List (K × V)) (q q' : Q) :
    find? bor q' (erase bor q l) = if compare q' q = .eq then none else find? bor q' l := by
  induction l with
  | nil => simp [erase, find?]
  | cons a l ih =>
    have he : erase bor q (a :: l) = if compare q (bor a.1) = .eq then erase bor q l else a :: erase bor q l := by
      simp only [erase, List.filter_cons]; split <;> simp_all
    rw [he]
    by_cases h : compare q (bor a.1) = .eq
    · rw [if_pos h, ih]
      by_cases hc : compare q' q = .eq
      · simp [hc]
      · rw [if_neg hc, if_neg hc, find?_cons, if_neg]
        intro h'
        exact hc (Std.TransCmp.eq_trans h' (Std.OrientedCmp.eq_symm h))
    · rw [if_neg h, find?_cons, find?_cons, ih]
      by_cases hc : compare q' q = .eq
      · rw [if_pos hc, if_pos hc, if_neg]
        intro h'
        exact h (Std.TransCmp.eq_trans (Std.OrientedCmp.eq_symm hc) h')
      · rw [if_neg hc, if_neg hc]

theorem length_erase [Ord K] [Ord Q] [Std.TransOrd Q] {bor : K → Q} (hbo : BorrowOK bor) {l : List (K × V)} (hs : Sorted l)
    (q : Q) : l.length = (erase bor q l).length + (if (find? bor q l).isSome then 1 else 0) := by
  rcases find?_sorted_split hbo hs q with ⟨A, kv, B, rfl, h3, h4, h5⟩ | ⟨A, B, rfl, h3, h4⟩
  · rw [erase_hit h3 h4 h5, find?_hit h3 h4]; simp; omega
  · rw [erase_miss h3 h4, find?_miss h3 h4]; simp

theorem find?_modify [Ord Q] {bor : K → Q} (l : List (K × V)) (q q' : Q) (f : V → V) :
    find? bor q' (Spec.modify bor q f l) =
      (find? bor q' l).map (fun kv => if compare q (bor kv.1) == .eq then (kv.1, f kv.2) else kv) := by
  induction l with
  | nil => rfl
  | cons a l ih =>
    simp only [Spec.modify, find?, List.map_cons, List.find?_cons] at *
    by_cases h : compare q (bor a.1) = .eq
    · simp only [h, beq_self_eq_true, if_true]
      by_cases h' : compare q' (bor a.1) = .eq
      · simp_all
      · have : (compare q' (bor a.1) == .eq) = false := by simp [h']
        simp only [this]; exact ih
    · have hb : (compare q (bor a.1) == .eq) = false := by simp [h]
      simp only [hb, Bool.false_eq_true, if_false]
      by_cases h' : compare q' (bor a.1) = .eq
      · simp only [h', beq_self_eq_true, Option.map_some, hb]; simp
      · have : (compare q' (bor a.1) == .eq) = false := by simp [h']
        simp only [this]; exact ih

/-- In a sorted list every pair is found under its own key. -/
theorem find?_self [Ord K] [Std.TransOrd K] {l : List (K × V)} (hs : Sorted l) (kv : K × V) :
    kv ∈ l ↔ find? id kv.1 l = some kv := by
  constructor
  · intro h
    obtain ⟨A, B, rfl⟩ := List.append_of_mem h
    refine find?_hit (fun a ha => ?_) Std.ReflCmp.compare_self
    exact Std.OrientedCmp.gt_of_lt ((Sorted.append_iff.1 hs).2.2 a ha kv (by simp))
  · intro h
    exact List.mem_of_find?_eq_some h

/-- A sorted list is determined by its elements. -/
theorem Sorted.ext [Ord K] [Std.TransOrd K] {l l' : List (K × V)} (hs : Sorted l) (hs' : Sorted l')
    (h : ∀ kv, kv ∈ l ↔ kv ∈ l') : l = l' := by
  induction l generalizing l' with
  | nil => cases l' with
    | nil => rfl
    | cons a l' => have := (h a).2 (by simp); simp at this
  | cons a l ih => cases l' with
    | nil => have := (h a).1 (by simp); simp at this
    | cons b l' =>
      obtain ⟨s1, s2⟩ := List.pairwise_cons.1 hs
      obtain ⟨t1, t2⟩ := List.pairwise_cons.1 hs'
      have irr : ∀ {x : K}, compare x x ≠ .lt := by intro x; rw [Std.ReflCmp.compare_self (cmp := compare)]; simp
      have hab : a = b := by
        rcases List.mem_cons.1 ((h a).1 (by simp)) with h1 | h1
        · exact h1
        · rcases List.mem_cons.1 ((h b).2 (by simp)) with h2 | h2
          · exact h2.symm
          · exact absurd (Std.TransCmp.lt_trans (s1 b h2) (t1 a h1)) irr
      subst hab
      congr 1
      refine ih s2 t2 fun kv => ⟨fun hm => ?_, fun hm => ?_⟩
      · rcases List.mem_cons.1 ((h kv).1 (by simp [hm])) with rfl | h1
        · exact absurd (s1 _ hm) irr
        · exact h1
      · rcases List.mem_cons.1 ((h kv).2 (by simp [hm])) with rfl | h1
        · exact absurd (t1 _ hm) irr
        · exact h1

theorem union_unique [Ord K] [Std.TransOrd K] {l r out out' : List (K × V)} (h : Spec.union l r out)
    (h' : Spec.union l r out') : out = out' :=
  Sorted.ext h.1 h'.1 fun kv => by rw [h.2, h'.2]

/-! ### double-ended iteration -/

theorem pops_split (es : List End) (l : List α) :
    l = took .front es (pops es l).1 ++ (pops es l).2 ++ (took .back es (pops es l).1).reverse ∧
    (pops es l).1.length = es.length ∧ (none ∈ (pops es l).1 → (pops es l).2 = []) := by
  induction es generalizing l with
  | nil => simp [pops, took]
  | cons e es ih =>
    cases e with
    | front =>
      cases l with
      | nil =>
        have := ih []
        simp only [pops, pop, took] at *
        refine ⟨this.1, by simp [this.2.1], fun _ => ?_⟩
        have h1 := this.1
        have h2 := List.append_eq_nil_iff.1 h1.symm
        exact (List.append_eq_nil_iff.1 h2.1).2
      | cons x l =>
        obtain ⟨h1, h2, h3⟩ := ih l
        simp only [pops, pop, took]
        refine ⟨?_, by simp [h2], fun hn => h3 (by simpa using hn)⟩
        simp only [if_true, reduceCtorEq, if_false, List.cons_append]
        rw [← h1]
    | back =>
      rcases List.eq_nil_or_concat l with rfl | ⟨l, x, rfl⟩
      · have := ih []
        simp only [pops, pop, took, List.getLast?_nil, List.dropLast_nil] at *
        refine ⟨this.1, by simp [this.2.1], fun _ => ?_⟩
        have h1 := this.1
        have h2 := List.append_eq_nil_iff.1 h1.symm
        exact (List.append_eq_nil_iff.1 h2.1).2
      · obtain ⟨h1, h2, h3⟩ := ih l
        simp only [List.concat_eq_append, pops, pop, took, List.getLast?_append, List.getLast?_singleton, Option.some_or,
          List.dropLast_concat, took]
        refine ⟨?_, by simp [h2], fun hn => h3 (by simpa using hn)⟩
        simp only [if_true, reduceCtorEq, if_false, List.reverse_cons]
        rw [← List.append_assoc, ← h1]

theorem pops_map {β : Type} (f : α → β) (es : List End) (l : List α) :
    pops es (l.map f) = ((pops es l).1.map (Option.map f), (pops es l).2.map f) := by
  induction es generalizing l with
  | nil => rfl
  | cons e es ih =>
    have hp : pop e (l.map f) = ((pop e l).1.map f, (pop e l).2.map f) := by
      cases e with
      | front => cases l <;> rfl
      | back => simp [pop]
    simp [pops, hp, ih]

theorem Iter.runMap_eq {β : Type} (f : K × V → β) (m : Map K V) (es : List End) {it it' : Iter} {xs}
    (h : Iter.run m es it = .ok (xs, it')) : Iter.runMap f m es it = .ok (xs.map (Option.map f), it') := by
  induction es generalizing it xs with
  | nil => simp [Iter.run, Iter.runMap] at *; simp [h.1.symm, h.2]
  | cons e es ih =>
    simp only [Iter.run] at h
    obtain ⟨⟨x, it1⟩, h1, h2⟩ := Exec.bind_eq_ok.1 h
    obtain ⟨⟨xs1, it2⟩, h3, h4⟩ := Exec.bind_eq_ok.1 h2
    simp at h4
    obtain ⟨rfl, rfl⟩ := h4
    simp [Iter.runMap, Iter.stepMap, h1, ih h3]

end Verif.BTree
