import Verif.BTree.Proofs.Set
/-
Sets under an arbitrary comparison function stay structurally valid.
-/
namespace Verif.BTree
open Verif Verif.Spec

variable {T Q : Type}

theorem SetReachAny.wf {s : BSet T} (h : SetReachAny s) : s.map.WF := by
  induction h with
  | new => exact Map.WF_new
  | insert _ he ih =>
    rename_i s s' x a b a' _
    obtain ⟨r, m1, a1, h1, h2, h3⟩ := Map.tryInsert_wf ih x () a
    cases r with
    | error e => simp [BSet.tryInsert, h1] at he
    | ok old =>
      simp [BSet.tryInsert, h1] at he
      obtain ⟨rfl, rfl, rfl⟩ := he
      exact h2.1
  | replace _ he ih =>
    rename_i s s' x a b a' _
    obtain ⟨r, m1, a1, h1, h2, _⟩ := Map.replaceKey_wf ih x () a
    simp [BSet.replace, h1] at he
    obtain ⟨rfl, rfl, rfl⟩ := he
    exact h2 _ rfl
  | remove _ he ih =>
    rename_i bor s s' q b _
    obtain ⟨r, m', h1, h2, h3⟩ := Map.removeEntry_wf ih bor q
    simp [BSet.remove, Map.remove, h1] at he
    rw [← he.2]; exact h2
  | take _ he ih =>
    rename_i bor s s' q r _
    rcases Map.search_wf ih bor q with ⟨hd, A, kv, B, h1, h2, h3⟩ | ⟨hd, A, B, h1, h2⟩
    · obtain ⟨m', g1, g2, g3, g4⟩ := Map.removeKv_spec ih h2
      simp [BSet.take, h1, g1] at he
      rw [← he.2]; exact g2
    · simp [BSet.take, h1] at he
      rw [← he.2]; exact ih
  | appendSelf _ _ he ih1 ih2 =>
    rename_i a a' _ _
    rcases Map.append_wf ih1 ih2 a with ⟨⟨_, h1⟩, _⟩ | ⟨m1, o1, a1, h1, h2, _⟩
    · simp [BSet.append, h1] at he
    · simp [BSet.append, h1] at he
      rw [← he.1]; exact h2
  | appendOther _ _ he ih1 ih2 =>
    rename_i a a' _ _
    rcases Map.append_wf ih1 ih2 a with ⟨⟨_, h1⟩, _⟩ | ⟨m1, o1, a1, h1, _, h2, _⟩
    · simp [BSet.append, h1] at he
    · simp [BSet.append, h1] at he
      rw [← he.2.1]; exact h2
  | splitSelf _ he ih =>
    rename_i bor s q a r m' a' _
    obtain ⟨r', m1, a1, h1, h2, _⟩ := Map.splitOff_wf ih bor q a
    cases r' with
    | error e =>
      simp [BSet.trySplitOff, h1] at he
      rw [← he.2.1]; rw [show m1 = _ from h2]; exact ih
    | ok right =>
      simp [BSet.trySplitOff, h1] at he
      obtain ⟨⟨x1, x2, hx, g1, g2⟩, _⟩ := h2
      obtain rfl : x1 = 0 := by omega
      rw [← he.2.1]; exact g1
  | splitRight _ he ih =>
    rename_i bor s q a r m' a' _
    obtain ⟨r', m1, a1, h1, h2, _⟩ := Map.splitOff_wf ih bor q a
    cases r' with
    | error e => simp [BSet.trySplitOff, h1] at he
    | ok right =>
      simp [BSet.trySplitOff, h1] at he
      obtain ⟨⟨x1, x2, hx, g1, g2⟩, _⟩ := h2
      obtain rfl : x2 = 0 := by omega
      rw [← he.1]; exact g2
  | extend _ he ih =>
    rename_i s l a s' a' _
    rw [BSet.extend_eq] at he
    rcases Map.extend_wf (l.map (·, ())) ih a with ⟨⟨_, h1⟩, _⟩ | ⟨m1, a1, h1, h2, _⟩
    · simp [h1] at he
    · simp [h1] at he
      rw [← he.1]; exact h2
  | clone _ he ih =>
    rename_i s fk a s' a' _
    obtain ⟨r, a1, h1, h2, _⟩ := Map.tryClone_wf (fun k a => (.ok (fk k), a)) (fun v a => (.ok (id v), a)) ih a
    cases r with
    | error e => simp [BSet.clone, Map.clone, h1] at he
    | ok c =>
      simp [BSet.clone, Map.clone, h1] at he
      obtain ⟨g1, g2⟩ := h2 _ rfl
      rw [← he.1]
      exact g1

theorem mem_diffList [Ord T] (l r : List T) : ∀ x ∈ diffList l r, x ∈ l := by
  fun_induction diffList l r <;> grind
theorem mem_interList [Ord T] (l r : List T) : ∀ x ∈ interList l r, x ∈ l := by
  fun_induction interList l r <;> grind
theorem mem_symList [Ord T] (l r : List T) : ∀ x ∈ symList l r, x ∈ l ∨ x ∈ r := by
  fun_induction symList l r <;> grind
theorem mem_unionList [Ord T] (l r : List T) : ∀ x ∈ unionList l r, x ∈ l ∨ x ∈ r := by
  fun_induction unionList l r <;> grind

end Verif.BTree
