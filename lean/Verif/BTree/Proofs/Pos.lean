import Verif.BTree.Proofs.NodeOps
import Verif.Spec
/-
Positions: reading and writing at a handle, searching.
-/
namespace Verif.BTree
open Verif Verif.Spec

variable {K V Q β : Type} {lo : Nat}

/-! ### reading and writing at a pair -/

theorem KvAt.nodeAt {h : Nat} {t : Tree K V} {p idx A kv B} (hk : KvAt h t p idx A kv B) :
    ∃ hn n, BTree.nodeAt h t p = .ok (hn, n) ∧ getE n.kvs idx = .ok kv := by
  induction hk with
  | leaf A kv B => exact ⟨0, _, rfl, by simp⟩
  | node A0 kv C0 X l r Y hX hY => exact ⟨_, _, rfl, by simp⟩
  | child A0 C0 X Y hX hY hc ih =>
    obtain ⟨hn, n, h1, h2⟩ := ih
    exact ⟨hn, n, by simp [BTree.nodeAt, h1], h2⟩

theorem KvAt.kvAt {h : Nat} {t : Tree K V} {hd : Handle} {A kv B} (hk : KvAt h t hd.up.reverse hd.idx A kv B) :
    BTree.kvAt h t hd = .ok kv := by
  obtain ⟨hn, n, h1, h2⟩ := hk.nodeAt
  simp [BTree.kvAt, h1, h2]

theorem preT_set {h : Nat} {A : List (K × V)} {X : List (Tree K V)} : preT h A X = preT h A X := rfl

/-- Replacing a pair keeps the structure. -/
theorem KvAt.replaceKv {h : Nat} {t : Tree K V} {p idx A kv B} (hk : KvAt h t p idx A kv B) (kv' : K × V) :
    ∃ t', BTree.replaceKv h t p idx kv' = .ok (t', kv) ∧ KvAt h t' p idx A kv' B ∧ t'.len = t.len ∧
      (∀ {lo : Nat}, BelowN lo h t → BelowN lo h t') := by
  unfold BTree.replaceKv
  induction hk with
  | leaf A kv B => exact ⟨⟨A ++ kv' :: B, []⟩, by simp [modifyAt], .leaf A kv' B, by simp, by simp [BelowN]⟩
  | @node h A0 kv C0 X l r Y hX hY =>
    refine ⟨⟨A0 ++ kv' :: C0, X ++ l :: r :: Y⟩, by simp [modifyAt], .node A0 kv' C0 X l r Y hX hY, by simp, ?_⟩
    intro lo hb
    exact ⟨by simpa [Tree.len] using hb.1, hb.2⟩
  | @child h c p idx A B kv A0 C0 X Y hX hY hc ih =>
    obtain ⟨c', h1, h2, h3, h4⟩ := ih
    refine ⟨⟨A0 ++ C0, X ++ c' :: Y⟩, by simp [modifyAt, h1], .child A0 C0 X Y hX hY h2, by simp, ?_⟩
    intro lo hb
    refine ⟨by simpa [Tree.len] using hb.1, ?_⟩
    intro d hd
    have hb2 := hb.2
    simp only [List.mem_append, List.mem_cons] at hd hb2
    rcases hd with hd | rfl | hd
    · exact hb2 d (.inl hd)
    · have := hb2 c (.inr (.inl rfl))
      exact ⟨by omega, by omega, h4 this.2.2⟩
    · exact hb2 d (.inr (.inr hd))

/-! ### searching a node -/

/-- What `search_linear` finds, with no assumption on the order. -/
structure Found [Ord Q] (bor : K → Q) (q : Q) (kvs : List (K × V)) (i : Nat) (b : Bool)
    (A C : List (K × V)) : Prop where
  split : kvs = A ++ C
  len : A.length = i
  before : ∀ a ∈ A, compare q (bor a.1) = .gt
  hit : b = true → ∃ kv C', C = kv :: C' ∧ compare q (bor kv.1) = .eq
  miss : b = false → C = [] ∨ ∃ kv C', C = kv :: C' ∧ compare q (bor kv.1) = .lt

theorem searchFrom_spec [Ord Q] (bor : K → Q) (q : Q) (kvs : List (K × V)) (n : Nat) :
    ∃ A C, Found bor q kvs ((searchFrom bor q n kvs).1 - n) (searchFrom bor q n kvs).2 A C ∧
      n ≤ (searchFrom bor q n kvs).1 := by
  induction kvs generalizing n with
  | nil => exact ⟨[], [], ⟨rfl, by simp [searchFrom], by simp, by simp [searchFrom], by simp⟩, by simp [searchFrom]⟩
  | cons kv rest ih =>
    unfold searchFrom
    cases hc : compare q (bor kv.1) with
    | gt =>
      obtain ⟨A, C, hf, hn⟩ := ih (n + 1)
      refine ⟨kv :: A, C, ⟨by simp [hf.split], ?_, ?_, hf.hit, hf.miss⟩, by simp; omega⟩
      · have := hf.len; simp; omega
      · intro a ha
        rcases List.mem_cons.1 ha with rfl | ha
        · exact hc
        · exact hf.before a ha
    | eq => exact ⟨[], kv :: rest, ⟨rfl, by simp, by simp, fun _ => ⟨kv, rest, rfl, hc⟩, by simp⟩, by simp⟩
    | lt => exact ⟨[], kv :: rest, ⟨rfl, by simp, by simp, by simp, fun _ => .inr ⟨kv, rest, rfl, hc⟩⟩, by simp⟩

theorem searchLinear_spec [Ord Q] (bor : K → Q) (q : Q) (kvs : List (K × V)) :
    ∃ A C, Found bor q kvs (searchLinear bor q kvs).1 (searchLinear bor q kvs).2 A C := by
  obtain ⟨A, C, hf, _⟩ := searchFrom_spec bor q kvs 0
  exact ⟨A, C, by simpa [searchLinear] using hf⟩

theorem Found.idx_le [Ord Q] {bor : K → Q} {q : Q} {kvs : List (K × V)} {i b A C} (hf : Found bor q kvs i b A C) :
    i ≤ kvs.length := by
  have h1 := hf.split; have h2 := hf.len; subst h1; simp; omega

/-! ### searching a tree -/

/-- Where `search_tree` ends up, for any `Ord` implementation: a valid position. -/
inductive SearchAt (h : Nat) (t : Tree K V) : SearchResult → Prop
  | found {p idx A kv B} (hk : KvAt h t p idx A kv B) : SearchAt h t (.found ⟨p.reverse, idx⟩)
  | goDown {p idx A B} (he : EdgeAt h t p idx A B) : SearchAt h t (.goDown ⟨p.reverse, idx⟩)

/-- The search starting below `up` answers with positions below `up`. -/
theorem searchTree_valid [Ord Q] (bor : K → Q) (q : Q) {h : Nat} {t : Tree K V} (hb : BelowN lo h t) (up : List Nat) :
    (∃ p idx A kv B, searchTree bor q h t up = .ok (.found ⟨p.reverse ++ up, idx⟩) ∧ KvAt h t p idx A kv B ∧
        compare q (bor kv.1) = .eq) ∨
    (∃ p idx A B, searchTree bor q h t up = .ok (.goDown ⟨p.reverse ++ up, idx⟩) ∧ EdgeAt h t p idx A B) := by
  induction h generalizing t up with
  | zero =>
    obtain ⟨A, C, hf⟩ := searchLinear_spec bor q t.kvs
    obtain ⟨ks, es⟩ := t
    simp only [BelowN] at hb
    subst hb
    cases hs : searchLinear bor q ks with
    | mk i b =>
    simp only [hs] at hf
    have h1 := hf.split; have h2 := hf.len
    subst h1 h2
    cases b with
    | true =>
      obtain ⟨kv, C', rfl, hc⟩ := hf.hit rfl
      exact .inl ⟨[], _, A, kv, C', by simp [searchTree, hs], .leaf A kv C', hc⟩
    | false => exact .inr ⟨[], _, A, C, by simp [searchTree, hs], .leaf A C⟩
  | succ h ih =>
    obtain ⟨A, C, hf⟩ := searchLinear_spec bor q t.kvs
    cases hs : searchLinear bor q t.kvs with
    | mk i b =>
    simp only [hs] at hf
    cases b with
    | true =>
      obtain ⟨kv, C', rfl, hc⟩ := hf.hit rfl
      have hlt : i < t.len := by have := hf.split; have := hf.len; simp_all [Tree.len]
      obtain ⟨A0, kv0, C0, X, l, r, Y, rfl, hA, hX, hY⟩ := split_kv hb.1 hlt
      have := hf.split
      have hA' : A0 = A ∧ kv0 :: C0 = kv :: C' := List.append_inj this (by rw [hA, hf.len])
      obtain ⟨rfl, hcons⟩ := hA'
      obtain ⟨rfl, rfl⟩ := List.cons_eq_cons.1 hcons
      have hk := KvAt.node (h := h) A0 kv0 C0 X l r Y (by omega) hY
      rw [hA] at hk
      exact .inl ⟨[], i, _, kv0, _, by simp [searchTree, hs], hk, hc⟩
    | false =>
      obtain ⟨A0, C0, X, c, Y, rfl, hA, hX, hY⟩ := split_edge hb.1 hf.idx_le
      have hin : InnerN lo h c := hb.2 c (by simp)
      have hg : getE (X ++ c :: Y) i = .ok c := getE_split rfl hX.symm
      subst hX
      rcases ih hin.2.2 (X.length :: up) with ⟨p, idx, A1, kv, B1, h1, h2, h3⟩ | ⟨p, idx, A1, B1, h1, h2⟩
      · left
        refine ⟨X.length :: p, idx, _, kv, _, ?_, .child A0 C0 X Y (by omega) hY h2, h3⟩
        simp only [searchTree, hs, hg, Exec.ok_bind, h1]; simp
      · right
        refine ⟨X.length :: p, idx, _, _, ?_, .child A0 C0 X Y (by omega) hY h2⟩
        simp only [searchTree, hs, hg, Exec.ok_bind, h1]; simp

/-! ### searching a sorted tree -/

theorem compare_gt_of_lt [Ord K] [Ord Q] [Std.TransOrd Q] {bor : K → Q} (hb : BorrowOK bor) {q : Q} {a b : K}
    (h1 : compare q (bor b) = .gt) (h2 : compare a b = .lt) : compare q (bor a) = .gt := by
  rw [← hb] at h2
  exact Std.OrientedCmp.gt_of_lt
    (Std.TransCmp.lt_trans h2 (Std.OrientedCmp.lt_of_gt h1))

theorem compare_lt_of_lt [Ord K] [Ord Q] [Std.TransOrd Q] {bor : K → Q} (hb : BorrowOK bor) {q : Q} {a b : K}
    (h1 : (compare q (bor a)).isLE) (h2 : compare a b = .lt) : compare q (bor b) = .lt := by
  rw [← hb] at h2
  exact Std.TransCmp.lt_of_isLE_of_lt h1 h2

theorem compare_gt_of_eq [Ord K] [Ord Q] [Std.TransOrd Q] {bor : K → Q} (hb : BorrowOK bor) {q : Q} {a b : K}
    (h1 : compare q (bor b) = .eq) (h2 : compare a b = .lt) : compare q (bor a) = .gt := by
  rw [← hb] at h2
  have h3 : compare (bor b) q = .eq := Std.OrientedCmp.eq_symm h1
  exact Std.OrientedCmp.gt_of_lt (Std.TransCmp.lt_of_lt_of_eq h2 h3)

theorem _root_.Verif.Spec.Sorted.append_iff [Ord K] {A B : List (K × V)} :
    Sorted (A ++ B) ↔ Sorted A ∧ Sorted B ∧ ∀ a ∈ A, ∀ b ∈ B, compare a.1 b.1 = .lt :=
  List.pairwise_append

/-- In a sorted list, everything before a pair that is not above `q` is below `q`. -/
theorem all_gt_of_last [Ord K] [Ord Q] [Std.TransOrd Q] {bor : K → Q} (hb : BorrowOK bor) {q : Q}
    {A B : List (K × V)} {kv : K × V} (hs : Sorted (A ++ kv :: B)) (h : compare q (bor kv.1) ≠ .lt) :
    ∀ a ∈ A, compare q (bor a.1) = .gt := by
  intro a ha
  have h2 := (Sorted.append_iff.1 hs).2.2 a ha kv (by simp)
  cases hc : compare q (bor kv.1) with
  | lt => exact absurd hc h
  | eq => exact compare_gt_of_eq hb hc h2
  | gt => exact compare_gt_of_lt hb hc h2

/-- In a sorted list, everything after a pair that is not below `q` is above `q`. -/
theorem all_lt_of_head [Ord K] [Ord Q] [Std.TransOrd Q] {bor : K → Q} (hb : BorrowOK bor) {q : Q}
    {A B : List (K × V)} {kv : K × V} (hs : Sorted (A ++ kv :: B)) (h : compare q (bor kv.1) ≠ .gt) :
    ∀ b ∈ B, compare q (bor b.1) = .lt := by
  intro b hbm
  have h2 := (Sorted.append_iff.1 hs).2.1
  have h3 : compare kv.1 b.1 = .lt := (List.pairwise_cons.1 h2).1 b hbm
  refine compare_lt_of_lt hb ?_ h3
  cases hc : compare q (bor kv.1) <;> simp_all

theorem preT_concat {h : Nat} {A : List (K × V)} {X : List (Tree K V)} {kv : K × V} {x : Tree K V}
    (hX : X.length = A.length) : preT h (A ++ [kv]) (X ++ [x]) = preT h A X ++ toList h x ++ [kv] := by
  rw [preT_append hX]; simp

/-- Where `search_tree` ends up in a sorted tree. -/
theorem searchTree_sorted [Ord K] [Ord Q] [Std.TransOrd Q] {bor : K → Q} (hbo : BorrowOK bor) (q : Q) {h : Nat}
    {t : Tree K V} (hb : BelowN lo h t) (hs : Sorted (toList h t)) (up : List Nat) :
    (∃ p idx A kv B, searchTree bor q h t up = .ok (.found ⟨p.reverse ++ up, idx⟩) ∧ KvAt h t p idx A kv B ∧
        (∀ a ∈ A, compare q (bor a.1) = .gt) ∧ compare q (bor kv.1) = .eq ∧
        (∀ b ∈ B, compare q (bor b.1) = .lt)) ∨
    (∃ p idx A B, searchTree bor q h t up = .ok (.goDown ⟨p.reverse ++ up, idx⟩) ∧ EdgeAt h t p idx A B ∧
        (∀ a ∈ A, compare q (bor a.1) = .gt) ∧ (∀ b ∈ B, compare q (bor b.1) = .lt)) := by
  induction h generalizing t up with
  | zero =>
    obtain ⟨A, C, hf⟩ := searchLinear_spec bor q t.kvs
    obtain ⟨ks, es⟩ := t
    simp only [BelowN] at hb
    subst hb
    cases hsl : searchLinear bor q ks with
    | mk i b =>
    simp only [hsl] at hf
    have h1 := hf.split; have h2 := hf.len
    subst h1 h2
    simp only [toList_zero] at hs
    cases b with
    | true =>
      obtain ⟨kv, C', rfl, hc⟩ := hf.hit rfl
      exact .inl ⟨[], _, A, kv, C', by simp [searchTree, hsl], .leaf A kv C', hf.before, hc,
        all_lt_of_head hbo hs (by simp [hc])⟩
    | false =>
      refine .inr ⟨[], _, A, C, by simp [searchTree, hsl], .leaf A C, hf.before, ?_⟩
      rcases hf.miss rfl with rfl | ⟨kv, C', rfl, hc⟩
      · simp
      · intro b hb
        rcases List.mem_cons.1 hb with rfl | hb
        · exact hc
        · exact all_lt_of_head hbo hs (by simp [hc]) b hb
  | succ h ih =>
    obtain ⟨A, C, hf⟩ := searchLinear_spec bor q t.kvs
    cases hsl : searchLinear bor q t.kvs with
    | mk i b =>
    simp only [hsl] at hf
    cases b with
    | true =>
      obtain ⟨kv, C', rfl, hc⟩ := hf.hit rfl
      have hlt : i < t.len := by have := hf.split; have := hf.len; simp_all [Tree.len]
      obtain ⟨A0, kv0, C0, X, l, r, Y, rfl, hA, hX, hY⟩ := split_kv hb.1 hlt
      have := hf.split
      have hA' : A0 = A ∧ kv0 :: C0 = kv :: C' := List.append_inj this (by rw [hA, hf.len])
      obtain ⟨rfl, hcons⟩ := hA'
      obtain ⟨rfl, rfl⟩ := List.cons_eq_cons.1 hcons
      have hk := KvAt.node (h := h) A0 kv0 C0 X l r Y (by omega) hY
      rw [hA] at hk
      have hs' := hk.toList_eq ▸ hs
      exact .inl ⟨[], i, _, kv0, _, by simp [searchTree, hsl], hk, all_gt_of_last hbo hs' (by simp [hc]), hc,
        all_lt_of_head hbo hs' (by simp [hc])⟩
    | false =>
      obtain ⟨A0, C0, X, c, Y, rfl, hA, hX, hY⟩ := split_edge hb.1 hf.idx_le
      have hin : InnerN lo h c := hb.2 c (by simp)
      have hg : getE (X ++ c :: Y) i = .ok c := getE_split rfl hX.symm
      subst hX
      have hAA : A0 = A ∧ C0 = C := List.append_inj hf.split (by rw [hA, hf.len])
      obtain ⟨rfl, rfl⟩ := hAA
      rw [toList_split (by omega)] at hs
      have hpre : ∀ a ∈ preT h A0 X, compare q (bor a.1) = .gt := by
        rcases List.eq_nil_or_concat A0 with rfl | ⟨A1, k, rfl⟩
        · simp
        · rcases List.eq_nil_or_concat X with rfl | ⟨X1, x, rfl⟩
          · simp at hA
          · simp only [List.concat_eq_append] at hs hf ⊢
            rw [preT_concat (by simpa using hA.symm)] at hs ⊢
            have hk : compare q (bor k.1) = .gt := hf.before k (by simp)
            rw [List.append_assoc, List.singleton_append] at hs
            have := all_gt_of_last (q := q) hbo hs (by simp [hk])
            intro a ha
            rcases List.mem_append.1 ha with ha | ha
            · exact this a ha
            · rw [List.mem_singleton.1 ha]; exact hk
      have hpost : ∀ b ∈ postT h C0 Y, compare q (bor b.1) = .lt := by
        rcases hf.miss rfl with rfl | ⟨kv, C', rfl, hc⟩
        · simp
        · cases Y with
          | nil => simp at hY
          | cons y Y =>
            rw [postT_cons] at hs ⊢
            rw [← List.append_assoc] at hs
            have := all_lt_of_head (q := q) hbo hs (by simp [hc])
            intro b hb
            rcases List.mem_cons.1 hb with rfl | hb
            · exact hc
            · exact this b hb
      have hsc : Sorted (toList h c) := (Sorted.append_iff.1 (Sorted.append_iff.1 hs).2.1).1
      rcases ih hin.2.2 hsc (X.length :: up) with
        ⟨p, idx, A1, kv, B1, h1, h2, h3, h4, h5⟩ | ⟨p, idx, A1, B1, h1, h2, h3, h4⟩
      · left
        refine ⟨X.length :: p, idx, _, kv, _, ?_, .child A0 C0 X Y (by omega) hY h2, ?_, h4, ?_⟩
        · simp only [searchTree, hsl, hg, Exec.ok_bind, h1]; simp
        · intro a ha
          rcases List.mem_append.1 ha with ha | ha
          · exact hpre a ha
          · exact h3 a ha
        · intro a ha
          rcases List.mem_append.1 ha with ha | ha
          · exact h5 a ha
          · exact hpost a ha
      · right
        refine ⟨X.length :: p, idx, _, _, ?_, .child A0 C0 X Y (by omega) hY h2, ?_, ?_⟩
        · simp only [searchTree, hsl, hg, Exec.ok_bind, h1]; simp
        · intro a ha
          rcases List.mem_append.1 ha with ha | ha
          · exact hpre a ha
          · exact h3 a ha
        · intro a ha
          rcases List.mem_append.1 ha with ha | ha
          · exact h4 a ha
          · exact hpost a ha

end Verif.BTree
