import Verif.BTree.Proofs.Insert
/-
Removal: `remove_kv` at a pair, structurally.
-/
namespace Verif.BTree
open Verif

variable {K V : Type}

/-- A pair that lives in a leaf. -/
inductive LeafKvAt : Nat → Tree K V → List Nat → Nat → List (K × V) → K × V → List (K × V) → Prop
  | leaf (A : List (K × V)) (kv : K × V) (B : List (K × V)) :
      LeafKvAt 0 ⟨A ++ kv :: B, []⟩ [] A.length A kv B
  | child {h : Nat} {c : Tree K V} {p : List Nat} {idx : Nat} {A B : List (K × V)} {kv : K × V}
      (A0 C0 : List (K × V)) (X Y : List (Tree K V))
      (hX : X.length = A0.length) (hY : Y.length = C0.length) (hc : LeafKvAt h c p idx A kv B) :
      LeafKvAt (h + 1) ⟨A0 ++ C0, X ++ c :: Y⟩ (X.length :: p) idx (preT h A0 X ++ A) kv (B ++ postT h C0 Y)

/-- The shape of a tree whose leaf at path `p` may be one pair short. -/
inductive Deficient : Nat → Tree K V → List Nat → Prop
  | leaf (ks : List (K × V)) : Deficient 0 ⟨ks, []⟩ []
  | child {h : Nat} {c : Tree K V} {p : List Nat} (A0 C0 : List (K × V)) (X Y : List (Tree K V))
      (hX : X.length = A0.length) (hY : Y.length = C0.length)
      (hXi : ∀ d ∈ X, Inner h d) (hYi : ∀ d ∈ Y, Inner h d)
      (hlo : 3 ≤ c.len) (hlo' : 0 < h → 4 ≤ c.len) (hhi : c.len ≤ 11) (hc : Deficient h c p) :
      Deficient (h + 1) ⟨A0 ++ C0, X ++ c :: Y⟩ (X.length :: p)

theorem LeafKvAt.toKvAt {h : Nat} {t : Tree K V} {p idx A kv B} (hk : LeafKvAt h t p idx A kv B) :
    KvAt h t p idx A kv B := by
  induction hk with
  | leaf A kv B => exact .leaf A kv B
  | child A0 C0 X Y hX hY hc ih => exact .child A0 C0 X Y hX hY ih

theorem LeafKvAt.nodeAt {h : Nat} {t : Tree K V} {p idx A kv B} (hk : LeafKvAt h t p idx A kv B) :
    ∃ n, BTree.nodeAt h t p = .ok (0, n) ∧ idx < n.len := by
  induction hk with
  | leaf A kv B => exact ⟨_, rfl, by simp⟩
  | child A0 C0 X Y hX hY hc ih =>
    obtain ⟨n, h1, h2⟩ := ih
    exact ⟨n, by simp [BTree.nodeAt, h1], h2⟩

/-- Removing a pair from its leaf. -/
theorem LeafKvAt.remove {h : Nat} {t : Tree K V} {p idx A kv B} (hk : LeafKvAt h t p idx A kv B)
    (hb : Below h t) :
    ∃ t', removeLeafKv h t p idx = .ok (t', kv) ∧ EdgeAt h t' p idx A B ∧ Deficient h t' p ∧
      (0 < h → t'.len = t.len) ∧ (h = 0 → t'.len + 1 = t.len) := by
  unfold removeLeafKv
  induction hk with
  | leaf A kv B =>
    exact ⟨⟨A ++ B, []⟩, by simp [modifyAt, Tree.removeKv], .leaf A B, .leaf _, by simp, by simp; omega⟩
  | @child h c p idx A B kv A0 C0 X Y hX hY hc ih =>
    obtain ⟨hXi, hci, hYi⟩ := mem_edges_split hb.2
    obtain ⟨c', h1, h2, h3, h4, h5⟩ := ih hci.2.2
    have := hci.1; have := hci.2.1
    refine ⟨⟨A0 ++ C0, X ++ c' :: Y⟩, by simp [modifyAt, h1], .child A0 C0 X Y hX hY h2,
      .child A0 C0 X Y hX hY hXi hYi ?_ ?_ ?_ h3, by simp, by simp⟩
    · rcases Nat.eq_zero_or_pos h with h0 | h0
      · have := h5 h0; omega
      · have := h4 h0; omega
    · intro h0; have := h4 h0; omega
    · rcases Nat.eq_zero_or_pos h with h0 | h0
      · have := h5 h0; omega
      · have := h4 h0; omega

/-- The first leaf of an inner node holds the first pair. -/
theorem firstLeafPath_spec {h : Nat} {t : Tree K V} (hb : Below h t) (hlen : 1 ≤ t.len ∨ 0 < h) :
    ∃ q kv B, firstLeafPath h t = .ok q ∧ LeafKvAt h t q 0 [] kv B := by
  induction h generalizing t with
  | zero =>
    obtain ⟨ks, es⟩ := t
    simp only [BelowN] at hb
    subst hb
    cases ks with
    | nil => simp at hlen
    | cons kv ks => exact ⟨[], kv, ks, rfl, .leaf [] kv ks⟩
  | succ h ih =>
    obtain ⟨A, C, X, c, Y, rfl, hA, hX, hY⟩ := split_edge hb.1 (Nat.zero_le _)
    have hA' : A = [] := by simpa using hA
    have hX' : X = [] := by simpa using hX
    subst hA' hX'
    have hci : Inner h c := hb.2 c (by simp)
    obtain ⟨q, kv, B, h1, h2⟩ := ih hci.2.2 (.inl (by have := hci.1; omega))
    refine ⟨0 :: q, kv, B ++ postT h C Y, ?_, ?_⟩
    · have : getE ([] ++ c :: Y) 0 = .ok c := getE_append [] c Y
      simp only [List.nil_append] at this
      simp [firstLeafPath, this, h1]
    · simpa using LeafKvAt.child [] C [] Y rfl hY h2

/-- Taking a pair out, wherever it is. -/
theorem removeRaw_spec {h : Nat} {t : Tree K V} {p idx A kv B} (hk : KvAt h t p idx A kv B) (hb : Below h t) :
    ∃ t' leaf, removeRaw h t p idx = .ok (t', kv, leaf) ∧ toList h t' = A ++ B ∧ Deficient h t' leaf ∧
      (0 < h → t'.len = t.len) ∧ (h = 0 → t'.len + 1 = t.len) := by
  -- either the pair is in a leaf, or its successor is
  have key : (∃ n, nodeAt h t p = .ok (0, n) ∧ LeafKvAt h t p idx A kv B) ∨
      (∃ hn n c q kv' B', nodeAt h t p = .ok (hn + 1, n) ∧ getE n.kvs idx = .ok kv ∧
        getE n.edges (idx + 1) = .ok c ∧ firstLeafPath hn c = .ok q ∧ B = kv' :: B' ∧
        LeafKvAt h t (p ++ (idx + 1) :: q) 0 (A ++ [kv]) kv' B' ∧
        ∃ t1, removeLeafKv h t (p ++ (idx + 1) :: q) 0 = .ok (t1, kv') ∧ KvAt h t1 p idx A kv B' ∧
          Deficient h t1 (p ++ (idx + 1) :: q) ∧ t1.len = t.len ∧
          ∀ kv2 t2, replaceKv h t1 p idx kv2 = .ok (t2, kv) →
            Deficient h t2 (p ++ (idx + 1) :: q) ∧ t2.len = t.len) := by
    induction hk with
    | leaf A kv B => exact .inl ⟨_, rfl, .leaf A kv B⟩
    | @node h A0 kv C0 X l r Y hX hY =>
      right
      have hri : Inner h r := hb.2 r (by simp)
      have hli : Inner h l := hb.2 l (by simp)
      have hXi : ∀ d ∈ X, Inner h d := fun d hd => hb.2 d (by simp [hd])
      have hYi : ∀ d ∈ Y, Inner h d := fun d hd => hb.2 d (by simp [hd])
      obtain ⟨q, kv', B', h1, h2⟩ := firstLeafPath_spec hri.2.2 (.inl (by have := hri.1; omega))
      have hr : toList h r = kv' :: B' := by simpa using h2.toKvAt.toList_eq
      have hg : getE (X ++ l :: r :: Y) (A0.length + 1) = .ok r := by rw [← hX]; simp
      have hleaf : LeafKvAt (h + 1) ⟨A0 ++ kv :: C0, X ++ l :: r :: Y⟩ ([] ++ (A0.length + 1) :: q) 0
          ((preT h A0 X ++ toList h l) ++ [kv]) kv' (B' ++ postT h C0 Y) := by
        have := LeafKvAt.child (A0 ++ [kv]) C0 (X ++ [l]) Y (by simpa using hX) hY h2
        simpa [preT_concat hX, hX] using this
      obtain ⟨r', g1, g2, g3, g4, g5⟩ := h2.remove hri.2.2
      have hr' : toList h r' = B' := by simpa using g2.toList_eq
      have := hri.1; have := hri.2.1
      have hdef : ∀ kv2, Deficient (h + 1) (⟨A0 ++ kv2 :: C0, X ++ l :: r' :: Y⟩ : Tree K V)
          ([] ++ (A0.length + 1) :: q) := by
        intro kv2
        have := Deficient.child (h := h) (A0 ++ [kv2]) C0 (X ++ [l]) Y (by simpa using hX) hY
          (by intro d hd; simp at hd; rcases hd with hd | hd; exact hXi d hd; exact hd ▸ hli) hYi (c := r') (p := q)
          (by rcases Nat.eq_zero_or_pos h with h0 | h0
              · have := g5 h0; omega
              · have := g4 h0; omega)
          (by intro h0; have := g4 h0; omega)
          (by rcases Nat.eq_zero_or_pos h with h0 | h0
              · have := g5 h0; omega
              · have := g4 h0; omega) g3
        simpa [hX] using this
      refine ⟨h, _, r, q, kv', B' ++ postT h C0 Y, rfl, by simp, hg, h1, by simp [hr], hleaf,
        ⟨A0 ++ kv :: C0, X ++ l :: r' :: Y⟩, ?_, ?_, hdef kv, by simp, ?_⟩
      · have hs : setE (X ++ l :: r :: Y) (A0.length + 1) r' = .ok (X ++ l :: r' :: Y) := by rw [← hX]; simp
        simp only [removeLeafKv] at g1
        simp [removeLeafKv, modifyAt, hg, g1, hs]
      · have := KvAt.node (h := h) A0 kv C0 X l r' Y hX hY
        rwa [hr'] at this
      · intro kv2 t2 ht2
        simp [replaceKv, modifyAt] at ht2
        subst ht2
        exact ⟨hdef kv2, by simp⟩
    | @child h c p idx A B kv A0 C0 X Y hX hY hc ih =>
      obtain ⟨hXi, hci, hYi⟩ := mem_edges_split hb.2
      rcases ih hci.2.2 with ⟨n, h1, h2⟩ | ⟨hn, n, d, q, kv', B', h1, h2, h3, h4, h5, h6, c1, h7, h8, h9, h10, h11⟩
      · exact .inl ⟨n, by simp [nodeAt, h1], .child A0 C0 X Y hX hY h2⟩
      · right
        have hh : 0 < h := by
          cases h with
          | zero => cases hc; simp [nodeAt] at h1
          | succ h => omega
        have := hci.1; have := hci.2.1
        have hdef : ∀ c', Deficient h c' (p ++ (idx + 1) :: q) → c'.len = c.len →
            Deficient (h + 1) ⟨A0 ++ C0, X ++ c' :: Y⟩ (X.length :: p ++ (idx + 1) :: q) := by
          intro c' hd hl
          exact .child A0 C0 X Y hX hY hXi hYi (by omega) (by omega) (by omega) hd
        refine ⟨hn, n, d, q, kv', B' ++ postT h C0 Y, by simp [nodeAt, h1], h2, h3, h4, by simp [h5], ?_,
          ⟨A0 ++ C0, X ++ c1 :: Y⟩, ?_, .child A0 C0 X Y hX hY h8, hdef c1 h9 h10, by simp, ?_⟩
        · have := LeafKvAt.child A0 C0 X Y hX hY h6
          simpa using this
        · simp only [removeLeafKv] at h7
          simp [removeLeafKv, modifyAt, h7]
        · intro kv2 t2 ht2
          obtain ⟨c2, g1, g2, g3, g4⟩ := h8.replaceKv kv2
          have g1' := g1
          simp only [replaceKv] at g1' ht2
          simp [modifyAt, g1'] at ht2
          subst ht2
          obtain ⟨k1, k2⟩ := h11 kv2 c2 g1
          exact ⟨hdef c2 k1 k2, by simp⟩
  rcases key with ⟨n, h1, h2⟩ | ⟨hn, n, d, q, kv', B', h1, h2, h3, h4, h5, h6, t1, h7, h8, h9, h10, h11⟩
  · obtain ⟨t', g1, g2, g3, g4, g5⟩ := h2.remove hb
    exact ⟨t', p, by simp [removeRaw, h1, g1], g2.toList_eq, g3, g4, g5⟩
  · obtain ⟨t2, g1, g2, g3, g4⟩ := h8.replaceKv kv'
    obtain ⟨k1, k2⟩ := h11 kv' t2 g1
    obtain ⟨ln, m1, m2⟩ := h6.nodeAt
    have hh : 0 < h := by
      cases h with
      | zero => cases hk; simp [nodeAt] at h1
      | succ h => omega
    refine ⟨t2, p ++ (idx + 1) :: q, ?_, ?_, k1, fun _ => k2, by omega⟩
    · simp [removeRaw, h1, h2, h3, h4, m1, require_of (decide_eq_true m2), h7, g1]
    · rw [g2.toList_eq, h5]

/-! ### rebalancing -/

/-- `handle_underfull_node` on a child that is one or two pairs short. -/
theorem handleUnderfull_spec {h : Nat} {A0 C0 : List (K × V)} {X Y : List (Tree K V)} {c : Tree K V}
    (hX : X.length = A0.length) (hY : Y.length = C0.length)
    (hXi : ∀ d ∈ X, Inner h d) (hYi : ∀ d ∈ Y, Inner h d) (hc : Below h c) (hlo : 3 ≤ c.len) (hhi : c.len < 5)
    (hlen : 1 ≤ (A0 ++ C0).length) :
    ∃ t' w, handleUnderfull h ⟨A0 ++ C0, X ++ c :: Y⟩ X.length = .ok (t', w) ∧
      toList (h + 1) t' = toList (h + 1) ⟨A0 ++ C0, X ++ c :: Y⟩ ∧
      match w with
      | .done => Below (h + 1) t' ∧ t'.len = (A0 ++ C0).length
      | .walking => Below (h + 1) t' ∧ t'.len + 1 = (A0 ++ C0).length ∧ 1 ≤ t'.len
      | .popRoot => (A0 ++ C0).length = 1 ∧ ∃ d, t' = ⟨[], [d]⟩ ∧ Inner h d := by
  -- merging `l`, `kv`, `r` around a pair
  have hmerge : ∀ (A1 C1 : List (K × V)) (X1 Y1 : List (Tree K V)) (l r : Tree K V) (kv : K × V),
      X1.length = A1.length → Y1.length = C1.length → (∀ d ∈ X1, Inner h d) → (∀ d ∈ Y1, Inner h d) →
      Below h l → Below h r → 4 ≤ l.len + r.len + 1 → l.len + r.len + 1 ≤ 11 →
      ∃ t' w, (do
          let t ← merge ⟨A1 ++ kv :: C1, X1 ++ l :: r :: Y1⟩ X1.length
          (.ok (t, if t.len = 0 then Walk.popRoot else .walking) : Exec (Tree K V × Walk))) = .ok (t', w) ∧
        toList (h + 1) t' = toList (h + 1) ⟨A1 ++ kv :: C1, X1 ++ l :: r :: Y1⟩ ∧
        match w with
        | .done => Below (h + 1) t' ∧ t'.len = (A1 ++ kv :: C1).length
        | .walking => Below (h + 1) t' ∧ t'.len + 1 = (A1 ++ kv :: C1).length ∧ 1 ≤ t'.len
        | .popRoot => (A1 ++ kv :: C1).length = 1 ∧ ∃ d, t' = ⟨[], [d]⟩ ∧ Inner h d := by
    intro A1 C1 X1 Y1 l r kv hX1 hY1 hX1i hY1i hl hr hm4 hm11
    have hj : Inner h (join l kv r) := ⟨by simp; omega, by simp; omega, Below_join kv hl hr⟩
    have htl : toList (h + 1) ⟨A1 ++ C1, X1 ++ join l kv r :: Y1⟩ =
        toList (h + 1) ⟨A1 ++ kv :: C1, X1 ++ l :: r :: Y1⟩ := by
      rw [toList_split hX1, toList_split_kv hX1, toList_join kv hl.edgesOK hr.edgesOK]; simp
    have hbel : Below (h + 1) (⟨A1 ++ C1, X1 ++ join l kv r :: Y1⟩ : Tree K V) := by
      refine ⟨by simp; omega, ?_⟩
      intro d hd
      simp only [List.mem_append, List.mem_cons] at hd
      rcases hd with hd | rfl | hd
      · exact hX1i d hd
      · exact hj
      · exact hY1i d hd
    rw [merge_split hX1 hm11]
    by_cases h0 : (A1 ++ C1).length = 0
    · have hA1 : A1 = [] := by simp at h0; exact h0.1
      have hC1 : C1 = [] := by simp at h0; exact h0.2
      subst hA1 hC1
      have hX1' : X1 = [] := by simpa using hX1
      have hY1' : Y1 = [] := by simpa using hY1
      subst hX1' hY1'
      exact ⟨⟨[], [join l kv r]⟩, .popRoot, by simp [Tree.len], htl, by simp, _, rfl, hj⟩
    · refine ⟨⟨A1 ++ C1, X1 ++ join l kv r :: Y1⟩, .walking, ?_, htl, hbel, by simp; omega, by simp only [len_mk]; omega⟩
      simp only [Exec.ok_bind, len_mk, h0, if_false]
  -- stealing around a pair
  have hsteal : ∀ (A1 C1 : List (K × V)) (X1 Y1 : List (Tree K V)) (l r l' r' : Tree K V) (kv kv' : K × V),
      X1.length = A1.length → Y1.length = C1.length → (∀ d ∈ X1, Inner h d) → (∀ d ∈ Y1, Inner h d) →
      Below h l → Below h r → Rotated h l kv r l' kv' r' → 4 ≤ l'.len → l'.len ≤ 11 → 4 ≤ r'.len → r'.len ≤ 11 →
      toList (h + 1) ⟨A1 ++ kv' :: C1, X1 ++ l' :: r' :: Y1⟩ =
        toList (h + 1) ⟨A1 ++ kv :: C1, X1 ++ l :: r :: Y1⟩ ∧
      Below (h + 1) (⟨A1 ++ kv' :: C1, X1 ++ l' :: r' :: Y1⟩ : Tree K V) := by
    intro A1 C1 X1 Y1 l r l' r' kv kv' hX1 hY1 hX1i hY1i hl hr hrot h1 h2 h3 h4
    obtain ⟨g1, g2, g3⟩ := hrot
    obtain ⟨b1, b2⟩ := Below_of_join hl hr g1 g2 g3
    have := toList_rotate hl.edgesOK hr.edgesOK g1 g2 g3
    refine ⟨?_, ?_, ?_⟩
    · rw [toList_split_kv hX1, toList_split_kv hX1]
      have := congrArg (fun x => preT h A1 X1 ++ (x ++ postT h C1 Y1)) this
      simpa using this
    · simp; omega
    · intro d hd
      simp only [List.mem_append, List.mem_cons] at hd
      rcases hd with hd | rfl | rfl | hd
      · exact hX1i d hd
      · exact ⟨h1, h2, b1⟩
      · exact ⟨h3, h4, b2⟩
      · exact hY1i d hd
  unfold handleUnderfull
  rcases List.eq_nil_or_concat X with rfl | ⟨X1, l, rfl⟩
  · -- no left sibling
    have hA0 : A0 = [] := by simpa using hX.symm
    subst hA0
    cases C0 with
    | nil => simp at hlen
    | cons kv C0 =>
      cases Y with
      | nil => simp at hY
      | cons r Y =>
        have hri := hYi r (by simp)
        have hYi' : ∀ d ∈ Y, Inner h d := fun d hd => hYi d (by simp [hd])
        have hY' : Y.length = C0.length := by simpa using hY
        have hcm := canMerge_split (A := []) (C := C0) (kv := kv) (X := []) (Y := Y) (l := c) (r := r) rfl
        simp only [List.nil_append, List.length_nil] at hcm
        by_cases hm : c.len + r.len + 1 ≤ 11
        · obtain ⟨t', w, g1, g2⟩ := hmerge [] C0 [] Y c r kv rfl hY' (by simp) hYi' hc hri.2.2 (by omega) hm
          refine ⟨t', w, ?_, by simpa using g2⟩
          simpa [Tree.len, hcm, hm, show c.kvs.length + r.kvs.length ≤ 10 by simp [Tree.len] at hm; omega] using g1
        · have := hri.1; have := hri.2.1
          obtain ⟨l', kv', r', g1, g2, g3, g4⟩ := stealRight_split (h := h) (A := []) (C := C0) (kv := kv) (X := [])
            (Y := Y) (l := c) (r := r) rfl hc.edgesOK hri.2.2.edgesOK (by omega) (by omega)
          obtain ⟨k1, k2⟩ := hsteal [] C0 [] Y c r l' r' kv kv' rfl hY' (by simp) hYi' hc hri.2.2 g2
            (by omega) (by omega) (by omega) (by omega)
          refine ⟨_, .done, ?_, k1, k2, by simp⟩
          simp only [List.nil_append, List.length_nil] at g1
          simp [Tree.len, hcm, g1, show ¬ (c.kvs.length + r.kvs.length ≤ 10) by simp [Tree.len] at hm; omega]
  · simp only [List.concat_eq_append] at hX hXi ⊢
    rcases List.eq_nil_or_concat A0 with rfl | ⟨A1, kv, rfl⟩
    · simp at hX
    · simp only [List.concat_eq_append] at hX ⊢
      have hX1 : X1.length = A1.length := by simpa using hX
      have hli : Inner h l := hXi l (by simp)
      have hX1i : ∀ d ∈ X1, Inner h d := fun d hd => hXi d (by simp [hd])
      have hcm := canMerge_split (A := A1) (C := C0) (kv := kv) (X := X1) (Y := Y) (l := l) (r := c) hX1
      have e1 : A1 ++ [kv] ++ C0 = A1 ++ kv :: C0 := by simp
      have e2 : X1 ++ [l] ++ c :: Y = X1 ++ l :: c :: Y := by simp
      have e3 : (X1 ++ [l]).length = X1.length + 1 := by simp
      rw [e1, e2, e3]
      simp only [Nat.zero_lt_succ, if_true, Nat.add_sub_cancel, hcm, Exec.ok_bind]
      by_cases hm : l.len + c.len + 1 ≤ 11
      · simp only [hm, decide_true, if_true]
        exact hmerge A1 C0 X1 Y l c kv hX1 hY hX1i hYi hli.2.2 hc (by omega) hm
      · have := hli.1; have := hli.2.1
        obtain ⟨l', kv', r', g1, g2, g3, g4⟩ := stealLeft_split (h := h) (A := A1) (C := C0) (kv := kv) (X := X1)
          (Y := Y) (l := l) (r := c) hX1 hli.2.2.edgesOK hc.edgesOK (by omega) (by omega)
        obtain ⟨k1, k2⟩ := hsteal A1 C0 X1 Y l c l' r' kv kv' hX1 hY hX1i hYi hli.2.2 hc g2
          (by omega) (by omega) (by omega) (by omega)
        refine ⟨_, .done, ?_, k1, k2, by simp⟩
        simp [hm, g1]

/-- The underflow loop restores the shape, up to one pair fewer in the top node. -/
theorem underflow_spec {h : Nat} {t : Tree K V} {p : List Nat} (hd : Deficient h t p) (hlen : 0 < h → 1 ≤ t.len) :
    ∃ t' w, underflow h t p = .ok (t', w) ∧ toList h t' = toList h t ∧
      match w with
      | .done => Below h t' ∧ t'.len = t.len ∧ 0 < h
      | .walking => Below h t' ∧ (t'.len = t.len ∨ t'.len + 1 = t.len) ∧ (h = 0 → t' = t) ∧ (0 < h → 1 ≤ t'.len)
      | .popRoot => 0 < h ∧ t.len = 1 ∧ ∃ d, t' = ⟨[], [d]⟩ ∧ Inner (h - 1) d := by
  induction hd with
  | leaf ks => exact ⟨⟨ks, []⟩, .walking, rfl, rfl, rfl, .inl rfl, fun _ => rfl, by simp⟩
  | @child h c p A0 C0 X Y hX hY hXi hYi hlo hlo' hhi hc ih =>
    obtain ⟨c', w, h1, h2, h3⟩ := ih (fun h0 => by have := hlo' h0; omega)
    have htl : toList (h + 1) ⟨A0 ++ C0, X ++ c' :: Y⟩ = toList (h + 1) ⟨A0 ++ C0, X ++ c :: Y⟩ := by
      rw [toList_split hX, toList_split hX, h2]
    have hbel : Inner h c' → Below (h + 1) (⟨A0 ++ C0, X ++ c' :: Y⟩ : Tree K V) := by
      intro hi
      refine ⟨by simp; omega, ?_⟩
      intro d hd
      simp only [List.mem_append, List.mem_cons] at hd
      rcases hd with hd | rfl | hd
      · exact hXi d hd
      · exact hi
      · exact hYi d hd
    simp only [underflow, getE_append, Exec.ok_bind, h1, setE_append]
    cases w with
    | done =>
      obtain ⟨g1, g2, g3⟩ := h3
      exact ⟨_, .done, rfl, htl, hbel ⟨by have := hlo' g3; omega, by omega, g1⟩, by simp, by omega⟩
    | popRoot =>
      obtain ⟨g1, g2, _⟩ := h3
      have := hlo' g1
      omega
    | walking =>
      obtain ⟨g1, g2, g3, g4⟩ := h3
      have hc3 : 3 ≤ c'.len := by
        rcases Nat.eq_zero_or_pos h with h0 | h0
        · rw [g3 h0]; exact hlo
        · have := hlo' h0; omega
      by_cases h5 : c'.len < 5
      · obtain ⟨t', w, k1, k2, k3⟩ := handleUnderfull_spec hX hY hXi hYi g1 hc3 h5
          (by simpa [Tree.len] using hlen (by omega))
        refine ⟨t', w, by simpa [h5] using k1, k2.trans htl, ?_⟩
        cases w with
        | done => exact ⟨k3.1, k3.2, by omega⟩
        | walking => exact ⟨k3.1, .inr k3.2.1, by omega, fun _ => k3.2.2⟩
        | popRoot => exact ⟨by omega, k3⟩
      · refine ⟨_, .done, by simp [h5], htl, hbel ⟨by omega, by omega, g1⟩, by simp, by omega⟩

end Verif.BTree
