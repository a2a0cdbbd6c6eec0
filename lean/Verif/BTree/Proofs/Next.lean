import Verif.BTree.Proofs.MapOps
/-
Moving a leaf edge forwards and backwards.
-/
namespace Verif.BTree
open Verif Verif.Spec

variable {K V Q : Type} {lo : Nat}

theorem nodeAt_append {h : Nat} {t : Tree K V} {p : List Nat} {hn : Nat} {n : Tree K V} (q : List Nat)
    (hp : nodeAt h t p = .ok (hn, n)) : nodeAt h t (p ++ q) = nodeAt hn n q := by
  induction p generalizing h t with
  | nil => simp [nodeAt] at hp; obtain ⟨rfl, rfl⟩ := hp; rfl
  | cons i p ih =>
    cases h with
    | zero => simp [nodeAt] at hp
    | succ h =>
      simp only [nodeAt] at hp
      obtain ⟨c, h1, h2⟩ := Exec.bind_eq_ok.1 hp
      simp [nodeAt, h1, ih h2]

theorem EdgeAt.nodeAt {h : Nat} {t : Tree K V} {p idx A B} (he : EdgeAt h t p idx A B) :
    ∃ n, BTree.nodeAt h t p = .ok (0, n) ∧ idx ≤ n.len := by
  induction he with
  | leaf A B => exact ⟨_, rfl, by simp⟩
  | child A0 C0 X Y hX hY hc ih =>
    obtain ⟨n, h1, h2⟩ := ih
    exact ⟨n, by simp [BTree.nodeAt, h1], h2⟩

/-- The first leaf edge. -/
theorem firstLeafPath_edge {h : Nat} {t : Tree K V} (hb : BelowN lo h t) :
    ∃ q, firstLeafPath h t = .ok q ∧ EdgeAt h t q 0 [] (toList h t) := by
  induction h generalizing t with
  | zero =>
    obtain ⟨ks, es⟩ := t
    simp only [BelowN] at hb
    subst hb
    exact ⟨[], rfl, .leaf [] ks⟩
  | succ h ih =>
    obtain ⟨A, C, X, c, Y, rfl, hA, hX, hY⟩ := split_edge hb.1 (Nat.zero_le _)
    have hA' : A = [] := by simpa using hA
    have hX' : X = [] := by simpa using hX
    subst hA' hX'
    have hci : InnerN lo h c := hb.2 c (by simp)
    obtain ⟨q, h1, h2⟩ := ih hci.2.2
    refine ⟨0 :: q, ?_, ?_⟩
    · have : getE ([] ++ c :: Y) 0 = .ok c := getE_append [] c Y
      simp only [List.nil_append] at this
      simp [firstLeafPath, this, h1]
    · have h3 := EdgeAt.child [] C [] Y rfl hY h2
      rw [toList_split rfl]
      simpa using h3

/-- The last leaf edge. -/
theorem lastLeafPath_edge {h : Nat} {t : Tree K V} (hb : BelowN lo h t) :
    ∃ q i, lastLeafPath h t = .ok (q, i) ∧ EdgeAt h t q i (toList h t) [] := by
  induction h generalizing t with
  | zero =>
    obtain ⟨ks, es⟩ := t
    simp only [BelowN] at hb
    subst hb
    exact ⟨[], ks.length, rfl, by simpa using EdgeAt.leaf ks []⟩
  | succ h ih =>
    obtain ⟨A, C, X, c, Y, rfl, hA, hX, hY⟩ := split_edge hb.1 (Nat.le_refl _)
    have hC : C = [] := by
      simp at hA; exact hA
    subst hC
    have hY' : Y = [] := by simpa using hY
    subst hY'
    have hci : InnerN lo h c := hb.2 c (by simp)
    obtain ⟨q, i, h1, h2⟩ := ih hci.2.2
    refine ⟨X.length :: q, i, ?_, ?_⟩
    · have : getE (X ++ [c]) (Tree.len ⟨A ++ [], X ++ [c]⟩) = .ok c := getE_split rfl (by simpa using hX.symm)
      simp only [lastLeafPath, this, Exec.ok_bind, h1]
      simp [hX]
    · have h3 := EdgeAt.child A [] X [] (by simpa using hX) rfl h2
      rw [toList_split (by simpa using hX)]
      simpa using h3

/-- Moving forwards inside a subtree, or leaving it. -/
theorem next_in {H : Nat} {T : Tree K V} {h : Nat} {t : Tree K V} {p idx A B} (he : EdgeAt h t p idx A B)
    (hb : BelowN lo h t) (out : List Nat) (ho : nodeAt H T out.reverse = .ok (h, t)) :
    (∀ kv B', B = kv :: B' → ∃ kp ki fp fi, nextUnchecked H T ⟨p.reverse ++ out, idx⟩ =
        .ok (⟨kp.reverse ++ out, ki⟩, ⟨fp.reverse ++ out, fi⟩) ∧ KvAt h t kp ki A kv B' ∧
        EdgeAt h t fp fi (A ++ [kv]) B') ∧
    (B = [] → nextUnchecked H T ⟨p.reverse ++ out, idx⟩ = nextLoop H T out) := by
  induction he generalizing out with
  | leaf A B =>
    refine ⟨?_, ?_⟩
    · rintro kv B' rfl
      refine ⟨[], A.length, [], A.length + 1, ?_, .leaf A kv B', ?_⟩
      · simp [nextUnchecked, ho, Tree.len]
      · simpa using EdgeAt.leaf (A ++ [kv]) B'
    · rintro rfl
      simp [nextUnchecked, ho, Tree.len]
  | @child h c p idx A B A0 C0 X Y hX hY hc ih =>
    obtain ⟨hXi, hci, hYi⟩ := mem_edges_split hb.2
    have ho' : nodeAt H T (X.length :: out).reverse = .ok (h, c) := by
      rw [List.reverse_cons, nodeAt_append _ ho]; simp [nodeAt]
    obtain ⟨ih1, ih2⟩ := ih hci.2.2 (X.length :: out) ho'
    have hst : (X.length :: p).reverse ++ out = p.reverse ++ X.length :: out := by simp
    rw [hst]
    cases B with
    | cons kv0 B0 =>
      refine ⟨?_, by simp⟩
      intro kv B' hB
      simp only [List.cons_append, List.cons.injEq] at hB
      obtain ⟨rfl, rfl⟩ := hB
      obtain ⟨kp, ki, fp, fi, h1, h2, h3⟩ := ih1 kv0 B0 rfl
      refine ⟨X.length :: kp, ki, X.length :: fp, fi, by simpa using h1, .child A0 C0 X Y hX hY h2, ?_⟩
      simpa using EdgeAt.child A0 C0 X Y hX hY h3
    | nil =>
      have h0 := ih2 rfl
      rw [h0]
      have hcl : toList h c = A := by simpa using hc.toList_eq
      cases C0 with
      | nil =>
        refine ⟨by simp, fun _ => ?_⟩
        simp [nextLoop, ho, Tree.len, hX]
      | cons k C0 =>
        cases Y with
        | nil => simp at hY
        | cons y Y =>
          have hY' : Y.length = C0.length := by simpa using hY
          have hyi := hYi y (by simp)
          obtain ⟨q, g1, g2⟩ := firstLeafPath_edge hyi.2.2
          refine ⟨?_, by simp⟩
          intro kv B' hB
          simp only [postT_cons, List.nil_append, List.cons.injEq] at hB
          obtain ⟨rfl, rfl⟩ := hB
          refine ⟨[], A0.length, (X.length + 1) :: q, 0, ?_, ?_, ?_⟩
          · simp [nextLoop, ho, Tree.len, hX]
            rw [← hX]; simp [g1]
          · have := KvAt.node (h := h) A0 k C0 X c y Y hX hY'
            rwa [hcl] at this
          · have := EdgeAt.child (A0 ++ [k]) C0 (X ++ [c]) Y (by simpa using hX) hY' g2
            simpa [preT_concat hX, hcl] using this

/-- Moving backwards inside a subtree, or leaving it. -/
theorem nextBack_in {H : Nat} {T : Tree K V} {h : Nat} {t : Tree K V} {p idx A B} (he : EdgeAt h t p idx A B)
    (hb : BelowN lo h t) (out : List Nat) (ho : nodeAt H T out.reverse = .ok (h, t)) :
    (∀ kv A', A = A' ++ [kv] → ∃ kp ki fp fi, nextBackUnchecked H T ⟨p.reverse ++ out, idx⟩ =
        .ok (⟨kp.reverse ++ out, ki⟩, ⟨fp.reverse ++ out, fi⟩) ∧ KvAt h t kp ki A' kv B ∧
        EdgeAt h t fp fi A' (kv :: B)) ∧
    (A = [] → nextBackUnchecked H T ⟨p.reverse ++ out, idx⟩ = nextBackLoop H T out) := by
  induction he generalizing out with
  | leaf A B =>
    refine ⟨?_, ?_⟩
    · rintro kv A' rfl
      refine ⟨[], A'.length, [], A'.length, ?_, ?_, ?_⟩
      · simp [nextBackUnchecked]
      · simpa using KvAt.leaf A' kv B
      · simpa using EdgeAt.leaf A' (kv :: B)
    · rintro rfl
      simp [nextBackUnchecked]
  | @child h c p idx A B A0 C0 X Y hX hY hc ih =>
    obtain ⟨hXi, hci, hYi⟩ := mem_edges_split hb.2
    have ho' : nodeAt H T (X.length :: out).reverse = .ok (h, c) := by
      rw [List.reverse_cons, nodeAt_append _ ho]; simp [nodeAt]
    obtain ⟨ih1, ih2⟩ := ih hci.2.2 (X.length :: out) ho'
    have hst : (X.length :: p).reverse ++ out = p.reverse ++ X.length :: out := by simp
    rw [hst]
    rcases List.eq_nil_or_concat A with rfl | ⟨A1, kv1, rfl⟩
    · have h0 := ih2 rfl
      rw [h0]
      have hcl : toList h c = B := by simpa using hc.toList_eq
      rcases List.eq_nil_or_concat A0 with rfl | ⟨A2, k, rfl⟩
      · refine ⟨by simp, fun _ => ?_⟩
        have : X.length = 0 := by simpa using hX
        simp [nextBackLoop, ho, this]
      · rcases List.eq_nil_or_concat X with rfl | ⟨X2, y, rfl⟩
        · simp at hX
        · simp only [List.concat_eq_append] at *
          have hX' : X2.length = A2.length := by simpa using hX
          have hyi := hXi y (by simp)
          obtain ⟨q, j, g1, g2⟩ := lastLeafPath_edge hyi.2.2
          refine ⟨?_, by simp [preT_concat hX']⟩
          intro kv A' hA
          rw [preT_concat hX', List.append_nil] at hA
          obtain ⟨rfl, hk⟩ := List.append_inj' hA rfl
          simp only [List.cons.injEq, and_true] at hk
          subst hk
          refine ⟨[], A2.length, X2.length :: q, j, ?_, ?_, ?_⟩
          · have hge : getE (X2 ++ y :: c :: Y) A2.length = .ok y := by rw [← hX']; simp
            have hln : (X2 ++ [y]).length = X2.length + 1 := by simp
            rw [hln]
            simp [nextBackLoop, ho, hX', hge, g1]
          · have := KvAt.node (h := h) A2 k C0 X2 y c Y hX' hY
            simpa [hcl] using this
          · have := EdgeAt.child A2 (k :: C0) X2 (c :: Y) hX' (by simpa using hY) g2
            simpa [hcl] using this
    · simp only [List.concat_eq_append] at *
      refine ⟨?_, by simp⟩
      intro kv A' hA
      rw [← List.append_assoc] at hA
      obtain ⟨rfl, hk⟩ := List.append_inj' hA rfl
      simp only [List.cons.injEq, and_true] at hk
      subst hk
      obtain ⟨kp, ki, fp, fi, h1, h2, h3⟩ := ih1 kv1 A1 rfl
      refine ⟨X.length :: kp, ki, X.length :: fp, fi, by simpa using h1, .child A0 C0 X Y hX hY h2, ?_⟩
      simpa using EdgeAt.child A0 C0 X Y hX hY h3

/-- `next_unchecked` from a leaf edge with something after it. -/
theorem next_edge {H : Nat} {T : Tree K V} (hb : BelowN lo H T) {hd : Handle} {A kv B}
    (he : EdgeAt H T hd.up.reverse hd.idx A (kv :: B)) :
    ∃ k f, nextUnchecked H T hd = .ok (k, f) ∧ KvAt H T k.up.reverse k.idx A kv B ∧
      EdgeAt H T f.up.reverse f.idx (A ++ [kv]) B := by
  obtain ⟨kp, ki, fp, fi, h1, h2, h3⟩ := (next_in (H := H) (T := T) he hb [] (by simp [nodeAt])).1 kv B rfl
  exact ⟨⟨kp.reverse, ki⟩, ⟨fp.reverse, fi⟩, by simpa using h1, by simpa using h2, by simpa using h3⟩

/-- `next_unchecked` at the very end runs past the root. -/
theorem next_end {H : Nat} {T : Tree K V} (hb : BelowN lo H T) {hd : Handle} {A}
    (he : EdgeAt H T hd.up.reverse hd.idx A []) : nextUnchecked H T hd = .ub := by
  have := (next_in (H := H) (T := T) he hb [] (by simp [nodeAt])).2 rfl
  simpa [nextLoop] using this

theorem nextBack_edge {H : Nat} {T : Tree K V} (hb : BelowN lo H T) {hd : Handle} {A kv B}
    (he : EdgeAt H T hd.up.reverse hd.idx (A ++ [kv]) B) :
    ∃ k f, nextBackUnchecked H T hd = .ok (k, f) ∧ KvAt H T k.up.reverse k.idx A kv B ∧
      EdgeAt H T f.up.reverse f.idx A (kv :: B) := by
  obtain ⟨kp, ki, fp, fi, h1, h2, h3⟩ := (nextBack_in (H := H) (T := T) he hb [] (by simp [nodeAt])).1 kv A rfl
  exact ⟨⟨kp.reverse, ki⟩, ⟨fp.reverse, fi⟩, by simpa using h1, by simpa using h2, by simpa using h3⟩

/-! ### positions determine handles -/

theorem EdgeAt.inj {h : Nat} {t : Tree K V} {p idx A B p' idx' A' B'} (he : EdgeAt h t p idx A B)
    (he' : EdgeAt h t p' idx' A' B') (hl : A.length = A'.length) : p = p' ∧ idx = idx' := by
  have lt_case : ∀ {h : Nat} {A0 C0 A0' C0' A A' : List (K × V)} {X Y X' Y' : List (Tree K V)} {c c' : Tree K V},
      A0 ++ C0 = A0' ++ C0' → X ++ c :: Y = X' ++ c' :: Y' → X.length = A0.length → X'.length = A0'.length →
      X.length < X'.length → A.length ≤ (toList h c).length →
      (preT h A0 X ++ A).length < (preT h A0' X' ++ A').length := by
    intro h A0 C0 A0' C0' A A' X Y X' Y' c c' hk hx hX hX' hlt hA
    obtain ⟨Z, hZ⟩ : ∃ Z, X' = X ++ Z := by
      have : X = X'.take X.length := by
        have := congrArg (List.take X.length) hx
        simpa [List.take_append_of_le_length (Nat.le_of_lt hlt)] using this
      exact ⟨X'.drop X.length, by conv => lhs; rw [← List.take_append_drop X.length X', ← this]⟩
    obtain ⟨W, hW⟩ : ∃ W, A0' = A0 ++ W := by
      have hle : A0.length ≤ A0'.length := by omega
      have : A0 = A0'.take A0.length := by
        have := congrArg (List.take A0.length) hk
        simpa [List.take_append_of_le_length hle] using this
      exact ⟨A0'.drop A0.length, by conv => lhs; rw [← List.take_append_drop A0.length A0', ← this]⟩
    subst hZ hW
    cases Z with
    | nil => simp at hlt
    | cons z Z =>
      cases W with
      | nil => simp at hX'; omega
      | cons w W =>
        have : c = z := by
          have h2 := List.append_cancel_left (by simpa using hx : X ++ c :: Y = X ++ (z :: (Z ++ c' :: Y')))
          simp at h2; exact h2.1
        subst this
        rw [preT_append hX, preT_cons]
        simp; omega
  induction he generalizing p' idx' A' B' with
  | leaf A B =>
    generalize ht : (⟨A ++ B, []⟩ : Tree K V) = t at he'
    cases he' with
    | leaf A' B' => exact ⟨rfl, hl⟩
  | @child h c p idx A B A0 C0 X Y hX hY hc ih =>
    generalize ht : (⟨A0 ++ C0, X ++ c :: Y⟩ : Tree K V) = t at he'
    cases he' with
    | @child _ c' p' _ A' B' A0' C0' X' Y' hX' hY' hc' =>
      simp only [Tree.mk.injEq] at ht
      obtain ⟨hk, hx⟩ := ht
      have hA : A.length ≤ (toList h c).length := by rw [hc.toList_eq]; simp
      have hA' : A'.length ≤ (toList h c').length := by rw [hc'.toList_eq]; simp
      rcases Nat.lt_trichotomy X.length X'.length with hlt | heq | hgt
      · have := lt_case (A := A) (A' := A') hk hx hX hX' hlt hA; omega
      · obtain ⟨rfl, h2⟩ := List.append_inj hx heq
        simp only [List.cons.injEq] at h2
        obtain ⟨rfl, rfl⟩ := h2
        obtain ⟨rfl, rfl⟩ := List.append_inj hk (by omega)
        obtain ⟨h3, h4⟩ := ih hc' (by simpa using hl)
        exact ⟨by rw [h3], h4⟩
      · have := lt_case (A := A') (A' := A) hk.symm hx.symm hX' hX hgt hA'; omega

end Verif.BTree
