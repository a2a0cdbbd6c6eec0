import Verif.BTree.Proofs.IterInv
/-
`range_search`.
-/
namespace Verif.BTree
open Verif Verif.Spec

variable {K V Q : Type} {lo : Nat}

/-- The descent towards the front edge alone. -/
def minDesc [Ord Q] (bor : K → Q) (s : Bound Q) : (h : Nat) → Tree K V → Bool → Exec (List Nat × Nat)
  | 0, t, mf => .ok ([], (minEdge bor mf s t.kvs).1)
  | h + 1, t, mf => do
    let c ← getE t.edges (minEdge bor mf s t.kvs).1
    let (p, i) ← minDesc bor s h c (minEdge bor mf s t.kvs).2
    .ok ((minEdge bor mf s t.kvs).1 :: p, i)

/-- The descent towards the back edge alone. -/
def maxDesc [Ord Q] (bor : K → Q) (e : Bound Q) : (h : Nat) → Tree K V → Bool → Exec (List Nat × Nat)
  | 0, t, xf => .ok ([], (maxEdge bor xf e t.kvs).1)
  | h + 1, t, xf => do
    let c ← getE t.edges (maxEdge bor xf e t.kvs).1
    let (p, i) ← maxDesc bor e h c (maxEdge bor xf e t.kvs).2
    .ok ((maxEdge bor xf e t.kvs).1 :: p, i)

theorem searchLinear_le [Ord Q] (bor : K → Q) (q : Q) (kvs : List (K × V)) :
    (searchLinear bor q kvs).1 ≤ kvs.length ∧
      ((searchLinear bor q kvs).2 = true → (searchLinear bor q kvs).1 < kvs.length) := by
  obtain ⟨A, C, hf⟩ := searchLinear_spec bor q kvs
  refine ⟨hf.idx_le, fun hb => ?_⟩
  obtain ⟨kv, C', h1, _⟩ := hf.hit hb
  have h2 := hf.split; have h3 := hf.len
  have h4 := congrArg List.length h2
  rw [h1] at h4
  simp at h4; omega

theorem minEdge_le [Ord Q] (bor : K → Q) (mf : Bool) (s : Bound Q) (kvs : List (K × V)) :
    (minEdge bor mf s kvs).1 ≤ kvs.length := by
  unfold minEdge
  split
  · exact (searchLinear_le bor _ kvs).1
  · rename_i q
    have := searchLinear_le bor q kvs
    cases hs : searchLinear bor q kvs with
    | mk i b => cases b <;> simp [hs] at this ⊢ <;> omega
  all_goals simp

theorem maxEdge_le [Ord Q] (bor : K → Q) (xf : Bool) (e : Bound Q) (kvs : List (K × V)) :
    (maxEdge bor xf e kvs).1 ≤ kvs.length := by
  unfold maxEdge
  split
  · rename_i q
    have := searchLinear_le bor q kvs
    cases hs : searchLinear bor q kvs with
    | mk i b => cases b <;> simp [hs] at this ⊢ <;> omega
  · exact (searchLinear_le bor _ kvs).1
  all_goals simp

theorem minDesc_edge [Ord Q] (bor : K → Q) (s : Bound Q) {h : Nat} {t : Tree K V} (hb : BelowN lo h t) (mf : Bool) :
    ∃ p i A B, minDesc bor s h t mf = .ok (p, i) ∧ EdgeAt h t p i A B := by
  induction h generalizing t mf with
  | zero =>
    obtain ⟨ks, es⟩ := t
    simp only [BelowN] at hb
    subst hb
    have hle := minEdge_le bor mf s ks
    refine ⟨[], _, ks.take (minEdge bor mf s ks).1, ks.drop (minEdge bor mf s ks).1, rfl, ?_⟩
    have := EdgeAt.leaf (ks.take (minEdge bor mf s ks).1) (ks.drop (minEdge bor mf s ks).1)
    simpa [Nat.min_eq_left hle] using this
  | succ h ih =>
    obtain ⟨A, C, X, c, Y, ht, hA, hX, hY⟩ := split_edge hb.1 (minEdge_le bor mf s t.kvs)
    have hci : InnerN lo h c := hb.2 c (by rw [ht]; simp)
    obtain ⟨p, i, A', B', h1, h2⟩ := ih hci.2.2 (minEdge bor mf s t.kvs).2
    have hg : getE t.edges (minEdge bor mf s t.kvs).1 = .ok c := getE_split (by rw [ht]) hX.symm
    refine ⟨X.length :: p, i, preT h A X ++ A', B' ++ postT h C Y, ?_, ?_⟩
    · simp [minDesc, hg, h1, hX]
    · rw [ht]; exact .child A C X Y (by omega) hY h2

theorem maxDesc_edge [Ord Q] (bor : K → Q) (s : Bound Q) {h : Nat} {t : Tree K V} (hb : BelowN lo h t) (mf : Bool) :
    ∃ p i A B, maxDesc bor s h t mf = .ok (p, i) ∧ EdgeAt h t p i A B := by
  induction h generalizing t mf with
  | zero =>
    obtain ⟨ks, es⟩ := t
    simp only [BelowN] at hb
    subst hb
    have hle := maxEdge_le bor mf s ks
    refine ⟨[], _, ks.take (maxEdge bor mf s ks).1, ks.drop (maxEdge bor mf s ks).1, rfl, ?_⟩
    have := EdgeAt.leaf (ks.take (maxEdge bor mf s ks).1) (ks.drop (maxEdge bor mf s ks).1)
    simpa [Nat.min_eq_left hle] using this
  | succ h ih =>
    obtain ⟨A, C, X, c, Y, ht, hA, hX, hY⟩ := split_edge hb.1 (maxEdge_le bor mf s t.kvs)
    have hci : InnerN lo h c := hb.2 c (by rw [ht]; simp)
    obtain ⟨p, i, A', B', h1, h2⟩ := ih hci.2.2 (maxEdge bor mf s t.kvs).2
    have hg : getE t.edges (maxEdge bor mf s t.kvs).1 = .ok c := getE_split (by rw [ht]) hX.symm
    refine ⟨X.length :: p, i, preT h A X ++ A', B' ++ postT h C Y, ?_, ?_⟩
    · simp [maxDesc, hg, h1, hX]
    · rw [ht]; exact .child A C X Y (by omega) hY h2

theorem rangeLoop_succ [Ord Q] (bor : K → Q) (s e : Bound Q) (h : Nat) (t1 t2 : Tree K V) (mf xf dv : Bool)
    (up1 up2 : List Nat) :
    rangeLoop bor s e (h + 1) t1 t2 mf xf dv up1 up2 =
      if !dv && (maxEdge bor xf e t2.kvs).1 < (minEdge bor mf s t1.kvs).1 then
        .panic "Ord is ill-defined in BTreeMap range"
      else (do
        let cmin ← getE t1.edges (minEdge bor mf s t1.kvs).1
        let cmax ← getE t2.edges (maxEdge bor xf e t2.kvs).1
        rangeLoop bor s e h cmin cmax (minEdge bor mf s t1.kvs).2 (maxEdge bor xf e t2.kvs).2
          (dv || (minEdge bor mf s t1.kvs).1 != (maxEdge bor xf e t2.kvs).1)
          ((minEdge bor mf s t1.kvs).1 :: up1) ((maxEdge bor xf e t2.kvs).1 
          :: up2)) := rfl

/-- Once the two descents have diverged, the loop performs both. -/
theorem rangeLoop_diverged [Ord Q] (bor : K → Q) (s e : Bound Q) {h : Nat} {t1 t2 : Tree K V} {mf xf : Bool}
    {p1 i1 p2 i2} (h1 : minDesc bor s h t1 mf = .ok (p1, i1)) (h2 : maxDesc bor e h t2 xf = .ok (p2, i2))
    (up1 up2 : List Nat) :
    rangeLoop bor s e h t1 t2 mf xf true up1 up2 = .ok ⟨⟨p1.reverse ++ up1, i1⟩, ⟨p2.reverse ++ up2, i2⟩⟩ := by
  induction h generalizing t1 t2 mf xf p1 p2 up1 up2 with
  | zero =>
    simp [minDesc] at h1
    simp [maxDesc] at h2
    obtain ⟨rfl, rfl⟩ := h1
    obtain ⟨rfl, rfl⟩ := h2
    simp [rangeLoop]
  | succ h ih =>
    simp only [minDesc] at h1
    simp only [maxDesc] at h2
    obtain ⟨c1, g1, h1⟩ := Exec.bind_eq_ok.1 h1
    obtain ⟨⟨q1, j1⟩, k1, h1⟩ := Exec.bind_eq_ok.1 h1
    obtain ⟨c2, g2, h2⟩ := Exec.bind_eq_ok.1 h2
    obtain ⟨⟨q2, j2⟩, k2, h2⟩ := Exec.bind_eq_ok.1 h2
    simp at h1 h2
    obtain ⟨rfl, rfl⟩ := h1
    obtain ⟨rfl, rfl⟩ := h2
    have := ih k1 k2 ((minEdge bor mf s t1.kvs).1 :: up1) ((maxEdge bor xf e t2.kvs).1 :: up2)
    simp [rangeLoop_succ, g1, g2, this]

/-- Before the descents diverge: the loop performs both, unless it finds the edges crossed (`true` below), which can
happen only if some node has its edges crossed.  Whatever `Ord` does, the front edge ends up at or before the back
edge. -/
theorem rangeLoop_joint [Ord Q] (bor : K → Q) (s e : Bound Q) {h : Nat} {t : Tree K V} (hb : BelowN lo h t) (mf xf : Bool)
    (up : List Nat) :
    rangeLoop bor s e h t t mf xf false up up = .panic "Ord is ill-defined in BTreeMap range" ∨
    ∃ p1 i1 p2 i2 A1 B1 A2 B2, minDesc bor s h t mf = .ok (p1, i1) ∧ maxDesc bor e h t xf = .ok (p2, i2) ∧
      rangeLoop bor s e h t t mf xf false up up = .ok ⟨⟨p1.reverse ++ up, i1⟩, ⟨p2.reverse ++ up, i2⟩⟩ ∧
      EdgeAt h t p1 i1 A1 B1 ∧ EdgeAt h t p2 i2 A2 B2 ∧ A1.length ≤ A2.length := by
  induction h generalizing t mf xf up with
  | zero =>
    obtain ⟨p1, i1, A1, B1, h1, h2⟩ := minDesc_edge bor s hb mf
    obtain ⟨p2, i2, A2, B2, h3, h4⟩ := maxDesc_edge bor e hb xf
    have h1' := h1; have h3' := h3
    simp [minDesc] at h1'
    simp [maxDesc] at h3'
    by_cases hc : i2 < i1
    · left; simp [rangeLoop, h1'.2, h3'.2, hc]
    · right
      refine ⟨p1, i1, p2, i2, A1, B1, A2, B2, h1, h3, ?_, h2, h4, ?_⟩
      · obtain ⟨rfl, rfl⟩ := h1'
        obtain ⟨rfl, rfl⟩ := h3'
        simp [rangeLoop, hc]
      · have e1 : i1 = A1.length := by cases h2; rfl
        have e2 : i2 = A2.length := by cases h4; rfl
        omega
  | succ h ih =>
    by_cases hc : (maxEdge bor xf e t.kvs).1 < (minEdge bor mf s t.kvs).1
    · left; simp [rangeLoop_succ, hc]
    · by_cases heq : (minEdge bor mf s t.kvs).1 = (maxEdge bor xf e t.kvs).1
      · obtain ⟨A, C, X, c, Y, ht, hA, hX, hY⟩ := split_edge hb.1 (minEdge_le bor mf s t.kvs)
        have hci : InnerN lo h c := hb.2 c (by rw [ht]; simp)
        have hg : getE t.edges (minEdge bor mf s t.kvs).1 = .ok c := getE_split (by rw [ht]) hX.symm
        rcases ih hci.2.2 (minEdge bor mf s t.kvs).2 (maxEdge bor xf e t.kvs).2 (X.length :: up) with h1 | h1
        · left
          rw [hX] at h1
          rw [rangeLoop_succ, if_neg (by simp; omega), ← heq, hg]
          simpa using h1
        · right
          obtain ⟨p1, i1, p2, i2, A1, B1, A2, B2, g1, g2, g3, g4, g5, g6⟩ := h1
          refine ⟨X.length :: p1, i1, X.length :: p2, i2, _, _, _, _, ?_, ?_, ?_,
            ht ▸ EdgeAt.child A C X Y (by omega) hY g4, ht ▸ EdgeAt.child A C X Y (by omega) hY g5, by simpa using g6⟩
          · simp [minDesc, hg, g1, hX]
          · simp [maxDesc, ← heq, hg, g2, hX]
          · rw [hX] at g3
            rw [rangeLoop_succ, if_neg (by simp; omega), ← heq, hg]
            simpa [hX] using g3
      · right
        obtain ⟨p1, i1, A1, B1, h1, h2⟩ := minDesc_edge bor s hb mf
        obtain ⟨p2, i2, A2, B2, h3, h4⟩ := maxDesc_edge bor e hb xf
        have h1' := h1; have h3' := h3
        simp only [minDesc] at h1'
        simp only [maxDesc] at h3'
        obtain ⟨c1, g1, h1'⟩ := Exec.bind_eq_ok.1 h1'
        obtain ⟨⟨q1, j1⟩, k1, h1'⟩ := Exec.bind_eq_ok.1 h1'
        obtain ⟨c2, g2, h3'⟩ := Exec.bind_eq_ok.1 h3'
        obtain ⟨⟨q2, j2⟩, k2, h3'⟩ := Exec.bind_eq_ok.1 h3'
        simp at h1' h3'
        obtain ⟨rfl, rfl⟩ := h1'
        obtain ⟨rfl, rfl⟩ := h3'
        refine ⟨_, _, _, _, A1, B1, A2, B2, h1, h3, ?_, h2, h4, ?_⟩
        · have := rangeLoop_diverged bor s e k1 k2 ((minEdge bor mf s t.kvs).1 :: up)
            ((maxEdge bor xf e t.kvs).1 :: up)
          rw [rangeLoop_succ, if_neg (by simp; omega), g1, g2]
          have hne : (false || (minEdge bor mf s t.kvs).1 != (maxEdge bor xf e t.kvs).1) = true := by simpa using heq
          rw [Exec.ok_bind, Exec.ok_bind, hne, this]
          simp
        · -- the front child is strictly left of the back child
          generalize hlo : (minEdge bor mf s t.kvs).1 = lo at *
          generalize hhi : (maxEdge bor xf e t.kvs).1 = hi at *
          have hlt : lo < hi := by omega
          clear k1 k2 g1 g2 ih h1 h3
          obtain ⟨ks, es⟩ := t
          generalize hp1 : lo :: q1 = pp1 at h2
          generalize hp2 : hi :: q2 = pp2 at h4
          cases h2 with
          | @child _ c p _ A B A0 C0 X Y hX hY hc1 =>
            generalize hks : A0 ++ C0 = ks at h4
            generalize hes : X ++ c :: Y = es at h4
            cases h4 with
            | @child _ c' p' _ A' B' A0' C0' X' Y' hX' hY' hc2 =>
              simp only [List.cons.injEq] at hp1 hp2
              obtain ⟨rfl, rfl⟩ := hp1
              obtain ⟨rfl, rfl⟩ := hp2
              obtain ⟨Z, hZ⟩ : ∃ Z, X' = X ++ c :: Z := by
                refine ⟨X'.drop (X.length + 1), ?_⟩
                have h1 := congrArg (List.take X'.length) hes
                rw [List.take_left' (l₁ := X') rfl, List.take_append, List.take_of_length_le (by omega)] at h1
                obtain ⟨n, hn⟩ : ∃ n, X'.length - X.length = n + 1 := ⟨X'.length - X.length - 1, by omega⟩
                rw [hn, List.take_succ_cons] at h1
                conv => rhs; rw [← h1]
                rw [← h1]
                simp [List.drop_append]
              obtain ⟨k, W, hW⟩ : ∃ k W, A0' = A0 ++ k :: W := by
                have hle : A0.length < A0'.length := by omega
                refine ⟨A0'[A0.length], A0'.drop (A0.length + 1), ?_⟩
                have h1 := congrArg (List.take A0.length) hks
                rw [List.take_left' (l₁ := A0) rfl, List.take_append_of_le_length (by omega)] at h1
                have := List.take_append_drop A0.length A0'
                rw [← h1, List.drop_eq_getElem_cons hle] at this
                exact this.symm
              subst hZ hW
              have hA : A.length ≤ (toList h c).length := by rw [hc1.toList_eq]; simp
              rw [preT_append hX, preT_cons]
              simp; omega

/-! ### lawful orders -/

/-- Extending a fact about the pairs of a node to everything left and right of an edge. -/
theorem node_closed [Ord K] {P : K × V → Bool} (hP : ∀ a b, compare a.1 b.1 = .lt → P a = true → P b = true) {h : Nat}
    {A C : List (K × V)} {X Y : List (Tree K V)} {c : Tree K V} (hX : X.length = A.length) (hY : Y.length = C.length)
    (hs : Sorted (toList (h + 1) ⟨A ++ C, X ++ c :: Y⟩)) :
    ((∀ a ∈ A, P a = false) → ∀ a ∈ preT h A X, P a = false) ∧
    ((∀ a ∈ C, P a = true) → ∀ a ∈ postT h C Y, P a = true) := by
  rw [toList_split hX] at hs
  constructor
  · intro hA
    rcases List.eq_nil_or_concat A with rfl | ⟨A1, k, rfl⟩
    · simp
    · rcases List.eq_nil_or_concat X with rfl | ⟨X1, x, rfl⟩
      · simp at hX
      · simp only [List.concat_eq_append] at *
        rw [preT_concat (by simpa using hX)] at hs ⊢
        rw [List.append_assoc, List.singleton_append] at hs
        intro a ha
        rcases List.mem_append.1 ha with ha | ha
        · have hlt := (Sorted.append_iff.1 hs).2.2 a ha k (by simp)
          have hk := hA k (by simp)
          cases hPa : P a with
          | false => rfl
          | true => rw [hP a k hlt hPa] at hk; exact hk
        · rw [List.mem_singleton.1 ha]; exact hA k (by simp)
  · intro hC
    cases C with
    | nil => simp
    | cons k C1 =>
      cases Y with
      | nil => simp at hY
      | cons y Y =>
        rw [postT_cons] at hs ⊢
        rw [← List.append_assoc] at hs
        intro a ha
        rcases List.mem_cons.1 ha with rfl | ha
        · exact hC _ (by simp)
        · exact hP k a ((List.pairwise_cons.1 (Sorted.append_iff.1 hs).2.1).1 a ha) (hC k (by simp))

/-- The child left of an equal key is below, the child right of it above. -/
theorem node_hit [Ord K] [Ord Q] [Std.TransOrd Q] {bor : K → Q} (hbo : BorrowOK bor) (q : Q) {h : Nat}
    {A C : List (K × V)} {X Y : List (Tree K V)} {c : Tree K V} (hX : X.length = A.length) (hY : Y.length = C.length)
    (hs : Sorted (toList (h + 1) ⟨A ++ C, X ++ c :: Y⟩)) :
    (∀ kv C', C = kv :: C' → compare q (bor kv.1) = .eq → ∀ a ∈ toList h c, compare q (bor a.1) = .gt) ∧
    (∀ kv A', A = A' ++ [kv] → compare q (bor kv.1) = .eq → ∀ a ∈ toList h c, compare q (bor a.1) = .lt) := by
  rw [toList_split hX] at hs
  constructor
  · rintro kv C' rfl hc a ha
    cases Y with
    | nil => simp at hY
    | cons y Y =>
      rw [postT_cons, ← List.append_assoc] at hs
      exact all_gt_of_last (q := q) hbo hs (by simp [hc]) a (by simp [ha])
  · rintro kv A' rfl hc a ha
    rcases List.eq_nil_or_concat X with rfl | ⟨X1, x, rfl⟩
    · simp at hX
    · simp only [List.concat_eq_append] at hs hX
      rw [preT_concat (by simpa using hX), List.append_assoc, List.singleton_append] at hs
      exact all_lt_of_head (q := q) hbo hs (by simp [hc]) a (by simp [ha])

/-- What `min_found = true` means for the pairs of the node it has reached. -/
def MinFound [Ord Q] (bor : K → Q) (s : Bound Q) (l : List (K × V)) : Prop :=
  match s with
  | .included _ => ∀ a ∈ l, aboveLo s (bor a.1) = false
  | .excluded _ => ∀ a ∈ l, aboveLo s (bor a.1) = true
  | .unbounded => True

/-- `min_edge` on sorted pairs. -/
theorem minEdge_kvs [Ord K] [Ord Q] [Std.TransOrd Q] {bor : K → Q} (hbo : BorrowOK bor) (s : Bound Q) {mf : Bool}
    {kvs : List (K × V)} (hs : Sorted kvs) (hm : mf = true → MinFound bor s kvs) :
    ∃ A C, kvs = A ++ C ∧ A.length = (minEdge bor mf s kvs).1 ∧ (∀ a ∈ A, aboveLo s (bor a.1) = false) ∧
      (∀ a ∈ C, aboveLo s (bor a.1) = true) ∧
      ((minEdge bor mf s kvs).2 = true → mf = true ∨
        match s with
        | .included q => ∃ kv C', C = kv :: C' ∧ compare q (bor kv.1) = .eq
        | .excluded q => ∃ kv A', A = A' ++ [kv] ∧ compare q (bor kv.1) = .eq
        | .unbounded => True) := by
  cases s with
  | unbounded =>
    refine ⟨[], kvs, rfl, ?_, by simp, by simp [aboveLo], fun _ => .inr trivial⟩
    cases mf <;> simp [minEdge]
  | included q =>
    cases mf with
    | true =>
      refine ⟨kvs, [], by simp, by simp [minEdge], hm rfl, by simp, fun _ => .inl rfl⟩
    | false =>
      obtain ⟨A, C, hf⟩ := searchLinear_spec bor q kvs
      refine ⟨A, C, hf.split, hf.len, fun a ha => by simp [aboveLo, hf.before a ha], ?_, fun h => .inr (hf.hit h)⟩
      rw [hf.split] at hs
      have hC : ∀ kv C', C = kv :: C' → compare q (bor kv.1) ≠ .gt → ∀ a ∈ C, compare q (bor a.1) ≠ .gt := by
        rintro kv C' rfl hc a ha
        rcases List.mem_cons.1 ha with rfl | ha
        · exact hc
        · simp [all_lt_of_head (q := q) hbo hs hc a ha]
      intro a ha
      have : compare q (bor a.1) ≠ .gt := by
        cases hb : (searchLinear bor q kvs).2 with
        | true =>
          obtain ⟨kv, C', h1, h2⟩ := hf.hit hb
          exact hC kv C' h1 (by simp [h2]) a ha
        | false =>
          rcases hf.miss hb with rfl | ⟨kv, C', h1, h2⟩
          · simp at ha
          · exact hC kv C' h1 (by simp [h2]) a ha
      simpa [aboveLo] using this
  | excluded q =>
    cases mf with
    | true =>
      refine ⟨[], kvs, by simp, by simp [minEdge], by simp, hm rfl, fun _ => .inl rfl⟩
    | false =>
      obtain ⟨A, C, hf⟩ := searchLinear_spec bor q kvs
      have hs' := hs
      rw [hf.split] at hs'
      cases hsl : searchLinear bor q kvs with
      | mk i b =>
      simp only [hsl] at hf
      cases b with
      | true =>
        obtain ⟨kv, C', rfl, hc⟩ := hf.hit rfl
        refine ⟨A ++ [kv], C', by simp [hf.split], by simp [minEdge, hsl, hf.len], ?_, ?_,
          fun _ => .inr ⟨kv, A, rfl, hc⟩⟩
        · intro a ha
          rcases List.mem_append.1 ha with ha | ha
          · simp [aboveLo, hf.before a ha]
          · rw [List.mem_singleton.1 ha]; simp [aboveLo, hc]
        · intro a ha
          simp [aboveLo, all_lt_of_head (q := q) hbo hs' (by simp [hc]) a ha]
      | false =>
        refine ⟨A, C, hf.split, by simp [minEdge, hsl, hf.len], fun a ha => by simp [aboveLo, hf.before a ha], ?_,
          by simp [minEdge, hsl]⟩
        rcases hf.miss rfl with rfl | ⟨kv, C', rfl, hc⟩
        · simp
        · intro a ha
          rcases List.mem_cons.1 ha with rfl | ha
          · simp [aboveLo, hc]
          · simp [aboveLo, all_lt_of_head (q := q) hbo hs' (by simp [hc]) a ha]

theorem aboveLo_closed [Ord K] [Ord Q] [Std.TransOrd Q] {bor : K → Q} (hbo : BorrowOK bor) (s : Bound Q)
    (a b : K × V) (hlt : compare a.1 b.1 = .lt) (h : aboveLo s (bor a.1) = true) : aboveLo s (bor b.1) = true := by
  cases s with
  | unbounded => rfl
  | included q =>
    have h' : compare q (bor a.1) ≠ .gt := by simpa [aboveLo] using h
    have := compare_lt_of_lt hbo (q := q) (by cases hc : compare q (bor a.1) <;> simp_all) hlt
    simp [aboveLo, this]
  | excluded q =>
    have h' : compare q (bor a.1) = .lt := by simpa [aboveLo] using h
    have := compare_lt_of_lt hbo (q := q) (by simp [h']) hlt
    simp [aboveLo, this]

/-- Facts about one node on the way down. -/
theorem min_node [Ord K] [Ord Q] [Std.TransOrd Q] {bor : K → Q} (hbo : BorrowOK bor) (s : Bound Q) {h : Nat}
    {A C : List (K × V)} {X Y : List (Tree K V)} {c : Tree K V} (hX : X.length = A.length) (hY : Y.length = C.length)
    (hb : BelowN lo (h + 1) ⟨A ++ C, X ++ c :: Y⟩) (hs : Sorted (toList (h + 1) ⟨A ++ C, X ++ c :: Y⟩)) {mf : Bool}
    (hm : mf = true → MinFound bor s (toList (h + 1) ⟨A ++ C, X ++ c :: Y⟩))
    (hi : X.length = (minEdge bor mf s (A ++ C)).1) :
    (∀ a ∈ preT h A X, aboveLo s (bor a.1) = false) ∧ (∀ a ∈ postT h C Y, aboveLo s (bor a.1) = true) ∧
      ((minEdge bor mf s (A ++ C)).2 = true → MinFound bor s (toList h c)) := by
  have hsub := kvs_sublist hb
  have hsk : Sorted (A ++ C) := List.Pairwise.sublist hsub hs
  have hm' : mf = true → MinFound bor s (A ++ C) := by
    intro h1
    have := hm h1
    cases s with
    | unbounded => trivial
    | included q => exact fun a ha => this a (hsub.subset ha)
    | excluded q => exact fun a ha => this a (hsub.subset ha)
  obtain ⟨A', C', h1, h2, h3, h4, h5⟩ := minEdge_kvs hbo s hsk hm'
  obtain ⟨rfl, rfl⟩ := List.append_inj h1 (by omega)
  obtain ⟨g1, g2⟩ := node_closed (P := fun kv => aboveLo s (bor kv.1)) (aboveLo_closed hbo s) hX hY hs
  refine ⟨g1 h3, g2 h4, ?_⟩
  intro hmf
  have hcsub : ∀ a ∈ toList h c, a ∈ toList (h + 1) ⟨A ++ C, X ++ c :: Y⟩ := by
    intro a ha; rw [toList_split hX]; simp [ha]
  cases s with
  | unbounded => trivial
  | included q =>
    rcases h5 hmf with h6 | ⟨kv, C', h6, h7⟩
    · exact fun a ha => hm h6 a (hcsub a ha)
    · intro a ha
      have := (node_hit hbo q hX hY hs).1 kv C' h6 h7 a ha
      simp [aboveLo, this]
  | excluded q =>
    rcases h5 hmf with h6 | ⟨kv, C', h6, h7⟩
    · exact fun a ha => hm h6 a (hcsub a ha)
    · intro a ha
      have := (node_hit hbo q hX hY hs).2 kv C' h6 h7 a ha
      simp [aboveLo, this]

/-- The front edge of a lawful range search. -/
theorem minDesc_sorted [Ord K] [Ord Q] [Std.TransOrd Q] {bor : K → Q} (hbo : BorrowOK bor) (s : Bound Q) {h : Nat}
    {t : Tree K V} (hb : BelowN lo h t) (hs : Sorted (toList h t)) {mf : Bool}
    (hm : mf = true → MinFound bor s (toList h t)) {p i A B} (hd : minDesc bor s h t mf = .ok (p, i))
    (he : EdgeAt h t p i A B) :
    (∀ a ∈ A, aboveLo s (bor a.1) = false) ∧ (∀ b ∈ B, aboveLo s (bor b.1) = true) := by
  induction he generalizing mf with
  | leaf A B =>
    simp only [minDesc, Exec.ok.injEq, Prod.mk.injEq, true_and] at hd
    simp only [toList_zero] at hs hm
    obtain ⟨A', C', h1, h2, h3, h4, h5⟩ := minEdge_kvs hbo s hs hm
    obtain ⟨rfl, rfl⟩ := List.append_inj h1 (by rw [h2, hd])
    exact ⟨h3, h4⟩
  | @child h c p idx A B A0 C0 X Y hX hY hc ih =>
    simp only [minDesc] at hd
    obtain ⟨c1, g1, hd⟩ := Exec.bind_eq_ok.1 hd
    obtain ⟨⟨q1, j1⟩, k1, hd⟩ := Exec.bind_eq_ok.1 hd
    simp at hd
    obtain ⟨⟨hi, rfl⟩, rfl⟩ := hd
    rw [hi, getE_append] at g1
    simp only [Exec.ok.injEq] at g1
    subst g1
    obtain ⟨m1, m2, m3⟩ := min_node hbo s hX hY hb hs hm hi.symm
    have hsc : Sorted (toList h c) := by
      rw [toList_split hX] at hs
      exact (Sorted.append_iff.1 (Sorted.append_iff.1 hs).2.1).1
    have hci : InnerN lo h c := hb.2 c (by simp)
    obtain ⟨i1, i2⟩ := ih hci.2.2 hsc m3 k1
    refine ⟨?_, ?_⟩
    · intro a ha
      rcases List.mem_append.1 ha with ha | ha
      · exact m1 a ha
      · exact i1 a ha
    · intro a ha
      rcases List.mem_append.1 ha with ha | ha
      · exact i2 a ha
      · exact m2 a ha

/-! The back edge is the front edge of the complementary bound. -/

/-- The lower bound that excludes exactly what the upper bound admits. -/
def flip : Bound Q → Bound Q
  | .included q => .excluded q
  | .excluded q => .included q
  | .unbounded => .unbounded

theorem maxEdge_flip [Ord Q] (bor : K → Q) (xf : Bool) {e : Bound Q} (he : e ≠ .unbounded) (kvs : List (K × V)) :
    maxEdge bor xf e kvs = minEdge bor xf (flip e) kvs := by
  cases e with
  | unbounded => exact absurd rfl he
  | included q => cases xf <;> rfl
  | excluded q => cases xf <;> rfl

theorem maxDesc_flip [Ord Q] (bor : K → Q) {e : Bound Q} (he : e ≠ .unbounded) (h : Nat) (t : Tree K V) (xf : Bool) :
    maxDesc bor e h t xf = minDesc bor (flip e) h t xf := by
  induction h generalizing t xf with
  | zero => simp [maxDesc, minDesc, maxEdge_flip bor xf he]
  | succ h ih => simp only [maxDesc, minDesc, maxEdge_flip bor xf he, ih]

theorem belowHi_flip [Ord Q] {e : Bound Q} (he : e ≠ .unbounded) (k : Q) : belowHi e k = !aboveLo (flip e) k := by
  cases e with
  | unbounded => exact absurd rfl he
  | included q => simp [belowHi, flip, aboveLo, bne]
  | excluded q => simp [belowHi, flip, aboveLo, bne]

theorem maxEdge_unbounded [Ord Q] (bor : K → Q) (xf : Bool) (kvs : List (K × V)) :
    maxEdge bor xf .unbounded kvs = (kvs.length, xf) := by cases xf <;> rfl

theorem maxDesc_unbounded [Ord Q] (bor : K → Q) {h : Nat} {t : Tree K V} {xf : Bool} {p i A B}
    (hd : maxDesc bor .unbounded h t xf = .ok (p, i)) (he : EdgeAt h t p i A B) : B = [] := by
  induction he generalizing xf with
  | leaf A B => simpa [maxDesc, maxEdge_unbounded] using hd
  | @child h c p idx A B A0 C0 X Y hX hY hc ih =>
    simp only [maxDesc, maxEdge_unbounded] at hd
    obtain ⟨c1, g1, hd⟩ := Exec.bind_eq_ok.1 hd
    obtain ⟨⟨q1, j1⟩, k1, hd⟩ := Exec.bind_eq_ok.1 hd
    simp at hd
    obtain ⟨⟨hi, rfl⟩, rfl⟩ := hd
    have hC : C0 = [] := List.eq_nil_of_length_eq_zero (by omega)
    subst hC
    have hl : (A0 ++ []).length = X.length := by simpa using hX.symm
    rw [hl, getE_append] at g1
    simp only [Exec.ok.injEq] at g1
    subst g1
    simp [ih k1]

/-- The back edge of a lawful range search. -/
theorem maxDesc_sorted [Ord K] [Ord Q] [Std.TransOrd Q] {bor : K → Q} (hbo : BorrowOK bor) (e : Bound Q) {h : Nat}
    {t : Tree K V} (hb : BelowN lo h t) (hs : Sorted (toList h t)) {p i A B} (hd : maxDesc bor e h t false = .ok (p, i))
    (he : EdgeAt h t p i A B) :
    (∀ a ∈ A, belowHi e (bor a.1) = true) ∧ (∀ b ∈ B, belowHi e (bor b.1) = false) := by
  by_cases hu : e = .unbounded
  · subst hu
    rw [maxDesc_unbounded bor hd he]
    exact ⟨fun _ _ => rfl, by simp⟩
  · rw [maxDesc_flip bor hu] at hd
    obtain ⟨h1, h2⟩ := minDesc_sorted hbo (flip e) hb hs (by simp) hd he
    exact ⟨fun a ha => by simp [belowHi_flip hu, h1 a ha], fun a ha => by simp [belowHi_flip hu, h2 a ha]⟩

/-- No key is outside both bounds, unless the range is one that is refused. -/
theorem not_both_out [Ord Q] [Std.TransOrd Q] {s e : Bound Q} (hr : badRange s e = false) (k : Q)
    (h1 : aboveLo s k = false) (h2 : belowHi e k = false) : False := by
  cases s with
  | unbounded => simp [aboveLo] at h1
  | included s =>
    have hs : compare s k = .gt := by simpa [aboveLo] using h1
    cases e with
    | unbounded => simp [belowHi] at h2
    | included e =>
      have he : compare e k = .lt := by simpa [belowHi] using h2
      have hr' : compare s e ≠ .gt := by simpa [badRange] using hr
      exact hr' (Std.OrientedCmp.gt_of_lt (Std.TransCmp.lt_trans he (Std.OrientedCmp.lt_of_gt hs)))
    | excluded e =>
      have he : compare e k ≠ .gt := by simpa [belowHi] using h2
      have hr' : compare s e ≠ .gt := by simpa [badRange] using hr
      have he' : (compare e k).isLE := by cases hc : compare e k <;> simp_all
      exact hr' (Std.OrientedCmp.gt_of_lt (Std.TransCmp.lt_of_isLE_of_lt he' (Std.OrientedCmp.lt_of_gt hs)))
  | excluded s =>
    have hs : compare s k ≠ .lt := by simpa [aboveLo] using h1
    have hs' : (compare k s).isLE := by
      rw [Std.OrientedCmp.eq_swap (cmp := compare) (a := k) (b := s)]
      cases hc : compare s k <;> simp_all
    cases e with
    | unbounded => simp [belowHi] at h2
    | included e =>
      have he : compare e k = .lt := by simpa [belowHi] using h2
      have hr' : compare s e ≠ .gt := by simpa [badRange] using hr
      exact hr' (Std.OrientedCmp.gt_of_lt (Std.TransCmp.lt_of_lt_of_isLE he hs'))
    | excluded e =>
      have he : compare e k ≠ .gt := by simpa [belowHi] using h2
      have hr' : compare s e = .lt := by simpa [badRange] using hr
      have he' : (compare e k).isLE := by cases hc : compare e k <;> simp_all
      have := Std.TransCmp.isLE_trans (cmp := compare) he' hs'
      rw [Std.OrientedCmp.eq_swap (cmp := compare) (a := e) (b := s), hr'] at this
      simp at this

/-- A lawful range search never finds the edges crossed. -/
theorem rangeLoop_lawful [Ord K] [Ord Q] [Std.TransOrd Q] {bor : K → Q} (hbo : BorrowOK bor) {s e : Bound Q}
    (hr : badRange s e = false) {h : Nat} {t : Tree K V} (hb : BelowN lo h t) (hs : Sorted (toList h t)) {mf xf : Bool}
    (hm : mf = true → MinFound bor s (toList h t)) (hx : xf = true → MinFound bor (flip e) (toList h t))
    (up : List Nat) :
    rangeLoop bor s e h t t mf xf false up up ≠ .panic "Ord is ill-defined in BTreeMap range" := by
  -- in one node
  have hnode : ∀ {h : Nat} {t : Tree K V} {mf xf : Bool}, BelowN lo h t → Sorted (toList h t) →
      (mf = true → MinFound bor s (toList h t)) → (xf = true → MinFound bor (flip e) (toList h t)) →
      ¬ (maxEdge bor xf e t.kvs).1 < (minEdge bor mf s t.kvs).1 := by
    intro h t mf xf hb hs hm hx hlt
    have hsub := kvs_sublist hb
    have hsk : Sorted t.kvs := List.Pairwise.sublist hsub hs
    have hres : ∀ s : Bound Q, MinFound bor s (toList h t) → MinFound bor s t.kvs := by
      intro s hm
      cases s with
      | unbounded => trivial
      | included q => exact fun a ha => hm a (hsub.subset ha)
      | excluded q => exact fun a ha => hm a (hsub.subset ha)
    obtain ⟨A, C, h1, h2, h3, h4, _⟩ := minEdge_kvs hbo s hsk (fun h => hres s (hm h))
    by_cases hu : e = .unbounded
    · subst hu
      rw [maxEdge_unbounded] at hlt
      have := minEdge_le bor mf s t.kvs
      simp at hlt; omega
    · rw [maxEdge_flip bor xf hu] at hlt
      obtain ⟨A', C', k1, k2, k3, k4, _⟩ := minEdge_kvs hbo (flip e) hsk (fun h => hres _ (hx h))
      have hlen : A'.length < A.length := by omega
      have hmem : A[A'.length] ∈ C' := by
        have e1 : (A ++ C)[A'.length]? = some A[A'.length] := by
          rw [List.getElem?_append_left hlen]; simp
        rw [← h1, k1, List.getElem?_append_right (Nat.le_refl _)] at e1
        exact List.mem_of_getElem? e1
      refine not_both_out hr (bor A[A'.length].1) (h3 _ (List.getElem_mem hlen)) ?_
      rw [belowHi_flip hu, k4 _ hmem]; rfl
  induction h generalizing t mf xf up with
  | zero =>
    have := hnode hb hs hm hx
    simp [rangeLoop, this]
  | succ h ih =>
    have hn := hnode hb hs hm hx
    obtain ⟨A, C, X, c, Y, rfl, hA, hX, hY⟩ := split_edge hb.1 (minEdge_le bor mf s t.kvs)
    have hXA : X.length = A.length := by omega
    simp only at hX hn
    rw [rangeLoop_succ, if_neg (by simp; omega)]
    have hg : getE (X ++ c :: Y) (minEdge bor mf s (A ++ C)).1 = .ok c := getE_split rfl hX.symm
    simp only [hg, Exec.ok_bind]
    have hci : InnerN lo h c := hb.2 c (by simp)
    have hsc : Sorted (toList h c) := by
      rw [toList_split hXA] at hs
      exact (Sorted.append_iff.1 (Sorted.append_iff.1 hs).2.1).1
    obtain ⟨_, _, m3⟩ := min_node hbo s hXA hY hb hs hm hX
    by_cases heq : (minEdge bor mf s (A ++ C)).1 = (maxEdge bor xf e (A ++ C)).1
    · rw [← heq, hg]
      have hmax : (maxEdge bor xf e (A ++ C)).2 = true → MinFound bor (flip e) (toList h c) := by
        by_cases hu : e = .unbounded
        · subst hu; exact fun _ => trivial
        · intro h1
          rw [maxEdge_flip bor xf hu] at h1 heq
          exact (min_node hbo (flip e) hXA hY hb hs hx (by omega)).2.2 h1
      have := ih hci.2.2 hsc m3 hmax ((minEdge bor mf s (A ++ C)).1 :: up)
      simpa using this
    · obtain ⟨A', C', X', c', Y', ht, hA', hX', hY'⟩ := split_edge (t := ⟨A ++ C, X ++ c :: Y⟩) hb.1
        (maxEdge_le bor xf e (A ++ C))
      have hci' : InnerN lo h c' := hb.2 c' (by rw [ht]; simp)
      have hg' : getE (X ++ c :: Y) (maxEdge bor xf e (A ++ C)).1 = .ok c' :=
        getE_split (congrArg Tree.edges ht) hX'.symm
      rw [hg']
      have hne : (false || (minEdge bor mf s (A ++ C)).1 != (maxEdge bor xf e (A ++ C)).1) = true := by
        simpa using heq
      obtain ⟨p1, i1, _, _, d1, _⟩ := minDesc_edge bor s hci.2.2 (minEdge bor mf s (A ++ C)).2
      obtain ⟨p2, i2, _, _, d2, _⟩ := maxDesc_edge bor e hci'.2.2 (maxEdge bor xf e (A ++ C)).2
      rw [Exec.ok_bind, hne, rangeLoop_diverged bor s e d1 d2]
      simp

theorem rangeCheck_spec [Ord Q] (s e : Bound Q) :
    (badRange s e = true ∧ ∃ msg, rangeCheck s e = .panic msg) ∨ (badRange s e = false ∧ rangeCheck s e = .ok ()) := by
  cases s <;> cases e <;> simp only [badRange, rangeCheck] <;> first
    | (rename_i s e; cases compare s e <;> simp)
    | simp

theorem rangeCheck_msg [Ord Q] (s e : Bound Q) {msg} (h : rangeCheck s e = .panic msg) :
    msg ≠ "Ord is ill-defined in BTreeMap range" := by
  cases s <;> cases e <;> simp only [rangeCheck] at h
  all_goals first
    | (rename_i s e; cases hc : compare s e <;> simp [hc] at h <;> subst h <;> decide)
    | simp at h

/-- `range` with any `Ord`: refuses bad bounds, otherwise a window or the "ill-defined" panic. -/
theorem Map.range_wf [Ord Q] {lo rt x : Nat} {m : Map K V} (h : m.ShapedN lo rt x) (bor : K → Q) (s e : Bound Q) :
    (∃ msg, m.range bor s e = .panic msg) ∨
    (badRange s e = false ∧ ∃ r pre mid post, m.range bor s e = .ok r ∧ Window m r pre mid post) := by
  rcases rangeCheck_spec s e with ⟨_, msg, hc⟩ | ⟨hbad, hc⟩
  · exact .inl ⟨msg, by simp [Map.range, hc]⟩
  · rcases rangeLoop_joint bor s e h.below false false [] with h1 | h1
    · exact .inl ⟨"Ord is ill-defined in BTreeMap range", by simp [Map.range, hc, h1]⟩
    · obtain ⟨p1, i1, p2, i2, A1, B1, A2, B2, g1, g2, g3, g4, g5, g6⟩ := h1
      have e1 := g4.toList_eq
      have e2 := g5.toList_eq
      obtain ⟨mid, rfl⟩ : ∃ mid, A2 = A1 ++ mid := by
        refine ⟨A2.drop A1.length, ?_⟩
        have := congrArg (List.take A1.length) (e1.symm.trans e2)
        rw [List.take_left' rfl, List.take_append_of_le_length g6] at this
        have h := List.take_append_drop A1.length A2
        rw [← this] at h
        exact h.symm
      have hB : B1 = mid ++ B2 := by
        have := e1.symm.trans e2
        rw [List.append_assoc] at this
        exact List.append_cancel_left this
      refine .inr ⟨hbad, ⟨⟨p1.reverse, i1⟩, ⟨p2.reverse, i2⟩⟩, A1, mid, B2, by simp [Map.range, hc, g3], ?_, ?_, ?_⟩
      · rw [← hB]; exact e1
      · subst hB; simpa [Map.Gap] using g4
      · simpa [Map.Gap] using g5

/-- `range` on an ordered map: panics exactly for bad bounds, otherwise the window is the interval. -/
theorem Map.range_ordered [Ord K] [Ord Q] [Std.TransOrd Q] {bor : K → Q} (hbo : BorrowOK bor) {lo rt x : Nat} {m : Map K V}
    (h : m.OrderedN lo rt x) (s e : Bound Q) :
    (badRange s e = true ∧ ∃ msg, m.range bor s e = .panic msg) ∨
    (badRange s e = false ∧ ∃ r pre post, m.range bor s e = .ok r ∧
      Window m r pre (within bor s e m.toList) post) := by
  rcases rangeCheck_spec s e with ⟨hbad, msg, hc⟩ | ⟨hbad, hc⟩
  · exact .inl ⟨hbad, msg, by simp [Map.range, hc]⟩
  · right
    rcases rangeLoop_joint bor s e h.below false false [] with h1 | h1
    · exact absurd h1 (rangeLoop_lawful hbo hbad h.below h.sorted (by simp) (by simp) [])
    · obtain ⟨p1, i1, p2, i2, A1, B1, A2, B2, g1, g2, g3, g4, g5, g6⟩ := h1
      have e1 := g4.toList_eq
      have e2 := g5.toList_eq
      obtain ⟨lo1, lo2⟩ := minDesc_sorted hbo s h.below h.sorted (by simp) g1 g4
      obtain ⟨hi1, hi2⟩ := maxDesc_sorted hbo e h.below h.sorted g2 g5
      obtain ⟨mid, rfl⟩ : ∃ mid, A2 = A1 ++ mid := by
        refine ⟨A2.drop A1.length, ?_⟩
        have := congrArg (List.take A1.length) (e1.symm.trans e2)
        rw [List.take_left' rfl, List.take_append_of_le_length g6] at this
        have h := List.take_append_drop A1.length A2
        rw [← this] at h
        exact h.symm
      have hB : B1 = mid ++ B2 := by
        have := e1.symm.trans e2
        rw [List.append_assoc] at this
        exact List.append_cancel_left this
      subst hB
      have hw : within bor s e m.toList = mid := by
        show within bor s e (BTree.toList m.height m.root) = mid
        rw [e1]
        unfold within
        rw [List.filter_append, List.filter_append]
        have f1 : A1.filter (fun e' => aboveLo s (bor e'.1) && belowHi e (bor e'.1)) = [] :=
          List.filter_eq_nil_iff.2 (fun a ha => by simp [lo1 a ha])
        have f2 : mid.filter (fun e' => aboveLo s (bor e'.1) && belowHi e (bor e'.1)) = mid :=
          List.filter_eq_self.2 (fun a ha => by simp [lo2 a (by simp [ha]), hi1 a (by simp [ha])])
        have f3 : B2.filter (fun e' => aboveLo s (bor e'.1) && belowHi e (bor e'.1)) = [] :=
          List.filter_eq_nil_iff.2 (fun a ha => by simp [hi2 a ha])
        rw [f1, f2, f3]
        simp
      refine ⟨hbad, ⟨⟨p1.reverse, i1⟩, ⟨p2.reverse, i2⟩⟩, A1, B2, by simp [Map.range, hc, g3], ?_, ?_, ?_⟩
      · rw [hw]; exact e1
      · rw [hw]; simpa [Map.Gap] using g4
      · rw [hw]; simpa [Map.Gap] using g5

end Verif.BTree
