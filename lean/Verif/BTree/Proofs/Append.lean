import Verif.BTree.Proofs.Split
/-
`append`: merging two sorted sequences and building a tree from the result.
-/
namespace Verif.BTree
open Verif Verif.Spec

variable {K V Q : Type}

/-! ### merging -/

theorem mergeIter_nil_left [Ord K] (r : List (K × V)) : mergeIter [] r = r := by unfold mergeIter; rfl
theorem mergeIter_nil_right [Ord K] (l : List (K × V)) : mergeIter l [] = l := by
  cases l <;> simp [mergeIter]
/-- Everything the merge yields comes from one of its inputs. -/
theorem mergeIter_mem [Ord K] (l r : List (K × V)) (kv : K × V) (h : kv ∈ mergeIter l r) : kv ∈ l ∨ kv ∈ r := by
  fun_induction mergeIter l r with
  | case1 r => exact .inr h
  | case2 l _ => exact .inl h
  | case3 a l b r hc ih => simp only [List.mem_cons] at h ih ⊢; grind
  | case4 a l b r hc ih => simp only [List.mem_cons] at h ih ⊢; grind
  | case5 a l b r hc ih => simp only [List.mem_cons] at h ih ⊢; grind

theorem mergeIter_spec [Ord K] [Std.TransOrd K] (l r : List (K × V)) (hl : Sorted l) (hr : Sorted r) :
    Spec.union l r (mergeIter l r) := by
  have lt_of : ∀ {x y z : K}, compare x y = .lt → compare y z = .lt → compare x z = .lt :=
    fun h1 h2 => Std.TransCmp.lt_trans h1 h2
  fun_induction mergeIter l r with
  | case1 r => exact ⟨hr, by simp⟩
  | case2 l _ => exact ⟨hl, by simp⟩
  | case3 a l b r hc ih =>
    obtain ⟨ha, hl'⟩ := List.pairwise_cons.1 hl
    obtain ⟨hb, hr'⟩ := List.pairwise_cons.1 hr
    obtain ⟨h1, h2⟩ := ih hl' hr
    have hab : ∀ x ∈ b :: r, compare a.1 x.1 = .lt := by
      intro x hx
      rcases List.mem_cons.1 hx with rfl | hx
      · exact hc
      · exact lt_of hc (hb x hx)
    refine ⟨List.pairwise_cons.2 ⟨fun x hx => ?_, h1⟩, fun kv => ?_⟩
    · rcases mergeIter_mem _ _ _ hx with hx | hx
      · exact ha x hx
      · exact hab x hx
    · rw [List.mem_cons, h2]
      constructor
      · rintro (rfl | h | ⟨h, h'⟩)
        · exact .inr ⟨by simp, fun x hx => by simp [hab x hx]⟩
        · exact .inl h
        · exact .inr ⟨by simp [h], h'⟩
      · rintro (h | ⟨h, h'⟩)
        · exact .inr (.inl h)
        · rcases List.mem_cons.1 h with rfl | h
          · exact .inl rfl
          · exact .inr (.inr ⟨h, h'⟩)
  | case4 a l b r hc ih =>
    obtain ⟨ha, hl'⟩ := List.pairwise_cons.1 hl
    obtain ⟨hb, hr'⟩ := List.pairwise_cons.1 hr
    obtain ⟨h1, h2⟩ := ih hl hr'
    have hba : ∀ x ∈ a :: l, compare b.1 x.1 = .lt := by
      intro x hx
      have hc' := Std.OrientedCmp.lt_of_gt hc
      rcases List.mem_cons.1 hx with rfl | hx
      · exact hc'
      · exact lt_of hc' (ha x hx)
    refine ⟨List.pairwise_cons.2 ⟨fun x hx => ?_, h1⟩, fun kv => ?_⟩
    · rcases mergeIter_mem _ _ _ hx with hx | hx
      · exact hba x hx
      · exact hb x hx
    · rw [List.mem_cons, h2]
      constructor
      · rintro (rfl | h | ⟨h, h'⟩)
        · exact .inl (by simp)
        · exact .inl (by simp [h])
        · refine .inr ⟨h, fun x hx => ?_⟩
          rcases List.mem_cons.1 hx with rfl | hx
          · rw [Std.OrientedCmp.gt_of_lt (hba kv h)]; simp
          · exact h' x hx
      · rintro (h | ⟨h, h'⟩)
        · rcases List.mem_cons.1 h with rfl | h
          · exact .inl rfl
          · exact .inr (.inl h)
        · exact .inr (.inr ⟨h, fun x hx => h' x (by simp [hx])⟩)
  | case5 a l b r hc ih =>
    obtain ⟨ha, hl'⟩ := List.pairwise_cons.1 hl
    obtain ⟨hb, hr'⟩ := List.pairwise_cons.1 hr
    obtain ⟨h1, h2⟩ := ih hl' hr'
    have hc' : compare b.1 a.1 = .eq := Std.OrientedCmp.eq_symm hc
    have hbl : ∀ x ∈ l, compare b.1 x.1 = .lt := fun x hx => Std.TransCmp.lt_of_eq_of_lt hc' (ha x hx)
    refine ⟨List.pairwise_cons.2 ⟨fun x hx => ?_, h1⟩, fun kv => ?_⟩
    · rcases mergeIter_mem _ _ _ hx with hx | hx
      · exact hbl x hx
      · exact hb x hx
    · rw [List.mem_cons, h2]
      constructor
      · rintro (rfl | h | ⟨h, h'⟩)
        · exact .inl (by simp)
        · exact .inl (by simp [h])
        · refine .inr ⟨by simp [h], fun x hx => ?_⟩
          rcases List.mem_cons.1 hx with rfl | hx
          · rw [Std.OrientedCmp.gt_of_lt (hbl kv h)]; simp
          · exact h' x hx
      · rintro (h | ⟨h, h'⟩)
        · rcases List.mem_cons.1 h with rfl | h
          · exact .inl rfl
          · exact .inr (.inl h)
        · rcases List.mem_cons.1 h with rfl | h
          · exact absurd hc (h' b (by simp))
          · exact .inr (.inr ⟨h, fun x hx => h' x (by simp [hx])⟩)

/-! ### building -/

/-- Every node is full. -/
inductive Full : Nat → Tree K V → Prop
  | leaf (ks : List (K × V)) (hl : ks.length = 11) : Full 0 ⟨ks, []⟩
  | node {h : Nat} (ks : List (K × V)) (es : List (Tree K V)) (hl : ks.length = 11) (he : es.length = 12)
      (hes : ∀ d ∈ es, Full h d) : Full (h + 1) ⟨ks, es⟩

/-- A tree under construction from the left: everything left of the right border is full. -/
inductive Build : Nat → Tree K V → Prop
  | leaf (ks : List (K × V)) : Build 0 ⟨ks, []⟩
  | node {h : Nat} (ks : List (K × V)) (X : List (Tree K V)) (c : Tree K V) (hX : X.length = ks.length)
      (hXi : ∀ d ∈ X, Full h d) (hlen : c.len ≤ 11) (hc : Build h c) : Build (h + 1) ⟨ks, X ++ [c]⟩

theorem Full.len {h : Nat} {t : Tree K V} (hf : Full h t) : t.len = 11 := by cases hf <;> assumption

theorem Full.inner {h : Nat} {t : Tree K V} (hf : Full h t) : Inner h t := by
  induction h generalizing t with
  | zero => cases hf with | leaf ks hl => exact ⟨by simp [hl], by simp [hl], rfl⟩
  | succ h ih =>
    cases hf with
    | node ks es hl he hes => exact ⟨by simp [hl], by simp [hl], by simp [hl, he], fun d hd => ih (hes d hd)⟩

theorem Full.edgesOK {h : Nat} {t : Tree K V} (hf : Full h t) : EdgesOK h t := hf.inner.2.2.edgesOK

theorem Build.edgesOK {h : Nat} {t : Tree K V} (hf : Build h t) : EdgesOK h t := by
  cases hf with
  | leaf ks => rfl
  | node ks X c hX hXi hlen hc => simp [EdgesOK, hX]

theorem Build.emptySpine (h : Nat) : Build h (emptySpine h : Tree K V) := by
  induction h with
  | zero => exact .leaf []
  | succ h ih =>
    refine .node [] [] _ rfl (by simp) ?_ ih
    cases h <;> simp [BTree.emptySpine, emptyLeaf]

@[simp] theorem toList_emptySpine (h : Nat) : toList h (emptySpine h : Tree K V) = [] := by
  induction h with
  | zero => rfl
  | succ h ih => simp [toList_succ, BTree.emptySpine, inter, ih]

theorem emptySpine_len (h : Nat) : (emptySpine h : Tree K V).len = 0 := by cases h <;> rfl

theorem toList_last {h : Nat} {A : List (K × V)} {X : List (Tree K V)} {c : Tree K V} (hX : X.length = A.length) :
    toList (h + 1) ⟨A, X ++ [c]⟩ = preT h A X ++ toList h c := by
  have := toList_split (h := h) (A := A) (C := []) (X := X) (Y := []) (c := c) hX
  simpa using this

theorem pushSorted_spec {h : Nat} {t : Tree K V} (hb : Build h t) (hl : t.len ≤ 11) (kv : K × V) (a : Alloc) :
    (pushSorted h t kv a = .panic "Out of Mem" ∧ ¬ a.Good) ∨
    ∃ r a', pushSorted h t kv a = .ok (r, a') ∧ (a.Good → a'.Good) ∧
      match r with
      | some t' => Build h t' ∧ t'.len ≤ 11 ∧ t.len ≤ t'.len ∧ toList h t' = toList h t ++ [kv]
      | none => Full h t := by
  induction h generalizing t with
  | zero =>
    cases hb with
    | leaf ks =>
    simp only [len_mk] at hl
    right
    by_cases hc : ks.length < 11
    · exact ⟨some ⟨ks ++ [kv], []⟩, a, by simp [pushSorted, Tree.pushLeaf, Tree.len, hc], id, .leaf _, by simp; omega, by simp, by simp⟩
    · exact ⟨none, a, by simp [pushSorted, Tree.len, hc], id, .leaf _ (by omega)⟩
  | succ h ih =>
    cases hb with
    | node ks X c hX hXi hlen hc =>
    simp only [len_mk] at hl
    have hg : getE (X ++ [c]) ks.length = .ok c := by rw [← hX]; simp
    rcases ih hc hlen with ⟨h1, h2⟩ | ⟨r, a', h1, hga, h2⟩
    · left
      exact ⟨by simp [pushSorted, Tree.len, hg, h1], h2⟩
    · cases r with
      | some c' =>
        right
        obtain ⟨g1, g2, g3, g4⟩ := h2
        have hs : setE (X ++ [c]) ks.length c' = .ok (X ++ [c']) := by rw [← hX]; simp
        refine ⟨some ⟨ks, X ++ [c']⟩, a', by simp [pushSorted, Tree.len, hg, h1, hs], hga, .node ks X c' hX hXi g2 g1,
          by simpa using hl, by simp, ?_⟩
        rw [toList_last hX, toList_last hX, g4]; simp
      | none =>
        by_cases hcap : ks.length < 11
        · cases hreq : Alloc.requests (h + 1) a' with
          | mk granted a2 =>
          cases granted with
          | false =>
            left
            refine ⟨by simp [pushSorted, Tree.len, hg, h1, hcap, hreq], fun hgood => ?_⟩
            have := (requests_good (hga hgood) (h + 1)).1
            simp [hreq] at this
          | true =>
            right
            refine ⟨some ⟨ks ++ [kv], X ++ [c] ++ [emptySpine h]⟩, a2, ?_, ?_, ?_, by simp; omega, by simp, ?_⟩
            · simp [pushSorted, Tree.len, hg, h1, hcap, hreq, Tree.pushInternal]
            · intro hgood
              have := (requests_good (hga hgood) (h + 1)).2
              rwa [hreq] at this
            · refine .node _ (X ++ [c]) _ (by simp [hX]) ?_ (by simp [emptySpine_len]) (Build.emptySpine h)
              intro d hd
              rcases List.mem_append.1 hd with hd | hd
              · exact hXi d hd
              · rw [List.mem_singleton.1 hd]; exact h2
            · rw [toList_last (by simp [hX]), toList_last hX, preT_concat hX]; simp
        · right
          refine ⟨none, a', by simp [pushSorted, Tree.len, hg, h1, hcap], hga, .node _ _ (by omega) (by simp; omega) ?_⟩
          intro d hd
          rcases List.mem_append.1 hd with hd | hd
          · exact hXi d hd
          · rw [List.mem_singleton.1 hd]; exact h2

/-- The building loop: either it runs out of memory or the pairs are in the tree. -/
theorem fromSortedLoop_spec (l : List (K × V)) {h : Nat} {t : Tree K V} (hb : Build h t) (hl : t.len ≤ 11)
    (h1 : 0 < h → 1 ≤ t.len) (a : Alloc) :
    (fromSortedLoop (h, t) l a = .panic "Out of Mem" ∧ ¬ a.Good) ∨
    ∃ h' t' a', fromSortedLoop (h, t) l a = .ok ((h', t'), a') ∧ (a.Good → a'.Good) ∧ Build h' t' ∧ t'.len ≤ 11 ∧
      (0 < h' → 1 ≤ t'.len) ∧ toList h' t' = toList h t ++ l := by
  induction l generalizing h t a with
  | nil => exact .inr ⟨h, t, a, rfl, id, hb, hl, h1, by simp⟩
  | cons kv rest ih =>
    rcases pushSorted_spec hb hl kv a with ⟨g1, g2⟩ | ⟨r, a', g1, g2, g3⟩
    · exact .inl ⟨by simp [fromSortedLoop, g1], g2⟩
    · cases r with
      | some t' =>
        obtain ⟨k1, k2, k3, k4⟩ := g3
        rcases ih k1 k2 (fun h0 => by have := h1 h0; omega) a' with ⟨m1, m2⟩ | ⟨h', t2, a2, m1, m2, m3⟩
        · exact .inl ⟨by simp [fromSortedLoop, g1, m1], fun hg => m2 (g2 hg)⟩
        · refine .inr ⟨h', t2, a2, by simp [fromSortedLoop, g1, m1], fun hg => m2 (g2 hg), m3.1, m3.2.1, m3.2.2.1, ?_⟩
          rw [m3.2.2.2, k4]; simp
      | none =>
        cases hr1 : a'.request with
        | mk gr1 a2 =>
        have hgr1 : a.Good → gr1 = true ∧ a2.Good := fun hg => by
          have e1 := (g2 hg).head; have e2 := (g2 hg).tail
          rw [hr1] at e1 e2; exact ⟨e1, e2⟩
        cases gr1 with
        | false => exact .inl ⟨by simp [fromSortedLoop, g1, hr1], fun hg => absurd (hgr1 hg).1 (by simp)⟩
        | true =>
        cases hr2 : Alloc.requests (h + 1) a2 with
        | mk gr2 a3 =>
        have hgr2 : a.Good → gr2 = true ∧ a3.Good := fun hg => by
          have := requests_good (hgr1 hg).2 (h + 1)
          rwa [hr2] at this
        cases gr2 with
        | false => exact .inl ⟨by simp [fromSortedLoop, g1, hr1, hr2], fun hg => absurd (hgr2 hg).1 (by simp)⟩
        | true =>
          have hb2 : Build (h + 1) (⟨[kv], [t] ++ [emptySpine h]⟩ : Tree K V) :=
            .node [kv] [t] _ rfl (by simpa using g3) (by simp [emptySpine_len]) (Build.emptySpine h)
          have hstep : fromSortedLoop (h, t) (kv :: rest) a =
              fromSortedLoop (h + 1, ⟨[kv], [t] ++ [emptySpine h]⟩) rest a3 := by
            simp [fromSortedLoop, g1, hr1, hr2, Tree.pushInternal, Tree.len]
          rw [hstep]
          rcases ih hb2 (by simp) (by simp) a3 with ⟨m1, m2⟩ | ⟨h', t2, a4, m1, m2, m3⟩
          · exact .inl ⟨m1, fun hg => m2 (hgr2 hg).2⟩
          · refine .inr ⟨h', t2, a4, m1, fun hg => m2 (hgr2 hg).2, m3.1, m3.2.1, m3.2.2.1, ?_⟩
            rw [m3.2.2.2, toList_last rfl]; simp

theorem fixRightEdge_spec {h : Nat} {t : Tree K V} (hb : Build h t) (h1 : 0 < h → 1 ≤ t.len) :
    ∃ t', fixRightEdge h t = .ok t' ∧ toList h t' = toList h t ∧ Below h t' ∧ t'.len = t.len := by
  induction h generalizing t with
  | zero => cases hb with | leaf ks => exact ⟨_, rfl, rfl, rfl, rfl⟩
  | succ h ih =>
    cases hb with
    | node ks X r hX hXi hrl hc =>
    rcases List.eq_nil_or_concat ks with rfl | ⟨A, kv, rfl⟩
    · simp at h1
    rcases List.eq_nil_or_concat X with rfl | ⟨X, l, rfl⟩
    · simp at hX
    simp only [List.concat_eq_append, List.append_assoc, List.singleton_append] at hX hXi ⊢
    have hX' : X.length = A.length := by simpa using hX
    have hlf : Full h l := hXi l (by simp)
    have hXi' : ∀ d ∈ X, Full h d := fun d hd => hXi d (by simp [hd])
    have hrE := hc.edgesOK
    have hl11 := hlf.len
    have hlen : (⟨A ++ [kv], X ++ [l, r]⟩ : Tree K V).len = X.length + 1 := by simp [hX']
    have key : ∃ l' kv' r', (if r.len < MIN_LEN then
          if 0 < (⟨A ++ [kv], X ++ [l, r]⟩ : Tree K V).len then
            bulkStealLeft ⟨A ++ [kv], X ++ [l, r]⟩ ((⟨A ++ [kv], X ++ [l, r]⟩ : Tree K V).len - 1) (MIN_LEN - r.len)
          else .panic "internal error: entered unreachable code"
          else .ok ⟨A ++ [kv], X ++ [l, r]⟩) = .ok (⟨A ++ [kv'], X ++ [l', r']⟩ : Tree K V) ∧
        Inner h l' ∧ Build h r' ∧ 5 ≤ r'.len ∧ r'.len ≤ 11 ∧
        toList h l' ++ kv' :: toList h r' = toList h l ++ kv :: toList h r := by
      by_cases h5 : r.len < 5
      · obtain ⟨l', kv', r', g1, g2, g3, g4⟩ := bulkStealLeft_split (h := h) (A := A) (C := []) (kv := kv) (X := X)
          (Y := []) (l := l) (r := r) (count := 5 - r.len) hX' hlf.edgesOK hrE (by omega) (by omega) (by omega)
        obtain ⟨r1, r2, r3⟩ := g2
        have hE : l'.edges ++ r'.edges = l.edges ++ r.edges := congrArg Tree.edges r3
        have hl' : Inner h l' ∧ Build h r' := by
          cases h with
          | zero =>
            obtain ⟨rk, re⟩ := r'
            have : re = [] := r2
            subst this
            exact ⟨⟨by omega, by omega, r1⟩, .leaf _⟩
          | succ h =>
            have e1 : l'.edges.length = l'.len + 1 := r1
            have e2 : l.edges.length = l.len + 1 := hlf.edgesOK
            have hle : l'.edges.length ≤ l.edges.length := by omega
            have hall : ∀ d ∈ l.edges, Full h d := by cases hlf with | node ks es hl he hes => exact hes
            constructor
            · refine ⟨by omega, by omega, r1, fun d hd => ?_⟩
              have : l'.edges = l.edges.take l'.edges.length := by
                have := congrArg (List.take l'.edges.length) hE
                rwa [List.take_left' rfl, List.take_append_of_le_length hle] at this
              rw [this] at hd
              exact (hall d (List.mem_of_mem_take hd)).inner
            · cases hc with
              | node ks Xr c hXr hXri hlenc hc =>
              obtain ⟨rk, re⟩ := r'
              simp only at hE
              have : re = (l.edges.drop l'.edges.length ++ Xr) ++ [c] := by
                have := congrArg (List.drop l'.edges.length) hE
                rwa [List.drop_left' rfl, List.drop_append_of_le_length hle, ← List.append_assoc] at this
              subst this
              refine .node rk _ c ?_ ?_ hlenc hc
              · simp [EdgesOK] at r2; simp; omega
              · intro d hd
                rcases List.mem_append.1 hd with hd | hd
                · exact hall d (List.mem_of_mem_drop hd)
                · exact hXri d hd
        refine ⟨l', kv', r', ?_, hl'.1, hl'.2, by omega, by omega, toList_rotate hlf.edgesOK hrE r1 r2 r3⟩
        rw [hlen]
        simpa [h5] using g1
      · exact ⟨l, kv, r, by simp [h5], hlf.inner, hc, by omega, hrl, rfl⟩
    obtain ⟨l', kv', r', g0, gl, gr, g5, g11, gt⟩ := key
    obtain ⟨c', k1, k2, k3, k4⟩ := ih gr (fun _ => by omega)
    have hga : getE (X ++ [l, r]) (⟨A ++ [kv], X ++ [l, r]⟩ : Tree K V).len = .ok r := by rw [hlen]; simp
    have hgb : getE (X ++ [l', r']) (⟨A ++ [kv'], X ++ [l', r']⟩ : Tree K V).len = .ok r' := by
      have : (⟨A ++ [kv'], X ++ [l', r']⟩ : Tree K V).len = X.length + 1 := by simp [hX']
      rw [this]; simp
    have hsb : setE (X ++ [l', r']) (⟨A ++ [kv'], X ++ [l', r']⟩ : Tree K V).len c' = .ok (X ++ [l', c']) := by
      have : (⟨A ++ [kv'], X ++ [l', r']⟩ : Tree K V).len = X.length + 1 := by simp [hX']
      rw [this]; simp
    refine ⟨⟨A ++ [kv'], X ++ [l', c']⟩, ?_, ?_, ⟨by simp [hX'], ?_⟩, by simp⟩
    · unfold fixRightEdge
      simp only [hga, Exec.ok_bind]
      rw [g0]
      simp only [Exec.ok_bind, hgb, k1, hsb]
    · have e1 := toList_split_kv (h := h) (A := A) (C := []) (X := X) (Y := []) (l := l') (r := c') (kv := kv') hX'
      have e2 := toList_split_kv (h := h) (A := A) (C := []) (X := X) (Y := []) (l := l) (r := r) (kv := kv) hX'
      simp only [postT_nil, List.append_nil] at e1 e2
      rw [e1, e2, k2, gt]
    · intro d hd
      simp only [List.mem_append, List.mem_cons, List.not_mem_nil, or_false] at hd
      rcases hd with hd | rfl | rfl
      · exact (hXi' d hd).inner
      · exact gl
      · exact ⟨by omega, by omega, k3⟩

/-- Building a map from a sequence: valid with exactly these contents, or out of memory. -/
theorem Map.ofSorted_spec (l : List (K × V)) (a : Alloc) :
    ((∃ msg, Map.ofSorted l a = .panic msg) ∧ ¬ a.Good) ∨
    ∃ m a', Map.ofSorted l a = .ok (m, a') ∧ m.WF ∧ m.toList = l ∧ m.shared = false ∧ (a.Good → a'.Good) := by
  obtain ⟨r, m0, a0, h1, h2, h3, h4, h5, h6, h7⟩ := Map.ensureRoot_spec (Map.WF_new (K := K) (V := V)) a
  unfold Map.ofSorted
  simp only [h1]
  cases r with
  | error e => exact .inl ⟨⟨_, rfl⟩, fun hg => by simp at h7; exact (h7 hg).elim⟩
  | ok u =>
    have hm : m0.height = 0 ∧ m0.root = emptyLeaf := by
      unfold Map.ensureRootIsOwned at h1
      cases hr : a.request with
      | mk g a1 =>
        simp [Map.new, hr] at h1
        cases g <;> simp at h1
        obtain ⟨rfl, _⟩ := h1
        exact ⟨rfl, rfl⟩
    have hb : Build 0 (emptyLeaf : Tree K V) := .leaf []
    simp only [hm.1, hm.2]
    rcases fromSortedLoop_spec l hb (by simp [emptyLeaf]) (by simp) a0 with ⟨g1, g2⟩ | ⟨h', t', a', g1, g2, g3, g4, g5, g6⟩
    · exact .inl ⟨⟨_, by rw [g1]; rfl⟩, fun hg => g2 (h7 hg).2⟩
    · obtain ⟨t2, k1, k2, k3, k4⟩ := fixRightEdge_spec g3 g5
      refine .inr ⟨⟨h', t2, m0.shared, m0.length + l.length⟩, a', ?_, ⟨⟨k4 ▸ g4, fun h0 => k4 ▸ g5 h0, k3⟩, ?_, ?_, fun _ => rfl⟩, ?_, h5 rfl, fun hg => g2 (h7 hg).2⟩
      · simp [g1, k1]
      · have : m0.length = 0 := by rw [h4]; rfl
        simp only [Map.toList, k2, g6, this]
        simp [emptyLeaf]
      · rw [h5 rfl]; simp
      · simp only [Map.toList, k2, g6]; simp [emptyLeaf]

/-- `append` of structurally valid maps, any `Ord`. -/
theorem Map.append_wf [Ord K] {m o : Map K V} (hm : m.WF) (ho : o.WF) (a : Alloc) :
    ((∃ msg, m.append o a = .panic msg) ∧ ¬ a.Good ∧ m.toList ≠ [] ∧ o.toList ≠ []) ∨
    ∃ m' o' a', m.append o a = .ok (m', o', a') ∧ m'.WF ∧ o'.WF ∧ o'.toList = [] ∧ (a.Good → a'.Good) ∧
      m'.toList = mergeIter m.toList o.toList := by
  have h0 : ∀ {m : Map K V}, m.WF → (m.len = 0 ↔ m.toList = []) := by
    intro m hm
    have := hm.len
    simp only [Map.len, this, Nat.add_zero, List.length_eq_zero_iff]
  unfold Map.append
  by_cases ho0 : o.len = 0
  · have := (h0 ho).1 ho0
    exact .inr ⟨m, o, a, by simp [ho0], hm, ho, this, id, by rw [this, mergeIter_nil_right]⟩
  · by_cases hm0 : m.len = 0
    · have := (h0 hm).1 hm0
      exact .inr ⟨o, m, a, by simp [ho0, hm0], ho, hm, this, id, by rw [this, mergeIter_nil_left]⟩
    · simp only [ho0, hm0, if_false, Map.toListE_spec hm, Map.toListE_spec ho, Exec.ok_bind]
      rcases Map.ofSorted_spec (mergeIter m.toList o.toList) a with ⟨⟨msg, g1⟩, g2⟩ | ⟨m', a', g1, g2, g3, _, g4⟩
      · exact .inl ⟨⟨msg, by simp [g1]⟩, g2, fun h => hm0 ((h0 hm).2 h), fun h => ho0 ((h0 ho).2 h)⟩
      · exact .inr ⟨m', Map.new, a', by simp [g1], g2, Map.WF_new, rfl, g4, g3⟩

/-- `append` of ordered maps. -/
theorem Map.append_ordered [Ord K] [Std.TransOrd K] {m o : Map K V} (hm : m.Valid) (ho : o.Valid) (a : Alloc) :
    ((∃ msg, m.append o a = .panic msg) ∧ ¬ a.Good) ∨
    ∃ m' o' a', m.append o a = .ok (m', o', a') ∧ m'.Valid ∧ o'.Valid ∧ o'.toList = [] ∧ (a.Good → a'.Good) ∧
      Spec.union m.toList o.toList m'.toList := by
  rcases Map.append_wf hm.toShaped ho.toShaped a with ⟨h1, h2, _⟩ | ⟨m', o', a', h1, h2, h3, h4, h5, h6⟩
  · exact .inl ⟨h1, h2⟩
  · have hu := mergeIter_spec m.toList o.toList hm.sorted ho.sorted
    refine .inr ⟨m', o', a', h1, ⟨h2, by rw [h6]; exact hu.1⟩, ⟨h3, by rw [h4]; simp [Sorted]⟩, h4, h5, by rw [h6]; exact hu⟩

end Verif.BTree
