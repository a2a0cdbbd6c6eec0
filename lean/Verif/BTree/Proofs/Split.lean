import Verif.BTree.Proofs.RangeSearch
/-
`split_off`: cutting along a path, mending the two borders, recounting.
-/
namespace Verif.BTree
open Verif Verif.Spec

variable {K V Q : Type}

/-- Shape of a tree whose right border may be short of pairs. -/
inductive RSpine : Nat → Tree K V → Prop
  | leaf (ks : List (K × V)) : RSpine 0 ⟨ks, []⟩
  | node {h : Nat} (ks : List (K × V)) (X : List (Tree K V)) (c : Tree K V) (hX : X.length = ks.length)
      (hXi : ∀ d ∈ X, Inner h d) (hlen : c.len ≤ 11) (hc : RSpine h c) : RSpine (h + 1) ⟨ks, X ++ [c]⟩

/-- Shape of a tree whose left border may be short of pairs. -/
inductive LSpine : Nat → Tree K V → Prop
  | leaf (ks : List (K × V)) : LSpine 0 ⟨ks, []⟩
  | node {h : Nat} (ks : List (K × V)) (c : Tree K V) (Y : List (Tree K V)) (hY : Y.length = ks.length)
      (hYi : ∀ d ∈ Y, Inner h d) (hlen : c.len ≤ 11) (hc : LSpine h c) : LSpine (h + 1) ⟨ks, c :: Y⟩

theorem fixTop_spec (P : Nat → Tree K V → Prop)
    (hP : ∀ h t, P (h + 1) t → t.len = 0 → ∃ c, t = ⟨[], [c]⟩ ∧ P h c ∧ c.len ≤ 11) {h : Nat} {t : Tree K V}
    (hp : P h t) (hl : t.len ≤ 11) :
    ∃ h' t', fixTop h t = .ok (h', t') ∧ P h' t' ∧ toList h' t' = toList h t ∧ t'.len ≤ 11 ∧ (0 < h' → 1 ≤ t'.len) ∧
      (h = 0 → h' = 0 ∧ t' = t) := by
  induction h generalizing t with
  | zero => exact ⟨0, t, rfl, hp, rfl, hl, by simp, fun _ => ⟨rfl, rfl⟩⟩
  | succ h ih =>
    by_cases h0 : 0 < t.len
    · exact ⟨h + 1, t, by simp [fixTop, h0], hp, rfl, hl, fun _ => h0, by omega⟩
    · obtain ⟨c, rfl, hc, hcl⟩ := hP h t hp (by omega)
      obtain ⟨h', t', h1, h2, h3, h4, h5, _⟩ := ih hc hcl
      refine ⟨h', t', ?_, h2, ?_, h4, h5, by omega⟩
      · simp [fixTop, Tree.len, getE, h1]
      · rw [h3]; simp [toList_succ, inter]

theorem RSpine.pop {h : Nat} {t : Tree K V} (hs : RSpine (h + 1) t) (h0 : t.len = 0) :
    ∃ c, t = ⟨[], [c]⟩ ∧ RSpine h c ∧ c.len ≤ 11 := by
  cases hs with
  | node ks X c hX hXi hlen hc =>
    have : ks = [] := by simpa [Tree.len] using h0
    subst this
    have : X = [] := by simpa using hX
    subst this
    exact ⟨c, rfl, hc, hlen⟩

theorem LSpine.pop {h : Nat} {t : Tree K V} (hs : LSpine (h + 1) t) (h0 : t.len = 0) :
    ∃ c, t = ⟨[], [c]⟩ ∧ LSpine h c ∧ c.len ≤ 11 := by
  cases hs with
  | node ks c Y hY hYi hlen hc =>
    have : ks = [] := by simpa [Tree.len] using h0
    subst this
    have : Y = [] := by simpa using hY
    subst this
    exact ⟨c, rfl, hc, hlen⟩

theorem Below.pop {h : Nat} {t : Tree K V} (hs : Below (h + 1) t) (h0 : t.len = 0) :
    ∃ c, t = ⟨[], [c]⟩ ∧ Below h c ∧ c.len ≤ 11 := by
  obtain ⟨ks, es⟩ := t
  have : ks = [] := by simpa [Tree.len] using h0
  subst this
  match es, hs.1 with
  | [c], _ =>
    have := hs.2 c (by simp)
    exact ⟨c, rfl, this.2.2, this.2.1⟩

/-- `fix_right_border` below the root. -/
theorem fixRightLoop_spec {h : Nat} {t : Tree K V} (hs : RSpine h t) (hl : 0 < h → 1 ≤ t.len) :
    ∃ t', fixRightLoop h t = .ok t' ∧ toList h t' = toList h t ∧ Below h t' ∧
      t'.len ≤ t.len ∧ t.len ≤ t'.len + 1 ∧ (h = 0 → t' = t) := by
  induction h generalizing t with
  | zero =>
    cases hs with
    | leaf ks => exact ⟨_, rfl, rfl, rfl, Nat.le_refl _, by simp, fun _ => rfl⟩
  | succ h ih =>
    cases hs with
    | node ks X r hX hXi hrl hc =>
    rcases List.eq_nil_or_concat ks with rfl | ⟨A, kv, rfl⟩
    · simp at hl
    rcases List.eq_nil_or_concat X with rfl | ⟨X, l, rfl⟩
    · simp at hX
    simp only [List.concat_eq_append, List.append_assoc, List.singleton_append] at hX hXi ⊢
    have hX' : X.length = A.length := by simpa using hX
    have hli : Inner h l := hXi l (by simp)
    have hXi' : ∀ d ∈ X, Inner h d := fun d hd => hXi d (by simp [hd])
    have hrE : EdgesOK h r := by
      cases hc with
      | leaf ks => rfl
      | node ks X c hX hXi hlen hc => simpa [EdgesOK, Tree.len] using hX
    have hidx : (⟨A ++ [kv], X ++ [l, r]⟩ : Tree K V).len - 1 = X.length := by simp [hX']
    have hlen0 : 0 < (⟨A ++ [kv], X ++ [l, r]⟩ : Tree K V).len := by simp
    have hcm := canMerge_split (A := A) (C := []) (kv := kv) (X := X) (Y := []) (l := l) (r := r) hX'
    have htl := toList_split_kv (h := h) (A := A) (C := []) (X := X) (Y := []) (l := l) (r := r) (kv := kv) hX'
    simp only [postT_nil, List.append_nil] at htl
    unfold fixRightLoop
    simp only [hidx, hlen0, decide_true, require_true, Exec.ok_bind, hcm]
    -- what is left to do once the right-most child is `c`
    by_cases hm : l.len + r.len + 1 ≤ 11
    · have hj := merge_split (A := A) (C := []) (kv := kv) (X := X) (Y := []) (l := l) (r := r) hX' hm
      simp only [hm, decide_true, if_true, hj, Exec.ok_bind, getE_append, List.append_nil]
      have hsj : RSpine h (join l kv r) := by
        cases hc with
        | leaf ks =>
          obtain ⟨lk, le⟩ := l
          have : le = [] := hli.2.2
          subst this
          exact .leaf _
        | @node h' ks Xr c hXr hXri hlen hc =>
          obtain ⟨lk, le⟩ := l
          have hle := hli.2.2.1
          simp only [len_mk] at hle
          have := RSpine.node (lk ++ kv :: ks) (le ++ Xr) c (by simp [hle, hXr]; omega)
            (by
              intro d hd
              rcases List.mem_append.1 hd with hd | hd
              · exact hli.2.2.2 d hd
              · exact hXri d hd) hlen hc
          simpa [join] using this
      have hjl : (join l kv r).len = l.len + r.len + 1 := len_join l kv r
      have hl4 := hli.1
      obtain ⟨c', g1, g2, g3, g4, g5, g6⟩ := ih hsj (fun _ => by omega)
      refine ⟨⟨A, X ++ [c']⟩, by simp [g1], ?_, ⟨by simp [hX'], ?_⟩, by simp, by simp, by omega⟩
      · have := toList_split (h := h) (A := A) (C := []) (X := X) (Y := []) (c := c') hX'
        simp only [postT_nil, List.append_nil] at this
        rw [this, htl, g2, toList_join kv hli.2.2.edgesOK hrE]
      · intro d hd
        simp only [List.mem_append, List.mem_singleton] at hd
        rcases hd with hd | rfl
        · exact hXi' d hd
        · exact ⟨by omega, by omega, g3⟩
    · simp only [hm, decide_false, Bool.false_eq_true, if_false, getE_append_succ, Exec.ok_bind]
      -- stealing or not
      have key : ∃ l' kv' r', (if r.len < MIN_LEN + 1 then
            bulkStealLeft ⟨A ++ [kv], X ++ [l, r]⟩ X.length (MIN_LEN + 1 - r.len)
            else .ok ⟨A ++ [kv], X ++ [l, r]⟩) = .ok (⟨A ++ [kv'], X ++ [l', r']⟩ : Tree K V) ∧
          Inner h l' ∧ RSpine h r' ∧ EdgesOK h r' ∧ 6 ≤ r'.len ∧ r'.len ≤ 11 ∧
          toList h l' ++ kv' :: toList h r' = toList h l ++ kv :: toList h r := by
        by_cases h6 : r.len < 6
        · have hl11 := hli.2.1
          obtain ⟨l', kv', r', g1, g2, g3, g4⟩ := bulkStealLeft_split (h := h) (A := A) (C := []) (kv := kv) (X := X)
            (Y := []) (l := l) (r := r) (count := 6 - r.len) hX' hli.2.2.edgesOK hrE (by omega) (by omega) (by omega)
          obtain ⟨r1, r2, r3⟩ := g2
          have hl' : Inner h l' := by
            refine ⟨by omega, by omega, ?_⟩
            cases h with
            | zero => exact r1
            | succ h =>
              refine ⟨r1, fun d hd => ?_⟩
              have hE : l'.edges ++ r'.edges = l.edges ++ r.edges := congrArg Tree.edges r3
              -- the left part keeps a prefix of the left child's edges
              have hlen : l'.edges.length ≤ l.edges.length := by
                have e1 : l'.edges.length = l'.len + 1 := r1
                have e2 : l.edges.length = l.len + 1 := hli.2.2.1
                omega
              have : l'.edges = l.edges.take l'.edges.length := by
                have := congrArg (List.take l'.edges.length) hE
                rwa [List.take_left' rfl, List.take_append_of_le_length hlen] at this
              rw [this] at hd
              exact hli.2.2.2 d (List.mem_of_mem_take hd)
          have hr' : RSpine h r' := by
            cases hc with
            | leaf ks =>
              obtain ⟨rk, re⟩ := r'
              have : re = [] := r2
              subst this
              exact .leaf _
            | @node h' ks Xr c hXr hXri hlen hc =>
              obtain ⟨rk, re⟩ := r'
              have hE : l'.edges ++ re = l.edges ++ (Xr ++ [c]) := congrArg Tree.edges r3
              have e1 : l'.edges.length = l'.len + 1 := r1
              have e2 : l.edges.length = l.len + 1 := hli.2.2.1
              have hlen' : l'.edges.length ≤ l.edges.length := by omega
              have : re = l.edges.drop l'.edges.length ++ Xr ++ [c] := by
                have := congrArg (List.drop l'.edges.length) hE
                rwa [List.drop_left' rfl, List.drop_append_of_le_length hlen', ← List.append_assoc] at this
              subst this
              refine .node rk _ c ?_ ?_ hlen hc
              · simp [EdgesOK] at r2; simp; omega
              · intro d hd
                rcases List.mem_append.1 hd with hd | hd
                · exact hli.2.2.2 d (List.mem_of_mem_drop hd)
                · exact hXri d hd
          exact ⟨l', kv', r', by simpa [h6] using g1, hl', hr', r2, by omega, by omega,
            toList_rotate hli.2.2.edgesOK hrE r1 r2 r3⟩
        · exact ⟨l, kv, r, by simp [h6], hli, hc, hrE, by omega, hrl, rfl⟩
      obtain ⟨l', kv', r', g0, gl, gr, grE, g6, g11, gt⟩ := key
      rw [g0]
      simp only [Exec.ok_bind, getE_append_succ]
      obtain ⟨c', g1, g2, g3, g4, g5, _⟩ := ih gr (fun _ => by omega)
      refine ⟨⟨A ++ [kv'], X ++ [l', c']⟩, by simp [g1], ?_, ⟨by simp [hX'], ?_⟩, by simp, by simp, by omega⟩
      · have := toList_split_kv (h := h) (A := A) (C := []) (X := X) (Y := []) (l := l') (r := c') (kv := kv') hX'
        simp only [postT_nil, List.append_nil] at this
        rw [this, htl, g2, gt]
      · intro d hd
        simp only [List.mem_append, List.mem_cons, List.not_mem_nil, or_false] at hd
        rcases hd with hd | rfl | rfl
        · exact hXi' d hd
        · exact gl
        · exact ⟨by omega, by omega, g3⟩

/-- `fix_left_border` below the root. -/
theorem fixLeftLoop_spec {h : Nat} {t : Tree K V} (hs : LSpine h t) (hl : 0 < h → 1 ≤ t.len) :
    ∃ t', fixLeftLoop h t = .ok t' ∧ toList h t' = toList h t ∧ Below h t' ∧
      t'.len ≤ t.len ∧ t.len ≤ t'.len + 1 ∧ (h = 0 → t' = t) := by
  induction h generalizing t with
  | zero =>
    cases hs with
    | leaf ks => exact ⟨_, rfl, rfl, rfl, Nat.le_refl _, by simp, fun _ => rfl⟩
  | succ h ih =>
    cases hs with
    | node ks l Y hY hYi hll hc =>
    cases ks with
    | nil => simp at hl
    | cons kv C =>
    cases Y with
    | nil => simp at hY
    | cons r Y =>
    have hY' : Y.length = C.length := by simpa using hY
    have hri : Inner h r := hYi r (by simp)
    have hYi' : ∀ d ∈ Y, Inner h d := fun d hd => hYi d (by simp [hd])
    have hlE : EdgesOK h l := by
      cases hc with
      | leaf ks => rfl
      | node ks c Y hY hYi hlen hc => simpa [EdgesOK, Tree.len] using hY
    have hlen0 : 0 < (⟨kv :: C, l :: r :: Y⟩ : Tree K V).len := by simp
    have hcm := canMerge_split (A := []) (C := C) (kv := kv) (X := []) (Y := Y) (l := l) (r := r) rfl
    have htl := toList_split_kv (h := h) (A := []) (C := C) (X := []) (Y := Y) (l := l) (r := r) (kv := kv) rfl
    simp only [preT_nil, List.nil_append, List.length_nil] at htl hcm
    have hg0 : ∀ {α : Type} (x : α) (l : List α), getE (x :: l) 0 = .ok x := by intros; rfl
    have hs0 : ∀ {α : Type} (x y : α) (l : List α), setE (x :: l) 0 y = .ok (y :: l) := by
      intro α x y l; simpa using setE_append [] x y l
    unfold fixLeftLoop
    simp only [hlen0, decide_true, require_true, Exec.ok_bind, hcm]
    by_cases hm : l.len + r.len + 1 ≤ 11
    · have hj := merge_split (A := []) (C := C) (kv := kv) (X := []) (Y := Y) (l := l) (r := r) rfl hm
      simp only [List.nil_append, List.length_nil] at hj
      simp only [hm, decide_true, if_true, hj, Exec.ok_bind, hg0]
      have hsj : LSpine h (join l kv r) := by
        cases hc with
        | leaf ks =>
          obtain ⟨rk, re⟩ := r
          have : re = [] := hri.2.2
          subst this
          exact .leaf _
        | @node h' ks c Yl hYl hYli hlen hc =>
          obtain ⟨rk, re⟩ := r
          have hre := hri.2.2.1
          simp only [len_mk] at hre
          have := LSpine.node (ks ++ kv :: rk) c (Yl ++ re) (by simp [hre, hYl])
            (by
              intro d hd
              rcases List.mem_append.1 hd with hd | hd
              · exact hYli d hd
              · exact hri.2.2.2 d hd) hlen hc
          simpa [join] using this
      have hjl : (join l kv r).len = l.len + r.len + 1 := len_join l kv r
      have hr4 := hri.1
      obtain ⟨c', g1, g2, g3, g4, g5, g6⟩ := ih hsj (fun _ => by omega)
      refine ⟨⟨C, c' :: Y⟩, by simp [g1, hs0], ?_, ⟨by simp [hY'], ?_⟩, by simp, by simp, by omega⟩
      · have := toList_split (h := h) (A := []) (C := C) (X := []) (Y := Y) (c := c') rfl
        simp only [preT_nil, List.nil_append] at this
        rw [this, htl, g2, toList_join kv hlE hri.2.2.edgesOK]
        simp
      · intro d hd
        simp only [List.mem_cons] at hd
        rcases hd with rfl | hd
        · exact ⟨by omega, by omega, g3⟩
        · exact hYi' d hd
    · simp only [hm, decide_false, Bool.false_eq_true, if_false, hg0, Exec.ok_bind]
      have key : ∃ l' kv' r', (if l.len < MIN_LEN + 1 then
            bulkStealRight ⟨kv :: C, l :: r :: Y⟩ 0 (MIN_LEN + 1 - l.len)
            else .ok ⟨kv :: C, l :: r :: Y⟩) = .ok (⟨kv' :: C, l' :: r' :: Y⟩ : Tree K V) ∧
          LSpine h l' ∧ EdgesOK h l' ∧ Inner h r' ∧ 6 ≤ l'.len ∧ l'.len ≤ 11 ∧
          toList h l' ++ kv' :: toList h r' = toList h l ++ kv :: toList h r := by
        by_cases h6 : l.len < 6
        · have hr11 := hri.2.1
          obtain ⟨l', kv', r', g1, g2, g3, g4⟩ := bulkStealRight_split (h := h) (A := []) (C := C) (kv := kv) (X := [])
            (Y := Y) (l := l) (r := r) (count := 6 - l.len) rfl hlE hri.2.2.edgesOK (by omega) (by omega) (by omega)
          obtain ⟨r1, r2, r3⟩ := g2
          have hE : l'.edges ++ r'.edges = l.edges ++ r.edges := congrArg Tree.edges r3
          have hr' : Inner h r' := by
            refine ⟨by omega, by omega, ?_⟩
            cases h with
            | zero => exact r2
            | succ h =>
              refine ⟨r2, fun d hd => ?_⟩
              have hlen : l.edges.length ≤ l'.edges.length := by
                have e1 : l'.edges.length = l'.len + 1 := r1
                have e2 : l.edges.length = l.len + 1 := hlE
                omega
              have : r'.edges = r.edges.drop (l'.edges.length - l.edges.length) := by
                have := congrArg (List.drop l'.edges.length) hE
                rwa [List.drop_left' rfl, List.drop_append, List.drop_eq_nil_of_le hlen, List.nil_append] at this
              rw [this] at hd
              exact hri.2.2.2 d (List.mem_of_mem_drop hd)
          have hl' : LSpine h l' := by
            cases hc with
            | leaf ks =>
              obtain ⟨lk, le⟩ := l'
              have : le = [] := r1
              subst this
              exact .leaf _
            | @node h' ks c Yl hYl hYli hlen hc =>
              obtain ⟨lk, le⟩ := l'
              cases le with
              | nil => simp [EdgesOK] at r1
              | cons c' le =>
              simp only [List.cons_append, List.cons.injEq] at hE
              obtain ⟨rfl, hE⟩ := hE
              refine .node lk c' le ?_ ?_ hlen hc
              · simpa [EdgesOK] using r1
              · intro d hd
                have : d ∈ Yl ++ r.edges := by rw [← hE]; simp [hd]
                rcases List.mem_append.1 this with hd | hd
                · exact hYli d hd
                · exact hri.2.2.2 d hd
          exact ⟨l', kv', r', by simpa [h6] using g1, hl', r1, hr', by omega, by omega,
            toList_rotate hlE hri.2.2.edgesOK r1 r2 r3⟩
        · exact ⟨l, kv, r, by simp [h6], hc, hlE, hri, by omega, hll, rfl⟩
      obtain ⟨l', kv', r', g0, gl, glE, gr, g6, g11, gt⟩ := key
      rw [g0]
      simp only [Exec.ok_bind, hg0]
      obtain ⟨c', g1, g2, g3, g4, g5, _⟩ := ih gl (fun _ => by omega)
      refine ⟨⟨kv' :: C, c' :: r' :: Y⟩, by simp [g1, hs0], ?_, ⟨by simp [hY'], ?_⟩, by simp, by simp, by omega⟩
      · have := toList_split_kv (h := h) (A := []) (C := C) (X := []) (Y := Y) (l := c') (r := r') (kv := kv') rfl
        simp only [preT_nil, List.nil_append] at this
        rw [this, htl, g2]
        have := congrArg (· ++ postT h C Y) gt
        simpa using this
      · intro d hd
        simp only [List.mem_cons] at hd
        rcases hd with rfl | rfl | hd
        · exact ⟨by omega, by omega, g3⟩
        · exact gr
        · exact hYi' d hd

theorem fixRightBorder_spec {h : Nat} {t : Tree K V} (hs : RSpine h t) (hl : t.len ≤ 11) :
    ∃ h' t', fixRightBorder (h, t) = .ok (h', t') ∧ RootOK h' t' ∧ toList h' t' = toList h t ∧
      (h = 0 → h' = 0 ∧ t' = t) := by
  obtain ⟨h1, t1, e1, p1, l1, n1, m1, z1⟩ := fixTop_spec RSpine (fun _ _ => RSpine.pop) hs hl
  obtain ⟨t2, e2, l2, p2, n2, _, z2⟩ := fixRightLoop_spec p1 m1
  obtain ⟨h3, t3, e3, p3, l3, n3, m3, z3⟩ := fixTop_spec Below (fun _ _ => Below.pop) p2 (by omega)
  refine ⟨h3, t3, by simp [fixRightBorder, e1, e2, e3], ⟨n3, m3, p3⟩, by rw [l3, l2, l1], fun h0 => ?_⟩
  obtain ⟨rfl, rfl⟩ := z1 h0
  have := z2 rfl
  subst this
  exact z3 rfl

theorem fixLeftBorder_spec {h : Nat} {t : Tree K V} (hs : LSpine h t) (hl : t.len ≤ 11) :
    ∃ h' t', fixLeftBorder (h, t) = .ok (h', t') ∧ RootOK h' t' ∧ toList h' t' = toList h t := by
  obtain ⟨h1, t1, e1, p1, l1, n1, m1, z1⟩ := fixTop_spec LSpine (fun _ _ => LSpine.pop) hs hl
  obtain ⟨t2, e2, l2, p2, n2, _, z2⟩ := fixLeftLoop_spec p1 m1
  obtain ⟨h3, t3, e3, p3, l3, n3, m3, z3⟩ := fixTop_spec Below (fun _ _ => Below.pop) p2 (by omega)
  exact ⟨h3, t3, by simp [fixLeftBorder, e1, e2, e3], ⟨n3, m3, p3⟩, by rw [l3, l2, l1]⟩

/-! ### the cut -/

theorem splitLoop_succ [Ord Q] (bor : K → Q) (q : Q) {h : Nat} {A C : List (K × V)} {X Y : List (Tree K V)}
    {c : Tree K V} (hA : A.length = (searchLinear bor q (A ++ C)).1) (hX : X.length = A.length) :
    splitLoop bor q (h + 1) ⟨A ++ C, X ++ c :: Y⟩ (emptySpine (h + 1)) =
      (splitLoop bor q h c (emptySpine h) >>= fun lr => .ok (⟨A, X ++ [lr.1]⟩, ⟨C, lr.2 :: Y⟩)) := by
  have t1 : (A ++ C).take A.length = A := by simp
  have t2 : (A ++ C).drop A.length = C := by simp
  have t3 : (X ++ c :: Y).take (A.length + 1) = X ++ [c] := by
    rw [← hX, List.take_append, List.take_of_length_le (Nat.le_succ _)]; simp
  have t4 : (X ++ c :: Y).drop (A.length + 1) = Y := by
    rw [← hX, List.drop_append, List.drop_eq_nil_of_le (Nat.le_succ _)]; simp
  have t5 : getE (X ++ [c]) A.length = .ok c := by rw [← hX]; simp
  have t6 : ∀ cl, setE (X ++ [c]) A.length cl = .ok (X ++ [cl]) := by intro cl; rw [← hX]; simp
  have t7 : ∀ cr : Tree K V, setE (emptySpine h :: Y) 0 cr = .ok (cr :: Y) := by
    intro cr; simpa using setE_append [] (emptySpine h) cr Y
  have t8 : getE (emptySpine h :: Y) 0 = .ok (emptySpine h : Tree K V) := rfl
  simp [splitLoop, Tree.moveSuffix, emptySpine, Tree.len, ← hA, t1, t2, t3, t4, t5, t6, t7, t8]

theorem splitLoop_spec [Ord Q] (bor : K → Q) (q : Q) {h : Nat} {t : Tree K V} (hb : Below h t) (hl : t.len ≤ 11) :
    ∃ l r, splitLoop bor q h t (emptySpine h) = .ok (l, r) ∧ RSpine h l ∧ LSpine h r ∧ l.len ≤ 11 ∧ r.len ≤ 11 ∧
      toList h l ++ toList h r = toList h t := by
  induction h generalizing t with
  | zero =>
    obtain ⟨A, C, hf⟩ := searchLinear_spec bor q t.kvs
    obtain ⟨ks, es⟩ := t
    have : es = [] := hb
    subst this
    have hi := hf.idx_le
    simp only [len_mk] at hl
    refine ⟨⟨ks.take (searchLinear bor q ks).1, []⟩, ⟨ks.drop (searchLinear bor q ks).1, []⟩, ?_, .leaf _, .leaf _,
      by simp; omega, by simp; omega, by simp⟩
    simp [splitLoop, Tree.moveSuffix, emptySpine, emptyLeaf, Tree.len, hi]
  | succ h ih =>
    obtain ⟨A', C', hf⟩ := searchLinear_spec bor q t.kvs
    have hi := hf.idx_le
    obtain ⟨A, C, X, c, Y, rfl, hA, hX, hY⟩ := split_edge hb.1 (i := (searchLinear bor q t.kvs).1) hi
    obtain ⟨hXi, hci, hYi⟩ := mem_edges_split hb.2
    obtain ⟨cl, cr, g1, g2, g3, g4, g5, g6⟩ := ih hci.2.2 hci.2.1
    simp only [len_mk, List.length_append] at hl hi
    have hX' : X.length = A.length := by omega
    refine ⟨⟨A, X ++ [cl]⟩, ⟨C, cr :: Y⟩, ?_, .node A X cl hX' hXi g4 g2, .node C cr Y hY hYi g5 g3,
      by simp; omega, by simp; omega, ?_⟩
    · rw [splitLoop_succ bor q hA hX', g1]; rfl
    · have e1 := toList_split (h := h) (A := A) (C := []) (X := X) (Y := []) (c := cl) hX'
      have e2 := toList_split (h := h) (A := []) (C := C) (X := []) (Y := Y) (c := cr) rfl
      simp only [postT_nil, preT_nil, List.append_nil, List.nil_append] at e1 e2
      rw [e1, e2, toList_split hX', ← g6]; simp

theorem Found.head [Ord Q] {bor : K → Q} {q : Q} {kvs : List (K × V)} {i b A kv C}
    (hf : Found bor q kvs i b A (kv :: C)) : compare q (bor kv.1) ≠ .gt := by
  cases b with
  | true => obtain ⟨kv', C', e, h⟩ := hf.hit rfl; cases e; simp [h]
  | false =>
    rcases hf.miss rfl with e | ⟨kv', C', e, h⟩
    · simp at e
    · cases e; simp [h]

/-- In a sorted tree the cut is at the key. -/
theorem splitLoop_sorted [Ord K] [Ord Q] [Std.TransOrd Q] {bor : K → Q} (hbo : BorrowOK bor) (q : Q) {h : Nat}
    {t l r : Tree K V} (hb : Below h t) (hs : Sorted (toList h t))
    (he : splitLoop bor q h t (emptySpine h) = .ok (l, r)) :
    (∀ a ∈ toList h l, compare q (bor a.1) = .gt) ∧ (∀ b ∈ toList h r, compare q (bor b.1) ≠ .gt) := by
  induction h generalizing t l r with
  | zero =>
    obtain ⟨A, C, hf⟩ := searchLinear_spec bor q t.kvs
    obtain ⟨ks, es⟩ := t
    have : es = [] := hb
    subst this
    have hi := hf.idx_le
    have hsp := hf.split
    have hln := hf.len
    simp only at hsp hln hi
    simp [splitLoop, Tree.moveSuffix, emptySpine, emptyLeaf, Tree.len, hi] at he
    obtain ⟨rfl, rfl⟩ := he
    have e1 : ks.take (searchLinear bor q ks).1 = A := by rw [← hln]; simp [hsp]
    have e2 : ks.drop (searchLinear bor q ks).1 = C := by rw [← hln]; simp [hsp]
    simp only [toList_zero, e1, e2]
    refine ⟨hf.before, ?_⟩
    cases C with
    | nil => simp
    | cons c C =>
      rw [toList_zero, hsp] at hs
      intro b hbm
      rcases List.mem_cons.1 hbm with rfl | hbm
      · exact hf.head
      · rw [all_lt_of_head hbo hs hf.head b hbm]; simp
  | succ h ih =>
    obtain ⟨A', C', hf⟩ := searchLinear_spec bor q t.kvs
    obtain ⟨A, C, X, c, Y, rfl, hA, hX, hY⟩ := split_edge hb.1 (i := (searchLinear bor q t.kvs).1) hf.idx_le
    obtain ⟨hXi, hci, hYi⟩ := mem_edges_split hb.2
    obtain ⟨rfl, rfl⟩ : A = A' ∧ C = C' := List.append_inj hf.split (by rw [hA, hf.len])
    have hX' : X.length = A.length := by omega
    rw [splitLoop_succ bor q hA hX'] at he
    obtain ⟨⟨cl, cr⟩, g1, g2⟩ := Exec.bind_eq_ok.1 he
    simp only [Exec.ok.injEq, Prod.mk.injEq] at g2
    obtain ⟨rfl, rfl⟩ := g2
    rw [toList_split hX'] at hs
    have hsc : Sorted (toList h c) := (Sorted.append_iff.1 (Sorted.append_iff.1 hs).2.1).1
    obtain ⟨i1, i2⟩ := ih hci.2.2 hsc g1
    have e1 := toList_split (h := h) (A := A) (C := []) (X := X) (Y := []) (c := cl) hX'
    have e2 := toList_split (h := h) (A := []) (C := C) (X := []) (Y := Y) (c := cr) rfl
    simp only [postT_nil, preT_nil, List.append_nil, List.nil_append] at e1 e2
    rw [e1, e2]
    constructor
    · intro a ha
      rcases List.mem_append.1 ha with ha | ha
      · rcases List.eq_nil_or_concat A with rfl | ⟨A1, k, rfl⟩
        · simp at ha
        · rcases List.eq_nil_or_concat X with rfl | ⟨X1, x, rfl⟩
          · simp at hX'
          · simp only [List.concat_eq_append] at hs hf ha
            rw [preT_concat (by simpa using hX')] at hs ha
            have hk : compare q (bor k.1) = .gt := hf.before k (by simp)
            rw [List.append_assoc, List.singleton_append] at hs
            have := all_gt_of_last (q := q) hbo hs (by simp [hk])
            rcases List.mem_append.1 ha with ha | ha
            · exact this a ha
            · rw [List.mem_singleton.1 ha]; exact hk
      · exact i1 a ha
    · intro b hbm
      rcases List.mem_append.1 hbm with hbm | hbm
      · exact i2 b hbm
      · cases C with
        | nil => simp at hbm
        | cons kv C =>
        cases Y with
        | nil => simp at hY
        | cons y Y =>
          rw [postT_cons] at hs hbm
          rw [← List.append_assoc] at hs
          have := all_lt_of_head (q := q) hbo hs hf.head
          rcases List.mem_cons.1 hbm with rfl | hbm
          · exact hf.head
          · rw [this b hbm]; simp

/-! ### counting -/

theorem dfsLen_spec {h : Nat} {t : Tree K V} (hb : Below h t) : dfsLen h t = .ok (toList h t).length := by
  induction h generalizing t with
  | zero => rfl
  | succ h ih =>
    have hfold : ∀ (es : List (Tree K V)) (acc : Nat), (∀ c ∈ es, Inner h c) →
        es.foldlM (fun acc c => do
          let n ← dfsLen h c
          Exec.ok (acc + n)) acc = .ok (acc + ((es.map (toList h)).map List.length).sum) := by
      intro es
      induction es with
      | nil => intro acc _; simp
      | cons e es ihe =>
        intro acc hes
        have h1 := ih (hes e (by simp)).2.2
        have h2 := ihe (acc + (toList h e).length) (fun c hc => hes c (by simp [hc]))
        simp only [List.foldlM_cons, h1, Exec.ok_bind, h2, List.map_cons, List.sum_cons]
        congr 1; omega
    have hb1 := hb.1
    simp only [dfsLen, hb1, decide_true, require_true, Exec.ok_bind]
    rw [hfold t.edges t.len hb.2, toList_succ, length_inter_ge (by simpa [Tree.len] using hb1)]
    simp [Tree.len]

/-! ### split_off -/

theorem requests_good {a : Alloc} (h : a.Good) (n : Nat) :
    (Alloc.requests n a).1 = true ∧ (Alloc.requests n a).2.Good := by
  induction n generalizing a with
  | zero => exact ⟨rfl, h⟩
  | succ n ih =>
    have := ih h.tail
    simp only [Alloc.requests]
    rw [show a.request = (a.request.1, a.request.2) from rfl]
    simp only [h.head, if_true]
    exact this

/-- `split_off` with any `Ord`: the two results are structurally valid and share out the contents; on an allocation
failure nothing changes. -/
theorem Map.splitOff_wf [Ord Q] {x : Nat} {m : Map K V} (h : m.Shaped x) (bor : K → Q) (q : Q) (a : Alloc) :
    ∃ r m' a', m.splitOff bor q a = .ok (r, m', a') ∧
      (match r with
       | .error _ => m' = m
       | .ok right => (∃ x1 x2, x1 + x2 = x ∧ m'.Shaped x1 ∧ right.Shaped x2) ∧ m.toList = m'.toList ++ right.toList ∧
           (m.toList = [] ∨ ∃ l r, splitLoop bor q m.height m.root (emptySpine m.height) = .ok (l, r) ∧
             m'.toList = BTree.toList m.height l ∧ right.toList = BTree.toList m.height r)) ∧
      (a.Good → a'.Good ∧ ∃ right, r = .ok right) := by
  unfold Map.splitOff
  by_cases h0 : m.isEmpty = true
  · have hlen := h.len
    have : m.length = 0 := by simpa [Map.isEmpty, Map.len] using h0
    have hx : x = 0 := by omega
    have hl : m.toList = [] := List.eq_nil_of_length_eq_zero (by omega)
    subst hx
    exact ⟨.ok Map.new, m, a, by simp [h0], ⟨⟨0, 0, rfl, h, Map.WF_new⟩, by simp, .inl hl⟩, fun hg => ⟨hg, _, rfl⟩⟩
  · obtain ⟨s1, s2, s3⟩ := h.shape
    obtain ⟨l, r, e0, p1, p2, n1, n2, ht⟩ := splitLoop_spec bor q s3 s1
    obtain ⟨hl, l', e1, ok1, t1, z1⟩ := fixRightBorder_spec p1 n1
    obtain ⟨hr, r', e2, ok2, t2⟩ := fixLeftBorder_spec p2 n2
    have hlen := h.len
    have htot : m.toList = BTree.toList hl l' ++ BTree.toList hr r' := by rw [t1, t2, ht]; rfl
    have htl : m.toList.length = (BTree.toList hl l').length + (BTree.toList hr r').length := by rw [htot]; simp
    have hsh : m.shared = true → hl = 0 ∧ l' = emptyLeaf := by
      intro hs
      obtain ⟨k1, k2⟩ := h.shared hs
      obtain ⟨z2, z3⟩ := z1 k1
      refine ⟨z2, ?_⟩
      subst z3
      have : BTree.toList m.height l' = [] := by
        have : BTree.toList m.height m.root = [] := by rw [k1, k2]; rfl
        rw [this] at ht
        exact (List.append_eq_nil_iff.1 ht).1
      rw [k1] at this p1
      cases p1 with
      | leaf ks => simp at this; subst this; rfl
    cases hreq : Alloc.requests (m.height + 1) a with
    | mk granted a1 =>
    have hgood := fun hg : a.Good => requests_good hg (m.height + 1)
    rw [hreq] at hgood
    cases granted with
    | false =>
      exact ⟨.error .allocError, m, a1, by simp [h0], rfl, fun hg => absurd (hgood hg).1 (by simp)⟩
    | true =>
      simp only [h0, Bool.false_eq_true, if_false, if_true, e0, Exec.ok_bind, e1, e2,
        dfsLen_spec ok1.2.2, dfsLen_spec ok2.2.2]
      by_cases hlt : hl < hr
      · have hle : (BTree.toList hl l').length ≤ m.length := by omega
        refine ⟨.ok ⟨hr, r', false, m.length - (BTree.toList hl l').length⟩,
          ⟨hl, l', m.shared, (BTree.toList hl l').length⟩, a1, by simp [hlt, hle],
          ⟨⟨0, x, by omega, ⟨ok1, rfl, hsh, fun _ => rfl⟩, ⟨ok2, ?_, by simp, by simp⟩⟩, htot, .inr ⟨l, r, rfl, t1, t2⟩⟩,
          fun hg => ⟨(hgood hg).2, _, rfl⟩⟩
        show m.length - (BTree.toList hl l').length = (BTree.toList hr r').length + x
        omega
      · have hle : (BTree.toList hr r').length ≤ m.length := by omega
        refine ⟨.ok ⟨hr, r', false, (BTree.toList hr r').length⟩,
          ⟨hl, l', m.shared, m.length - (BTree.toList hr r').length⟩, a1, by simp [hlt, hle],
          ⟨⟨x, 0, by omega, ⟨ok1, ?_, hsh, h.tidy⟩, ⟨ok2, rfl, by simp, by simp⟩⟩, htot, .inr ⟨l, r, rfl, t1, t2⟩⟩,
          fun hg => ⟨(hgood hg).2, _, rfl⟩⟩
        show m.length - (BTree.toList hr r').length = (BTree.toList hl l').length + x
        omega

/-- `split_off` on an ordered map partitions it at the key. -/
theorem Map.splitOff_ordered [Ord K] [Ord Q] [Std.TransOrd Q] {bor : K → Q} (hbo : BorrowOK bor) {x : Nat}
    {m : Map K V} (h : m.Ordered x) (q : Q) (a : Alloc) :
    ∃ r m' a', m.splitOff bor q a = .ok (r, m', a') ∧
      (match r with
       | .error _ => m' = m
       | .ok right => (∃ x1 x2, x1 + x2 = x ∧ m'.Ordered x1 ∧ right.Ordered x2) ∧
           m'.toList = below bor q m.toList ∧ right.toList = atLeast bor q m.toList) ∧
      (a.Good → a'.Good ∧ ∃ right, r = .ok right) := by
  obtain ⟨r, m', a', h1, h2, h3⟩ := Map.splitOff_wf h.toShaped bor q a
  refine ⟨r, m', a', h1, ?_, h3⟩
  cases r with
  | error e => exact h2
  | ok right =>
    obtain ⟨⟨x1, x2, hx, s1, s2⟩, ht, hcut⟩ := h2
    have hs := h.sorted
    rw [ht] at hs
    obtain ⟨o1, o2, _⟩ := Sorted.append_iff.1 hs
    have hab : (∀ a ∈ m'.toList, compare q (bor a.1) = .gt) ∧ (∀ b ∈ right.toList, compare q (bor b.1) ≠ .gt) := by
      rcases hcut with h0 | ⟨l, r, e, g1, g2⟩
      · rw [ht] at h0
        obtain ⟨e1, e2⟩ := List.append_eq_nil_iff.1 h0
        simp [e1, e2]
      · rw [g1, g2]
        exact splitLoop_sorted hbo q h.below h.sorted e
    refine ⟨⟨x1, x2, hx, ⟨s1, o1⟩, ⟨s2, o2⟩⟩, ?_, ?_⟩
    · rw [ht, below, List.filter_append, List.filter_eq_self.2 (fun a ha => by simp [hab.1 a ha])]
      rw [List.filter_eq_nil_iff.2 (fun b hb => by simp [hab.2 b hb])]; simp
    · have f1 : m'.toList.filter (fun kv => compare q (bor kv.1) != .gt) = [] :=
        List.filter_eq_nil_iff.2 (fun a ha => by simp [hab.1 a ha])
      have f2 : right.toList.filter (fun kv => compare q (bor kv.1) != .gt) = right.toList :=
        List.filter_eq_self.2 (fun b hb => by simp [hab.2 b hb])
      rw [ht, atLeast, List.filter_append, f1, f2]; rfl

end Verif.BTree
