import Verif.BTree.Proofs.Pos
import Verif.Spec
/-
Insertion: what `insertRec` does at a leaf edge, for every allocator.
-/
namespace Verif.BTree
open Verif

variable {K V : Type}

theorem postT_join {h : Nat} {L : List (K × V)} {E : List (Tree K V)} {m : K × V} {R : Tree K V}
    (hE : E.length = L.length) (hR : EdgesOK (h + 1) R) :
    postT h (L ++ m :: R.kvs) (E ++ R.edges) = postT h L E ++ m :: toList (h + 1) R := by
  obtain ⟨rk, re⟩ := R
  cases re with
  | nil => simp [EdgesOK] at hR
  | cons e re =>
    rw [postT_append hE]
    simp [toList_succ, inter, postT]

theorem preT_join {h : Nat} {L : Tree K V} {R : List (K × V)} {E : List (Tree K V)} {m : K × V}
    (hL : EdgesOK (h + 1) L) :
    preT h (L.kvs ++ m :: R) (L.edges ++ E) = toList (h + 1) L ++ m :: preT h R E := by
  obtain ⟨lk, le⟩ := L
  simp only [EdgesOK, len_mk] at hL
  rcases List.eq_nil_or_concat le with rfl | ⟨le, e, rfl⟩
  · simp at hL
  · simp only [List.concat_eq_append] at hL ⊢
    have hl : le.length = lk.length := by simpa using hL
    have h1 : lk ++ m :: R = (lk ++ [m]) ++ R := by simp
    have h2 := toList_split (h := h) (A := lk) (C := []) (X := le) (c := e) (Y := []) hl
    simp only [List.append_nil] at h2
    rw [h1, preT_append (by simpa using hl), preT_concat hl, h2]
    simp

/-- A pair below edge `j` of a node that is cut in two. -/
theorem KvAt.cut {h : Nat} {L R T : Tree K V} {m : K × V} {j : Nat} {p idx A kv B}
    (hk : KvAt (h + 1) T (j :: p) idx A kv B) (hT : T = join L m R)
    (hL : EdgesOK (h + 1) L) (hR : EdgesOK (h + 1) R) :
    (j ≤ L.len → ∃ B', B = B' ++ m :: toList (h + 1) R ∧ KvAt (h + 1) L (j :: p) idx A kv B') ∧
    (L.len < j → ∃ A', A = toList (h + 1) L ++ m :: A' ∧ KvAt (h + 1) R ((j - (L.len + 1)) :: p) idx A' kv B) := by
  cases hk with
  | @child _ c _ _ Ac Bc _ A0 C0 X Y hX hY hc =>
  obtain ⟨lk, le⟩ := L
  obtain ⟨rk, re⟩ := R
  simp only [join, Tree.mk.injEq] at hT
  obtain ⟨hT1, hT2⟩ := hT
  simp only [EdgesOK, len_mk] at hL hR ⊢
  constructor
  · intro hj
    -- `A0` is a prefix of `lk`
    rcases List.append_eq_append_iff.1 hT1 with ⟨M, h1, h2⟩ | ⟨M, h1, h2⟩
    · rcases List.append_eq_append_iff.1 hT2 with ⟨N, h3, h4⟩ | ⟨N, h3, h4⟩
      · cases N with
        | nil => have := congrArg List.length h3; simp [h1] at hL this; omega
        | cons n N =>
          simp only [List.cons_append, List.cons.injEq] at h4
          obtain ⟨rfl, rfl⟩ := h4
          subst h1 h2 h3
          have hN : N.length = M.length := by simp at hL; omega
          refine ⟨Bc ++ postT h M N, ?_, .child A0 M X N hX hN hc⟩
          have := postT_join (h := h) (m := m) (R := ⟨rk, re⟩) hN (by simpa [EdgesOK] using hR)
          rw [this]; simp
      · subst h3; simp at hj hL; omega
    · subst h1
      have hM : M = [] := by simpa using (show M.length = 0 by simp at hX hj; omega)
      subst hM
      simp only [List.append_nil, List.nil_append] at h2 hX
      subst h2
      rcases List.append_eq_append_iff.1 hT2 with ⟨N, h3, h4⟩ | ⟨N, h3, h4⟩
      · cases N with
        | nil => simp at h3; simp [h3] at hL; omega
        | cons n N =>
          simp only [List.cons_append, List.cons.injEq] at h4
          obtain ⟨rfl, rfl⟩ := h4
          subst h3
          have hN : N = [] := by simpa using (show N.length = 0 by simp at hL; omega)
          subst hN
          refine ⟨Bc, ?_, ?_⟩
          · have := postT_join (h := h) (L := []) (E := []) (m := m) (R := ⟨rk, re⟩) rfl (by simpa [EdgesOK] using hR)
            simpa using this
          · have := KvAt.child (h := h) lk [] X [] hX rfl hc
            simpa using this
      · subst h3; simp at hX hL; omega
  · intro hj
    rcases List.append_eq_append_iff.1 hT1 with ⟨M, h1, h2⟩ | ⟨M, h1, h2⟩
    · subst h1; simp at hj; omega
    · cases M with
      | nil => subst h1; simp at hX; omega
      | cons m' M =>
        simp only [List.cons_append, List.cons.injEq] at h2
        obtain ⟨rfl, rfl⟩ := h2
        subst h1
        rcases List.append_eq_append_iff.1 hT2 with ⟨N, h3, h4⟩ | ⟨N, h3, h4⟩
        · cases N with
          | nil =>
            simp only [List.append_nil, List.nil_append] at h3 h4
            subst h3 h4
            have hM : M = [] := by simpa using (show M.length = 0 by simp at hX; omega)
            subst hM
            refine ⟨Ac, ?_, ?_⟩
            · have := preT_join (h := h) (L := ⟨lk, le⟩) (R := []) (E := []) (m := m) (by simpa [EdgesOK] using hL)
              simpa using congrArg (· ++ Ac) this
            · have := KvAt.child (h := h) [] C0 [] Y rfl (by simpa using hY) hc
              have hz : le.length - (lk.length + 1) = 0 := by omega
              simpa [hz] using this
          | cons n N => subst h3; simp at hj hL; omega
        · subst h3 h4
          have hN : N.length = M.length := by simp at hX; omega
          refine ⟨preT h M N ++ Ac, ?_, ?_⟩
          · have := preT_join (h := h) (L := ⟨lk, le⟩) (R := M) (E := N) (m := m) (by simpa [EdgesOK] using hL)
            simp only at this
            rw [this]; simp
          · have := KvAt.child (h := h) M C0 N Y hN hY hc
            have hz : (le ++ N).length - (lk.length + 1) = N.length := by simp; omega
            rw [hz]; exact this

/-- The pairs that a failed insertion takes away. -/
def Gone.list (g : Gone K V) : List (K × V) :=
  g.pair :: match g.half with
    | none => []
    | some r => toList r.1 r.2

/-- What an insertion step may answer, for the pair `kv` inserted at the edge that splits the contents of `told`
into `A` and `B`. -/
def InsertSpecN (lo h : Nat) (told : Tree K V) (A : List (K × V)) (kv : K × V) (B : List (K × V)) :
    InsertRes K V → Prop
  | .fit t loc => BelowN lo h t ∧ t.len ≤ 11 ∧ told.len ≤ t.len ∧ KvAt h t loc.up.reverse loc.idx A kv B
  | .split l mid r inRight loc =>
    InnerN lo h l ∧ InnerN lo h r ∧ 4 ≤ l.len ∧ loc.up.length = h ∧
      (if inRight then ∃ A', A = toList h l ++ mid :: A' ∧ KvAt h r loc.up.reverse loc.idx A' kv B
       else ∃ B', B = B' ++ mid :: toList h r ∧ KvAt h l loc.up.reverse loc.idx A kv B')
  | .oom t gone => BelowN lo h t ∧ t.len = told.len ∧ ∃ P S, A ++ kv :: B = P ++ (gone.list ++ S) ∧ toList h t = P ++ S ∧
      match gone.half with
      | none => gone.pair = kv ∧ P = A
      | some r => InnerN lo r.1 r.2

theorem InsertSpecN.split_toList {lo h : Nat} {told : Tree K V} {A kv B} {l mid r b loc}
    (hs : InsertSpecN (K := K) (V := V) lo h told A kv B (.split l mid r b loc)) :
    toList h l ++ mid :: toList h r = A ++ kv :: B := by
  obtain ⟨_, _, _, _, hs⟩ := hs
  cases b with
  | true =>
    obtain ⟨A', rfl, hk⟩ := hs
    rw [hk.toList_eq]; simp
  | false =>
    obtain ⟨B', rfl, hk⟩ := hs
    rw [hk.toList_eq]; simp

theorem _root_.Verif.Spec.Torn.sublist {α : Type} {n : Nat} {l full l' : List α} (h : Spec.Torn n l full l') (hl : l.Sublist full) : l'.Sublist full := by
  rcases h with rfl | ⟨P, L, S, rfl, rfl, _⟩
  · exact hl
  · exact List.Sublist.append (List.sublist_append_left ..) (List.Sublist.refl S)

theorem post_sublist {α : Type} (ks : List α) (es : List (List α)) (h : es.length = ks.length) :
    ks.Sublist (post ks es) := by
  induction ks generalizing es with
  | nil => simp
  | cons k ks ih =>
    cases es with
    | nil => simp at h
    | cons e es =>
      rw [post_cons]
      exact List.Sublist.cons_cons k (List.Sublist.trans (ih es (by simpa using h)) (List.sublist_append_right _ _))

theorem kvs_sublist {lo h : Nat} {t : Tree K V} (hb : BelowN lo h t) : t.kvs.Sublist (toList h t) := by
  cases h with
  | zero => exact List.Sublist.refl _
  | succ h =>
    obtain ⟨ks, es⟩ := t
    have := hb.1
    cases es with
    | nil => simp at this
    | cons e es =>
      simp only [toList_succ, List.map_cons, inter]
      exact List.Sublist.trans (post_sublist ks _ (by simpa using this)) (List.sublist_append_right _ _)

theorem len_le_toList {lo h : Nat} {t : Tree K V} (hb : BelowN lo h t) : t.len ≤ (toList h t).length := by
  have := (kvs_sublist hb).length_le
  exact this

theorem InsertSpecN.lost {lo h : Nat} {told : Tree K V} {A kv B} {t gone} (hs : InsertSpecN (K := K) (V := V) lo h told A kv B (.oom t gone)) :
    (toList h t).Sublist (A ++ kv :: B) ∧ (toList h t).length < (A ++ kv :: B).length := by
  obtain ⟨_, _, P, S, h1, h2, _⟩ := hs
  rw [h1, h2]
  exact ⟨(List.Sublist.refl P).append (List.sublist_append_right ..), by simp [Gone.list]; omega⟩

theorem InsertSpecN.torn {lo h : Nat} {told : Tree K V} {A kv B} {t gone} (hs : InsertSpecN (K := K) (V := V) lo h told A kv B (.oom t gone)) :
    Spec.Torn (lo + 1) (A ++ B) (A ++ kv :: B) (toList h t) := by
  obtain ⟨_, _, P, S, h1, h2, h3⟩ := hs
  cases hh : gone.half with
  | none =>
    rw [hh] at h3
    obtain ⟨rfl, rfl⟩ := h3
    left
    rw [h2]
    simp only [Gone.list, hh, List.cons_append, List.nil_append, List.append_cancel_left_eq, List.cons.injEq] at h1
    rw [h1.2]
  | some r =>
    rw [hh] at h3
    refine .inr ⟨P, gone.list, S, by rw [h1]; simp, h2, ?_⟩
    simp only [Gone.list, hh, List.length_cons]
    have := h3.1
    have := len_le_toList h3.2.2
    omega

theorem leafInsert_spec {lo : Nat} (A B : List (K × V)) (kv : K × V) (a : Alloc) (hlen : (A ++ B).length ≤ 11) (hlo : lo ≤ 4) :
    ∃ r a', leafInsert ⟨A ++ B, []⟩ A.length kv a = .ok (r, a') ∧ InsertSpecN lo 0 ⟨A ++ B, []⟩ A kv B r ∧
      (a.Good → a'.Good ∧ ∀ t g, r ≠ .oom t g) := by
  unfold leafInsert
  by_cases hfull : (A ++ B).length < 11
  · refine ⟨.fit ⟨A ++ kv :: B, []⟩ ⟨[], A.length⟩, a, ?_, ⟨rfl, ?_, ?_, .leaf A kv B⟩, fun hg => ⟨hg, by simp⟩⟩
    · simp only [List.length_append] at hfull
      simp [Tree.insertFitLeaf, Tree.len, hfull]
    · simp only [List.length_append] at hfull; simp; omega
    · simp
  · have h11 : (A ++ B).length = 11 := by omega
    have hc : ¬ (Tree.mk (A ++ B) [] : Tree K V).len < CAPACITY := by simp [Tree.len]; simp at h11; omega
    rw [if_neg hc]
    cases hreq : a.request with
    | mk granted a1 =>
    have ha1 : a.Good → a1.Good := fun hg => by have := hg.tail; rw [hreq] at this; exact this
    have hgr : a.Good → granted = true := fun hg => by have := hg.head; rw [hreq] at this; exact this
    cases granted with
    | false =>
      exact ⟨.oom ⟨A ++ B, []⟩ ⟨kv, none⟩, a1, by simp, ⟨rfl, rfl, A, B, rfl, rfl, rfl, rfl⟩, fun hg => by simpa using hgr hg⟩
    | true =>
      obtain ⟨l, mid, r, h1, h2, h3, h4, h5, h6⟩ := splitLeaf_spec (t := ⟨A ++ B, []⟩) (idx := 6)
        (by simp at h11 ⊢; omega) rfl
      obtain ⟨lk, le⟩ := l
      obtain ⟨rk, re⟩ := r
      simp only at h2 h3
      subst h2 h3
      simp only [join, Tree.mk.injEq, List.append_nil, and_true] at h4
      simp only [len_mk] at h5 h6
      by_cases hi : A.length ≤ 6
      · obtain ⟨M, rfl, rfl⟩ : ∃ M, lk = A ++ M ∧ B = M ++ mid :: rk := by
          rcases List.append_eq_append_iff.1 h4 with ⟨M, h7, h8⟩ | ⟨M, h7, h8⟩
          · have : M = [] := by
              have := congrArg List.length h7; simp at this; simpa using (show M.length = 0 by omega)
            subst this; exact ⟨[], by simpa using h7.symm, by simpa using h8.symm⟩
          · exact ⟨M, h7, h8⟩
        refine ⟨.split ⟨A ++ kv :: M, []⟩ mid ⟨rk, []⟩ false ⟨[], A.length⟩, a1, ?_, ⟨⟨?_, ?_, rfl⟩, ⟨?_, ?_, rfl⟩, ?_⟩,
          fun hg => ⟨ha1 hg, by simp⟩⟩
        · have hl : A.length + M.length < 11 := by simp at h5; omega
          simp [h1, hi, Tree.insertFitLeaf, Tree.len, hl]
        · simp at h5 ⊢; omega
        · simp at h5 ⊢; omega
        · simp at h6 h11 ⊢; omega
        · simp at h6 h11 ⊢; omega
        · exact ⟨by simp at h5 ⊢; omega, rfl, M, rfl, .leaf A kv M⟩
      · obtain ⟨M, rfl, rfl⟩ : ∃ M, A = lk ++ mid :: M ∧ rk = M ++ B := by
          rcases List.append_eq_append_iff.1 h4 with ⟨M, h7, h8⟩ | ⟨M, h7, h8⟩
          · cases M with
            | nil => simp at h7; subst h7; omega
            | cons m' M =>
              simp only [List.cons_append, List.cons.injEq] at h8
              obtain ⟨rfl, rfl⟩ := h8
              exact ⟨M, h7, rfl⟩
          · have := congrArg List.length h7; simp at this; omega
        have hidx : (lk ++ mid :: M).length - 7 = M.length := by simp; omega
        refine ⟨.split ⟨lk, []⟩ mid ⟨M ++ kv :: B, []⟩ true ⟨[], M.length⟩, a1, ?_, ⟨⟨?_, ?_, rfl⟩, ⟨?_, ?_, rfl⟩, ?_⟩,
          fun hg => ⟨ha1 hg, by simp⟩⟩
        · have hl : M.length + B.length < 11 := by simp at h11; omega
          simp only [if_true, B_eq, h1, Exec.ok_bind, hi, if_false, hidx]
          simp [Tree.insertFitLeaf, Tree.len, hl]
        · simp; omega
        · simp; omega
        · simp at h11 ⊢; omega
        · simp at h11 ⊢; omega
        · exact ⟨by simp; omega, rfl, M, rfl, .leaf M kv B⟩

theorem mem_edges_split {X Y : List (Tree K V)} {P : Tree K V → Prop} {c : Tree K V}
    (h : ∀ d ∈ X ++ c :: Y, P d) : (∀ d ∈ X, P d) ∧ P c ∧ ∀ d ∈ Y, P d :=
  ⟨fun d hd => h d (by simp [hd]), h c (by simp), fun d hd => h d (by simp [hd])⟩

/-- Replacing the child at an edge by an inner node keeps the shape. -/
theorem Below_replace {lo h : Nat} {A0 : List (K × V)} {X Y : List (Tree K V)} {c c' : Tree K V}
    (hb : BelowN lo (h + 1) ⟨A0, X ++ c :: Y⟩) (hc : InnerN lo h c') : BelowN lo (h + 1) ⟨A0, X ++ c' :: Y⟩ := by
  refine ⟨by simpa [Tree.len] using hb.1, ?_⟩
  obtain ⟨h1, _, h3⟩ := mem_edges_split hb.2
  intro d hd
  simp only [List.mem_append, List.mem_cons] at hd
  rcases hd with hd | rfl | hd
  · exact h1 d hd
  · exact hc
  · exact h3 d hd

theorem internalInsert_spec {lo h : Nat} {A0 C0 : List (K × V)} {X Y : List (Tree K V)} {l r : Tree K V}
    {mid : K × V} {inRight : Bool} {loc : Handle} {A B : List (K × V)} {kv : K × V} (a : Alloc)
    (told : Tree K V) (htold : told.len = (A0 ++ C0).length)
    (hX : X.length = A0.length) (hY : Y.length = C0.length)
    (hb : BelowN lo (h + 1) ⟨A0 ++ C0, X ++ l :: Y⟩) (hlen : (A0 ++ C0).length ≤ 11) (hlo : lo ≤ 4)
    (hs : InsertSpecN lo h told' A kv B (.split l mid r inRight loc)) :
    ∃ res a', internalInsert ⟨A0 ++ C0, X ++ l :: Y⟩ X.length mid r inRight loc a = .ok (res, a') ∧
      InsertSpecN lo (h + 1) told (preT h A0 X ++ A) kv (B ++ postT h C0 Y) res ∧
      (a.Good → a'.Good ∧ ∀ t g, res ≠ .oom t g) := by
  have htl := hs.split_toList
  obtain ⟨hl, hr, _, hup, hloc⟩ := hs
  obtain ⟨hXi, _, hYi⟩ := mem_edges_split hb.2
  -- the (possibly overfull) node with the new pair and edge
  have hT : KvAt (h + 1) ⟨A0 ++ mid :: C0, X ++ l :: r :: Y⟩
      ((if inRight then X.length + 1 else X.length) :: loc.up.reverse) loc.idx
      (preT h A0 X ++ A) kv (B ++ postT h C0 Y) := by
    cases inRight with
    | true =>
      obtain ⟨A', rfl, hk⟩ := hloc
      have := KvAt.child (h := h) (A0 ++ [mid]) C0 (X ++ [l]) Y (by simpa using hX) hY hk
      simpa [preT_concat hX] using this
    | false =>
      obtain ⟨B', rfl, hk⟩ := hloc
      have := KvAt.child (h := h) A0 (mid :: C0) X (r :: Y) hX (by simpa using hY) hk
      simpa using this
  have hallT : ∀ d ∈ X ++ l :: r :: Y, InnerN lo h d := by
    intro d hd
    simp only [List.mem_append, List.mem_cons] at hd
    rcases hd with hd | rfl | rfl | hd
    · exact hXi d hd
    · exact hl
    · exact hr
    · exact hYi d hd
  unfold internalInsert
  by_cases hfull : (A0 ++ C0).length < 11
  · refine ⟨.fit ⟨A0 ++ mid :: C0, X ++ l :: r :: Y⟩ (loc.under (if inRight then X.length + 1 else X.length)), a, ?_,
      ⟨⟨?_, hallT⟩, ?_, ?_, ?_⟩, fun hg => ⟨hg, by simp⟩⟩
    · have h1 : sliceInsert (A0 ++ C0) X.length mid = .ok (A0 ++ mid :: C0) := by rw [hX]; simp
      simp only [List.length_append] at hfull
      simp [Tree.insertFitInternal, Tree.len, hfull, h1]
    · simp; omega
    · simp at hfull ⊢; omega
    · simp [htold]
    · simpa [Handle.under] using hT
  · have h11 : (A0 ++ C0).length = 11 := by omega
    have hc : ¬ (Tree.mk (A0 ++ C0) (X ++ l :: Y) : Tree K V).len < CAPACITY := by
      simp [Tree.len]; simp at h11; omega
    simp only
    rw [if_neg hc]
    cases hreq : a.request with
    | mk granted a1 =>
    have ha1 : a.Good → a1.Good := fun hg => by have := hg.tail; rw [hreq] at this; exact this
    have hgr : a.Good → granted = true := fun hg => by have := hg.head; rw [hreq] at this; exact this
    cases granted with
    | false =>
      refine ⟨.oom ⟨A0 ++ C0, X ++ l :: Y⟩ ⟨mid, some (loc.up.length, r)⟩, a1, by simp,
        ⟨hb, htold.symm, preT h A0 X ++ toList h l, postT h C0 Y, ?_, ?_, ?_⟩, fun hg => by simpa using hgr hg⟩
      · have h1 : (preT h A0 X ++ A) ++ kv :: (B ++ postT h C0 Y) =
            preT h A0 X ++ ((toList h l ++ mid :: toList h r) ++ postT h C0 Y) := by rw [htl]; simp
        rw [h1]
        simp [Gone.list, hup]
      · rw [toList_split hX]; simp
      · simpa [hup] using hr
    | true =>
      obtain ⟨L, m, R, h1, hLe, hRe, h4, h5, h6⟩ := splitInternal_spec (h := h)
        (t := ⟨A0 ++ C0, X ++ l :: Y⟩) (idx := 6) (by simp at h11 ⊢; omega) hb.edgesOK
      obtain ⟨lk, le⟩ := L
      obtain ⟨rk, re⟩ := R
      simp only [join, Tree.mk.injEq] at h4
      obtain ⟨h4k, h4e⟩ := h4
      simp only [len_mk] at h5 h6
      have hLe' : le.length = lk.length + 1 := hLe
      have hRe' : re.length = rk.length + 1 := hRe
      by_cases hi : X.length ≤ 6
      · obtain ⟨M, rfl, rfl⟩ : ∃ M, lk = A0 ++ M ∧ C0 = M ++ m :: rk := by
          rcases List.append_eq_append_iff.1 h4k with ⟨M, h7, h8⟩ | ⟨M, h7, h8⟩
          · have : M = [] := by
              have := congrArg List.length h7; simp at this; simpa using (show M.length = 0 by omega)
            subst this; exact ⟨[], by simpa using h7.symm, by simpa using h8.symm⟩
          · exact ⟨M, h7, h8⟩
        obtain ⟨N, rfl, rfl⟩ : ∃ N, le = X ++ l :: N ∧ Y = N ++ re := by
          rcases List.append_eq_append_iff.1 h4e with ⟨M, h7, h8⟩ | ⟨M, h7, h8⟩
          · have := congrArg List.length h7; simp at this h5 hLe'; omega
          · cases M with
            | nil => have := congrArg List.length h7; simp at this h5 hLe'; omega
            | cons n N =>
              simp only [List.cons_append, List.cons.injEq] at h8
              obtain ⟨rfl, rfl⟩ := h8
              exact ⟨N, h7, rfl⟩
        have hN : N.length = M.length := by simp at hLe'; omega
        have hL' : EdgesOK (h + 1) (⟨A0 ++ mid :: M, X ++ l :: r :: N⟩ : Tree K V) := by
          simp [EdgesOK]; omega
        have hcut := (hT.cut (L := ⟨A0 ++ mid :: M, X ++ l :: r :: N⟩) (m := m) (R := ⟨rk, re⟩)
          (by simp [join]) hL' hRe).1 (by simp at h5 ⊢; split <;> omega)
        refine ⟨.split ⟨A0 ++ mid :: M, X ++ l :: r :: N⟩ m ⟨rk, re⟩ false
            (loc.under (if inRight then X.length + 1 else X.length)), a1, ?_,
          ⟨⟨?_, ?_, hL', ?_⟩, ⟨?_, ?_, hRe, ?_⟩, ?_⟩, fun hg => ⟨ha1 hg, by simp⟩⟩
        · have h1' : sliceInsert (A0 ++ M) X.length mid = .ok (A0 ++ mid :: M) := by rw [hX]; simp
          have hl11 : A0.length + M.length < 11 := by simp at h5; omega
          simp [h1, hi, Tree.insertFitInternal, Tree.len, hl11, h1']
        · simp at h5 ⊢; omega
        · simp at h5 ⊢; omega
        · intro d hd; exact hallT d (by simp at hd ⊢; grind)
        · simp at h6 h11 ⊢; omega
        · simp at h6 h11 ⊢; omega
        · intro d hd; exact hallT d (by simp at hd ⊢; grind)
        · exact ⟨by simp at h5 ⊢; omega, by simp [Handle.under, hup], by simpa [Handle.under] using hcut⟩
      · obtain ⟨M, rfl, rfl⟩ : ∃ M, A0 = lk ++ m :: M ∧ rk = M ++ C0 := by
          rcases List.append_eq_append_iff.1 h4k with ⟨M, h7, h8⟩ | ⟨M, h7, h8⟩
          · cases M with
            | nil => simp at h7; subst h7; omega
            | cons m' M =>
              simp only [List.cons_append, List.cons.injEq] at h8
              obtain ⟨rfl, rfl⟩ := h8
              exact ⟨M, h7, rfl⟩
          · have := congrArg List.length h7; simp at this; omega
        obtain ⟨N, rfl, rfl⟩ : ∃ N, X = le ++ N ∧ re = N ++ l :: Y := by
          rcases List.append_eq_append_iff.1 h4e with ⟨M', h7, h8⟩ | ⟨M', h7, h8⟩
          · exact ⟨M', h7, h8⟩
          · cases M' with
            | nil => simp at h7; subst h7; exact ⟨[], by simp, by simpa using h8.symm⟩
            | cons n N => have := congrArg List.length h7; simp at this; omega
        have hN : N.length = M.length := by simp at hX; omega
        have hidx : (le ++ N).length - 7 = N.length := by simp; omega
        have hR' : EdgesOK (h + 1) (⟨M ++ mid :: C0, N ++ l :: r :: Y⟩ : Tree K V) := by
          simp [EdgesOK]; omega
        have hcut := (hT.cut (L := ⟨lk, le⟩) (m := m) (R := ⟨M ++ mid :: C0, N ++ l :: r :: Y⟩)
          (by simp [join]) hLe hR').2 (by simp at hi ⊢; split <;> omega)
        refine ⟨.split ⟨lk, le⟩ m ⟨M ++ mid :: C0, N ++ l :: r :: Y⟩ true
            (loc.under (if inRight then N.length + 1 else N.length)), a1, ?_,
          ⟨⟨?_, ?_, hLe, ?_⟩, ⟨?_, ?_, hR', ?_⟩, ?_⟩, fun hg => ⟨ha1 hg, by simp⟩⟩
        · have h1' : sliceInsert (M ++ C0) N.length mid = .ok (M ++ mid :: C0) := by rw [hN]; simp
          have hl11 : M.length + C0.length < 11 := by simp at h6 h11; omega
          simp only [if_true, B_eq, h1, Exec.ok_bind, hi, if_false, hidx]
          simp [Tree.insertFitInternal, Tree.len, hl11, h1']
        · simp; omega
        · simp; omega
        · intro d hd; exact hallT d (by simp at hd ⊢; grind)
        · simp at h6 h11 ⊢; omega
        · simp at h6 h11 ⊢; omega
        · intro d hd; exact hallT d (by simp at hd ⊢; grind)
        · have e1 : (if inRight = true then (le ++ N).length + 1 else (le ++ N).length) - (lk.length + 1) =
              (if inRight = true then N.length + 1 else N.length) := by simp; split <;> omega
          rw [len_mk, e1] at hcut
          exact ⟨by simp; omega, by simp [Handle.under, hup], by simpa [Handle.under] using hcut⟩

theorem insertRec_spec {lo h : Nat} {t : Tree K V} {p idx A B} (he : EdgeAt h t p idx A B) (kv : K × V) (a : Alloc)
    (hb : BelowN lo h t) (hlen : t.len ≤ 11) (hlo : lo ≤ 4) :
    ∃ r a', insertRec h t p idx kv a = .ok (r, a') ∧ InsertSpecN lo h t A kv B r ∧
      (a.Good → a'.Good ∧ ∀ t g, r ≠ .oom t g) := by
  induction he with
  | leaf A B =>
    obtain ⟨r, a', h1, h2⟩ := leafInsert_spec A B kv a hlen hlo
    exact ⟨r, a', by simpa [insertRec] using h1, h2⟩
  | @child h c p idx A B A0 C0 X Y hX hY hc ih =>
    obtain ⟨hXi, hci, hYi⟩ := mem_edges_split hb.2
    obtain ⟨r, a', h1, h2, h3⟩ := ih hci.2.2 hci.2.1
    simp only [insertRec, getE_append, Exec.ok_bind, h1]
    cases r with
    | fit c' loc =>
      obtain ⟨g1, g2, g3, g4⟩ := h2
      refine ⟨.fit ⟨A0 ++ C0, X ++ c' :: Y⟩ (loc.under X.length), a', by simp,
        ⟨Below_replace hb ⟨by have := hci.1; omega, g2, g1⟩, hlen, by simp, ?_⟩, fun hg => ⟨(h3 hg).1, by simp⟩⟩
      simpa [Handle.under] using KvAt.child A0 C0 X Y hX hY g4
    | oom c' gone =>
      obtain ⟨g1, g2, P, S, g3, g4, g5⟩ := h2
      refine ⟨.oom ⟨A0 ++ C0, X ++ c' :: Y⟩ gone, a', by simp,
        ⟨Below_replace hb ⟨by have := hci.1; omega, by have := hci.2.1; omega, g1⟩, by simp,
          preT h A0 X ++ P, S ++ postT h C0 Y, ?_, ?_, ?_⟩,
        fun hg => absurd rfl ((h3 hg).2 c' gone)⟩
      · have := congrArg (fun l => preT h A0 X ++ (l ++ postT h C0 Y)) g3
        simpa using this
      · rw [toList_split hX, g4]; simp
      · cases hh : gone.half with
        | none => rw [hh] at g5; exact ⟨g5.1, by rw [g5.2]⟩
        | some r => rw [hh] at g5; exact g5
    | split l mid r inRight loc =>
      obtain ⟨res, a'', g1, g2, g3⟩ := internalInsert_spec (told' := c) a' ⟨A0 ++ C0, X ++ c :: Y⟩ (by simp) hX hY
        (Below_replace hb h2.1) hlen hlo h2
      refine ⟨res, a'', ?_, g2, fun hg => g3 (h3 hg).1⟩
      simpa using g1

/-- If the very first request is refused, nothing below the root changes. -/
theorem insertRec_first_refused {a : Alloc} (ha : a 0 = false) {h : Nat} {t : Tree K V} {p idx} {kv : K × V} {r a'}
    (hr : insertRec h t p idx kv a = .ok (r, a')) : (∃ t' loc, r = .fit t' loc) ∨ r = .oom t ⟨kv, none⟩ := by
  induction h generalizing t p r a' with
  | zero =>
    cases p with
    | cons i p => simp [insertRec] at hr
    | nil =>
      simp only [insertRec, leafInsert] at hr
      split at hr
      · obtain ⟨t', _, h2⟩ := Exec.bind_eq_ok.1 hr
        simp at h2
        exact .inl ⟨_, _, h2.1.symm⟩
      · simp [Alloc.request, ha] at hr
        exact .inr hr.1.symm
  | succ h ih =>
    cases p with
    | nil => simp [insertRec] at hr
    | cons i p =>
      simp only [insertRec] at hr
      obtain ⟨c, h1, h2⟩ := Exec.bind_eq_ok.1 hr
      obtain ⟨⟨rc, ac⟩, h3, h4⟩ := Exec.bind_eq_ok.1 h2
      have hset : ∀ es, setE t.edges i c = .ok es → es = t.edges := by
        intro es hes
        have hc := getE_eq_ok.1 h1
        unfold setE at hes
        split at hes
        · rename_i hi
          simp at hes
          rw [← hes]
          have : t.edges[i] = c := by simpa [List.getElem?_eq_getElem hi] using hc
          rw [← this]; simp
        · simp at hes
      rcases ih h3 with ⟨t', loc, rfl⟩ | rfl
      · obtain ⟨es, h5, h6⟩ := Exec.bind_eq_ok.1 h4
        simp at h6
        exact .inl ⟨_, _, h6.1.symm⟩
      · obtain ⟨es, h5, h6⟩ := Exec.bind_eq_ok.1 h4
        simp at h6
        rw [hset es h5] at h6
        obtain ⟨ks, es0⟩ := t
        exact .inr h6.1.symm

end Verif.BTree
