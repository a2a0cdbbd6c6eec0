import Verif.BTree.Proofs.Lists
/-
What each node primitive does to a node that is split around the place it works on.
-/
namespace Verif.BTree
open Verif

variable {K V : Type}

/-- The number of edges fits the number of pairs at height `h`. -/
def EdgesOK : Nat → Tree K V → Prop
  | 0, t => t.edges = []
  | _ + 1, t => t.edges.length = t.len + 1

theorem BelowN.edgesOK {lo h : Nat} {t : Tree K V} (hb : BelowN lo h t) : EdgesOK h t := by
  cases h with
  | zero => exact hb
  | succ h => exact hb.1

theorem Below_iff {h : Nat} {t : Tree K V} :
    Below (h + 1) t ↔ EdgesOK (h + 1) t ∧ ∀ c ∈ t.edges, Inner h c := Iff.rfl

/-- `l`, `kv`, `r` glued into one node. -/
def join (l : Tree K V) (kv : K × V) (r : Tree K V) : Tree K V := ⟨l.kvs ++ kv :: r.kvs, l.edges ++ r.edges⟩

@[simp] theorem len_join (l : Tree K V) (kv : K × V) (r : Tree K V) : (join l kv r).len = l.len + r.len + 1 := by
  simp [join, Tree.len]; omega

theorem toList_join {h : Nat} {l r : Tree K V} (kv : K × V) (hl : EdgesOK h l) (hr : EdgesOK h r) :
    toList h (join l kv r) = toList h l ++ (kv :: toList h r) := by
  cases h with
  | zero => simp [join]
  | succ h =>
    obtain ⟨lk, le⟩ := l
    obtain ⟨rk, re⟩ := r
    simp only [EdgesOK, len_mk] at hl hr
    simp only [join, toList_succ, List.map_append]
    rcases inter_append (A := lk) (C := rk) (X := le.map (toList h)) (Y := re.map (toList h)) kv
      (by simpa using hl) with h1 | h1
    · exact h1
    · simp at h1; simp [h1] at hr

theorem edgesOK_join {h : Nat} {l r : Tree K V} (kv : K × V) (hl : EdgesOK h l) (hr : EdgesOK h r) :
    EdgesOK h (join l kv r) := by
  cases h with
  | zero => simp_all [EdgesOK, join]
  | succ h => simp_all [EdgesOK, join, Tree.len]; omega

/-- The same material divided differently. -/
theorem toList_rotate {h : Nat} {l r l' r' : Tree K V} {kv kv' : K × V}
    (hl : EdgesOK h l) (hr : EdgesOK h r) (hl' : EdgesOK h l') (hr' : EdgesOK h r')
    (hj : join l' kv' r' = join l kv r) :
    toList h l' ++ (kv' :: toList h r') = toList h l ++ (kv :: toList h r) := by
  rw [← toList_join kv' hl' hr', hj, toList_join kv hl hr]

theorem Below_join {h : Nat} {l r : Tree K V} (kv : K × V) (hl : Below h l) (hr : Below h r) :
    Below h (join l kv r) := by
  cases h with
  | zero => simp_all [BelowN, join]
  | succ h =>
    refine ⟨edgesOK_join (h := h + 1) kv hl.edgesOK hr.edgesOK, ?_⟩
    intro c hc
    simp only [join, List.mem_append] at hc
    rcases hc with hc | hc
    · exact hl.2 c hc
    · exact hr.2 c hc

theorem Below_of_join {h : Nat} {l r l' r' : Tree K V} {kv kv' : K × V}
    (hl : Below h l) (hr : Below h r) (hl' : EdgesOK h l') (hr' : EdgesOK h r')
    (hj : join l' kv' r' = join l kv r) : Below h l' ∧ Below h r' := by
  cases h with
  | zero => exact ⟨hl', hr'⟩
  | succ h =>
    have hE : l'.edges ++ r'.edges = l.edges ++ r.edges := congrArg Tree.edges hj
    refine ⟨⟨hl', fun c hc => ?_⟩, ⟨hr', fun c hc => ?_⟩⟩
    all_goals
      have hm : c ∈ l.edges ++ r.edges := hE ▸ (by simp [hc])
      rcases List.mem_append.1 hm with hm | hm
      · exact hl.2 c hm
      · exact hr.2 c hm

/-! ### merge -/

theorem canMerge_split {A C : List (K × V)} {kv} {X Y : List (Tree K V)} {l r : Tree K V}
    (_hX : X.length = A.length) :
    canMerge ⟨A ++ kv :: C, X ++ l :: r :: Y⟩ X.length = .ok (decide (l.len + r.len + 1 ≤ 11)) := by
  simp [canMerge]

theorem merge_split {A C : List (K × V)} {kv} {X Y : List (Tree K V)} {l r : Tree K V}
    (hX : X.length = A.length) (hlr : l.len + r.len + 1 ≤ 11) :
    merge ⟨A ++ kv :: C, X ++ l :: r :: Y⟩ X.length = .ok ⟨A ++ C, X ++ join l kv r :: Y⟩ := by
  have h1 : sliceRemove (A ++ kv :: C) X.length = .ok (kv, A ++ C) := by
    rw [hX]; simp
  have h2 : l.len + r.len ≤ 10 := by omega
  simp [merge, h1, h2, join]

/-! ### stealing -/

/-- The result of moving pairs between the two children around a pair: the node splits again as
`l'`, `kv'`, `r'` with the same material. -/
def Rotated (h : Nat) (l : Tree K V) (kv : K × V) (r l' : Tree K V) (kv' : K × V) (r' : Tree K V) : Prop :=
  EdgesOK h l' ∧ EdgesOK h r' ∧ join l' kv' r' = join l kv r

theorem stealLeft_split {h : Nat} {A C : List (K × V)} {kv} {X Y : List (Tree K V)} {l r : Tree K V}
    (hX : X.length = A.length) (hl : EdgesOK h l) (hr : EdgesOK h r) (hl0 : 0 < l.len) (hr11 : r.len < 11) :
    ∃ l' kv' r', stealLeft h ⟨A ++ kv :: C, X ++ l :: r :: Y⟩ X.length =
        .ok ⟨A ++ kv' :: C, X ++ l' :: r' :: Y⟩ ∧ Rotated h l kv r l' kv' r' ∧
        l'.len + 1 = l.len ∧ r'.len = r.len + 1 := by
  obtain ⟨lk, le⟩ := l
  obtain ⟨rk, re⟩ := r
  rcases List.eq_nil_or_concat lk with rfl | ⟨lk, kv', rfl⟩
  · simp at hl0
  have hg : getE (A ++ kv :: C) X.length = .ok kv := by rw [hX]; simp
  have hs : ∀ x, setE (A ++ kv :: C) X.length x = .ok (A ++ x :: C) := by intro x; rw [hX]; simp
  cases h with
  | zero =>
    simp only [EdgesOK] at hl hr
    subst hl hr
    refine ⟨⟨lk, []⟩, kv', ⟨kv :: rk, []⟩, ?_, ⟨rfl, rfl, by simp [join]⟩, by simp, by simp⟩
    simp at hr11
    simp [stealLeft, Tree.pop, Tree.pushFront, hg, hs, Tree.len, hr11]
  | succ h =>
    simp only [EdgesOK, len_mk, List.length_append, List.length_cons, List.length_nil,
      List.concat_eq_append] at hl hr
    rcases List.eq_nil_or_concat le with rfl | ⟨le, e, rfl⟩
    · simp at hl
    simp only [List.length_append, List.length_cons, List.length_nil, List.concat_eq_append] at hl
    have hl' : le.length = lk.length + 1 := by omega
    refine ⟨⟨lk, le⟩, kv', ⟨kv :: rk, e :: re⟩, ?_, ⟨by simp [EdgesOK, Tree.len, hl'],
      by simp [EdgesOK, Tree.len, hr], by simp [join]⟩, by simp, by simp⟩
    simp at hr11
    have hg2 : getE (le ++ [e]) (lk.length + 1) = .ok e := by rw [← hl']; simp
    have ht : List.take (lk.length + 1) (le ++ [e]) = le := by rw [← hl']; simp
    simp [stealLeft, Tree.pop, Tree.pushFront, hg, hs, Tree.len, hr11, hg2, ht]

theorem stealRight_split {h : Nat} {A C : List (K × V)} {kv} {X Y : List (Tree K V)} {l r : Tree K V}
    (hX : X.length = A.length) (hl : EdgesOK h l) (hr : EdgesOK h r) (hr0 : 0 < r.len) (hl11 : l.len < 11) :
    ∃ l' kv' r', stealRight h ⟨A ++ kv :: C, X ++ l :: r :: Y⟩ X.length =
        .ok ⟨A ++ kv' :: C, X ++ l' :: r' :: Y⟩ ∧ Rotated h l kv r l' kv' r' ∧
        l'.len = l.len + 1 ∧ r'.len + 1 = r.len := by
  obtain ⟨lk, le⟩ := l
  obtain ⟨rk, re⟩ := r
  cases rk with
  | nil => simp at hr0
  | cons kv' rk =>
  have hg : getE (A ++ kv :: C) X.length = .ok kv := by rw [hX]; simp
  have hs : ∀ x, setE (A ++ kv :: C) X.length x = .ok (A ++ x :: C) := by intro x; rw [hX]; simp
  have h0 : ∀ {α : Type} (x : α) (l : List α), sliceRemove (x :: l) 0 = .ok (x, l) := by
    intro α x l; simpa using sliceRemove_append [] x l
  simp at hl11
  cases h with
  | zero =>
    simp only [EdgesOK] at hl hr
    subst hl hr
    refine ⟨⟨lk ++ [kv], []⟩, kv', ⟨rk, []⟩, ?_, ⟨rfl, rfl, by simp [join]⟩, by simp, by simp⟩
    simp [stealRight, Tree.popFront, Tree.pushAny, Tree.pushLeaf, hg, hs, Tree.len, hl11, h0]
  | succ h =>
    simp only [EdgesOK, len_mk] at hl hr
    cases re with
    | nil => simp at hr
    | cons e re =>
    refine ⟨⟨lk ++ [kv], le ++ [e]⟩, kv', ⟨rk, re⟩, ?_, ⟨by simp [EdgesOK, Tree.len, hl],
      by simpa [EdgesOK, Tree.len] using hr, by simp [join]⟩, by simp, by simp⟩
    simp [stealRight, Tree.popFront, Tree.pushAny, Tree.pushInternal, hg, hs, Tree.len, hl11, h0]

theorem bulkStealLeft_split {h : Nat} {A C : List (K × V)} {kv} {X Y : List (Tree K V)} {l r : Tree K V}
    {count : Nat}
    (hX : X.length = A.length) (hl : EdgesOK h l) (hr : EdgesOK h r) (hc : 0 < count) (hl0 : count ≤ l.len)
    (hr11 : r.len + count ≤ 11) :
    ∃ l' kv' r', bulkStealLeft ⟨A ++ kv :: C, X ++ l :: r :: Y⟩ X.length count =
        .ok ⟨A ++ kv' :: C, X ++ l' :: r' :: Y⟩ ∧ Rotated h l kv r l' kv' r' ∧
        l'.len + count = l.len ∧ r'.len = r.len + count := by
  obtain ⟨lk, le⟩ := l
  obtain ⟨rk, re⟩ := r
  simp only [len_mk] at hl0 hr11
  have hg : getE (A ++ kv :: C) X.length = .ok kv := by rw [hX]; simp
  have hs : ∀ x, setE (A ++ kv :: C) X.length x = .ok (A ++ x :: C) := by intro x; rw [hX]; simp
  have hlt : lk.length - count < lk.length := by omega
  refine ⟨⟨lk.take (lk.length - count), le.take (lk.length - count + 1)⟩, lk[lk.length - count],
    ⟨lk.drop (lk.length - count + 1) ++ kv :: rk, le.drop (lk.length - count + 1) ++ re⟩, ?_, ⟨?_, ?_, ?_⟩, ?_, ?_⟩
  · simp [bulkStealLeft, Tree.len, hr11, hl0, hc, hg, hs, getE_of_lt hlt]
  · cases h with
    | zero => simp_all [EdgesOK]
    | succ h => simp only [EdgesOK, len_mk, List.length_take] at hl ⊢; omega
  · cases h with
    | zero => simp_all [EdgesOK]
    | succ h =>
      simp only [EdgesOK, len_mk, List.length_append, List.length_drop, List.length_cons] at hl hr ⊢; omega
  · have hd : lk.take (lk.length - count) ++ lk[lk.length - count] :: lk.drop (lk.length - count + 1) = lk := by
      simp
    simp only [join, Tree.mk.injEq]
    constructor
    · have := congrArg (· ++ kv :: rk) hd
      simpa only [List.append_assoc, List.cons_append] using this
    · rw [← List.append_assoc, List.take_append_drop]
  · simp; omega
  · simp; omega

theorem bulkStealRight_split {h : Nat} {A C : List (K × V)} {kv} {X Y : List (Tree K V)} {l r : Tree K V}
    {count : Nat}
    (hX : X.length = A.length) (hl : EdgesOK h l) (hr : EdgesOK h r) (hc : 0 < count) (hr0 : count ≤ r.len)
    (hl11 : l.len + count ≤ 11) :
    ∃ l' kv' r', bulkStealRight ⟨A ++ kv :: C, X ++ l :: r :: Y⟩ X.length count =
        .ok ⟨A ++ kv' :: C, X ++ l' :: r' :: Y⟩ ∧ Rotated h l kv r l' kv' r' ∧
        l'.len = l.len + count ∧ r'.len + count = r.len := by
  obtain ⟨lk, le⟩ := l
  obtain ⟨rk, re⟩ := r
  simp only [len_mk] at hr0 hl11
  have hg : getE (A ++ kv :: C) X.length = .ok kv := by rw [hX]; simp
  have hs : ∀ x, setE (A ++ kv :: C) X.length x = .ok (A ++ x :: C) := by intro x; rw [hX]; simp
  have hlt : count - 1 < rk.length := by omega
  refine ⟨⟨lk ++ kv :: rk.take (count - 1), le ++ re.take count⟩, rk[count - 1],
    ⟨rk.drop count, re.drop count⟩, ?_, ⟨?_, ?_, ?_⟩, ?_, ?_⟩
  · simp [bulkStealRight, Tree.len, hl11, hr0, hc, hg, hs, getE_of_lt hlt]
  · cases h with
    | zero => simp_all [EdgesOK]
    | succ h =>
      simp only [EdgesOK, len_mk, List.length_append, List.length_take, List.length_cons] at hl hr ⊢; omega
  · cases h with
    | zero => simp_all [EdgesOK]
    | succ h => simp only [EdgesOK, len_mk, List.length_drop] at hr ⊢; omega
  · have hd : rk.take (count - 1) ++ rk[count - 1] :: rk.drop count = rk := by
      have h1 : rk.drop count = rk.drop (count - 1 + 1) := by congr 1; omega
      rw [h1]; simp
    simp only [join, Tree.mk.injEq]
    constructor
    · conv => rhs; rw [← hd]
      simp
    · rw [List.append_assoc, List.take_append_drop]
  · simp; omega
  · simp; omega

/-! ### splitting -/

theorem splitLeaf_spec {t : Tree K V} {idx : Nat} (hlt : idx < t.len) (he : t.edges = []) :
    ∃ l mid r, t.splitLeaf idx = .ok (l, mid, r) ∧ l.edges = [] ∧ r.edges = [] ∧
      join l mid r = t ∧ l.len = idx ∧ r.len = t.len - (idx + 1) := by
  obtain ⟨ks, es⟩ := t
  simp only [len_mk] at hlt he
  subst he
  refine ⟨⟨ks.take idx, []⟩, ks[idx], ⟨ks.drop (idx + 1), []⟩, ?_, rfl, rfl, ?_, ?_, ?_⟩
  · simp [Tree.splitLeaf, getE_of_lt hlt]
  · simp [join]
  · simp; omega
  · simp

theorem splitInternal_spec {h : Nat} {t : Tree K V} {idx : Nat} (hlt : idx < t.len) (he : EdgesOK (h + 1) t) :
    ∃ l mid r, t.splitInternal idx = .ok (l, mid, r) ∧ EdgesOK (h + 1) l ∧ EdgesOK (h + 1) r ∧
      join l mid r = t ∧ l.len = idx ∧ r.len = t.len - (idx + 1) := by
  obtain ⟨ks, es⟩ := t
  simp only [len_mk, EdgesOK] at hlt he
  refine ⟨⟨ks.take idx, es.take (idx + 1)⟩, ks[idx], ⟨ks.drop (idx + 1), es.drop (idx + 1)⟩, ?_, ?_, ?_, ?_, ?_, ?_⟩
  · simp [Tree.splitInternal, getE_of_lt hlt, he]
  · simp [EdgesOK]; omega
  · simp [EdgesOK]; omega
  · simp [join]
  · simp; omega
  · simp

end Verif.BTree
