import Verif.BTree.Proofs.Append
/-
`try_clone`: a structurally identical copy whose elements are clones of the originals.
-/
namespace Verif.BTree
open Verif Verif.Spec

variable {K V Q α β : Type}

/-! ### All2 -/

theorem _root_.Verif.Spec.All2.append {R : α → β → Prop} {a b : List α} {c d : List β} (h1 : All2 R a c) (h2 : All2 R b d) :
    All2 R (a ++ b) (c ++ d) := by
  induction a generalizing c with
  | nil => cases c with
    | nil => simpa using h2
    | cons => simp [All2] at h1
  | cons x a ih => cases c with
    | nil => simp [All2] at h1
    | cons y c => exact ⟨h1.1, ih h1.2⟩

theorem _root_.Verif.Spec.All2.length {R : α → β → Prop} {a : List α} {b : List β} (h : All2 R a b) : a.length = b.length := by
  induction a generalizing b with
  | nil => cases b with
    | nil => rfl
    | cons => simp [All2] at h
  | cons x a ih => cases b with
    | nil => simp [All2] at h
    | cons y b => simp [ih h.2]

theorem _root_.Verif.Spec.All2.mono {R S : α → β → Prop} (hRS : ∀ a b, R a b → S a b) {a : List α} {b : List β} (h : All2 R a b) :
    All2 S a b := by
  induction a generalizing b with
  | nil => cases b <;> simp_all [All2]
  | cons x a ih => cases b with
    | nil => simp [All2] at h
    | cons y b => exact ⟨hRS _ _ h.1, ih h.2⟩

theorem _root_.Verif.Spec.All2.eq {a b : List α} (h : All2 (· = ·) a b) : a = b := by
  induction a generalizing b with
  | nil => cases b <;> simp_all [All2]
  | cons x a ih => cases b with
    | nil => simp [All2] at h
    | cons y b => rw [h.1, ih h.2]

theorem _root_.Verif.Spec.All2.mem_right {R : α → β → Prop} {a : List α} {b : List β} (h : All2 R a b) {y : β} (hy : y ∈ b) :
    ∃ x ∈ a, R x y := by
  induction a generalizing b with
  | nil => cases b <;> simp_all [All2]
  | cons x a ih => cases b with
    | nil => simp at hy
    | cons z b =>
      rcases List.mem_cons.1 hy with rfl | hy
      · exact ⟨x, by simp, h.1⟩
      · obtain ⟨w, hw, hr⟩ := ih h.2 hy
        exact ⟨w, by simp [hw], hr⟩

theorem _root_.Verif.Spec.All2.mem_left {R : α → β → Prop} {a : List α} {b : List β} (h : All2 R a b) {x : α} (hx : x ∈ a) :
    ∃ y ∈ b, R x y := by
  induction a generalizing b with
  | nil => simp at hx
  | cons z a ih => cases b with
    | nil => simp [All2] at h
    | cons y b =>
      rcases List.mem_cons.1 hx with rfl | hx
      · exact ⟨y, by simp, h.1⟩
      · obtain ⟨w, hw, hr⟩ := ih h.2 hx
        exact ⟨w, by simp [hw], hr⟩

/-- `y` is what some successful `try_clone` of `x` returned. -/
def IsClone (c : Cloner α) (x y : α) : Prop := ∃ a a', c x a = (.ok y, a')

/-- Both components are clones. -/
def PairClone (ck : Cloner K) (cv : Cloner V) (x y : K × V) : Prop := IsClone ck x.1 y.1 ∧ IsClone cv x.2 y.2

/-- A cloner that succeeds on `x` whenever memory suffices. -/
def ClonesAt (c : Cloner α) (x : α) : Prop := ∀ a : Alloc, a.Good → ∃ y a', c x a = (.ok y, a')

/-- A cloner does not make memory scarce. -/
def CloneKeeps (c : Cloner α) : Prop := ∀ x (a : Alloc), a.Good → (c x a).2.Good

/-- A cloner that succeeds whenever memory suffices. -/
def CloneTotal (c : Cloner α) : Prop := ∀ x (a : Alloc), a.Good → ∃ y a', c x a = (.ok y, a') ∧ a'.Good

theorem CloneTotal.keeps {c : Cloner α} (h : CloneTotal c) : CloneKeeps c := fun x a hg => by
  obtain ⟨y, a', h1, h2⟩ := h x a hg
  rw [h1]; exact h2

theorem CloneTotal.at {c : Cloner α} (h : CloneTotal c) (x : α) : ClonesAt c x := fun a hg => by
  obtain ⟨y, a', h1, h2⟩ := h x a hg
  exact ⟨y, a', h1⟩

/-- What a cloning step (of the elements `L`) returned, or why it failed. -/
def CloneRes (ck : Cloner K) (cv : Cloner V) (L : List (K × V)) (a : Alloc) {β : Type} (x : Exec (Res β × Alloc)) (P : β → Prop) : Prop :=
  ∃ r a', x = .ok (r, a') ∧ (∀ y, r = .ok y → P y) ∧
    (a.Good → CloneKeeps ck → CloneKeeps cv → a'.Good ∧ ((∀ kv ∈ L, ClonesAt ck kv.1 ∧ ClonesAt cv kv.2) → ∃ y, r = .ok y))

theorem CloneKeeps.of {c : Cloner α} (h : CloneKeeps c) {x : α} {a : Alloc} {r : Res α} {a' : Alloc} (he : c x a = (r, a')) (hg : a.Good) : a'.Good := by
  have := h x a hg
  rwa [he] at this

theorem ClonesAt.not {c : Cloner α} {x : α} (h : ClonesAt c x) {a a' : Alloc} {e : TryReserveError} (he : c x a = (.error e, a')) (hg : a.Good) : False := by
  obtain ⟨y, a2, h1⟩ := h a hg
  rw [he] at h1; cases h1

theorem cloneLeafLoop_spec (ck : Cloner K) (cv : Cloner V) (kvs : List (K × V)) (done : List (K × V)) (a : Alloc)
    (hl : kvs.length + done.length ≤ 11) :
    CloneRes ck cv kvs a (cloneLeafLoop ck cv kvs ⟨done, []⟩ a)
      (fun t => ∃ out, t = ⟨done ++ out, []⟩ ∧ All2 (PairClone ck cv) kvs out) := by
  induction kvs generalizing done a with
  | nil => exact ⟨_, a, rfl, by rintro y ⟨rfl⟩; exact ⟨[], by simp, trivial⟩, fun hg _ _ => ⟨hg, fun _ => ⟨_, rfl⟩⟩⟩
  | cons kv kvs ih =>
    obtain ⟨k, v⟩ := kv
    simp only [cloneLeafLoop]
    cases hk : ck k a with
    | mk rk a1 =>
    cases rk with
    | error e =>
      exact ⟨_, a1, rfl, by simp, fun hg tk _ => ⟨tk.of hk hg, fun ht => ((ht _ (List.mem_cons_self ..)).1.not hk hg).elim⟩⟩
    | ok k' =>
    cases hv : cv v a1 with
    | mk rv a2 =>
    cases rv with
    | error e =>
      exact ⟨.error e, a2, by simp [hv], by simp, fun hg tk tv => ⟨tv.of hv (tk.of hk hg), fun ht => ((ht _ (List.mem_cons_self ..)).2.not hv (tk.of hk hg)).elim⟩⟩
    | ok v' =>
      simp only [List.length_cons] at hl
      have hlt : done.length < 11 := by omega
      obtain ⟨r, a3, h1, h2, h3⟩ := ih (done ++ [(k', v')]) a2 (by simp; omega)
      refine ⟨r, a3, by simp [hv, Tree.pushLeaf, Tree.len, hlt, h1], ?_, fun hg tk tv => ?_⟩
      · intro y hy
        obtain ⟨out, rfl, ho⟩ := h2 y hy
        exact ⟨(k', v') :: out, by simp, ⟨⟨a, a1, hk⟩, ⟨a1, a2, hv⟩⟩, ho⟩
      · obtain ⟨e1, e2⟩ := h3 (tv.of hv (tk.of hk hg)) tk tv
        exact ⟨e1, fun ht => e2 fun kv hkv => ht kv (List.mem_cons_of_mem _ hkv)⟩

/-- A cloned subtree: same size and shape, cloned contents, right length. -/
def SubClone (ck : Cloner K) (cv : Cloner V) (h : Nat) (t : Tree K V) (r : Tree K V × Nat) : Prop :=
  r.1.len = t.len ∧ Below h r.1 ∧ All2 (PairClone ck cv) (toList h t) (toList h r.1) ∧ r.2 = (toList h r.1).length

theorem cloneInternalLoop_spec (ck : Cloner K) (cv : Cloner V) {h : Nat}
    (rec : Tree K V → Alloc → Exec (Res (Tree K V × Nat) × Alloc))
    (hrec : ∀ t a, Inner h t → CloneRes ck cv (toList h t) a (rec t a) (SubClone ck cv h t))
    (kvs : List (K × V)) (es : List (Tree K V)) (he : es.length = kvs.length) (hes : ∀ c ∈ es, Inner h c)
    (A : List (K × V)) (X : List (Tree K V)) (hX : X.length = A.length + 1) (hXi : ∀ c ∈ X, Inner h c) (len : Nat)
    (hlen : len = (toList (h + 1) ⟨A, X⟩).length)
    (a : Alloc) (hl : kvs.length + A.length ≤ 11) :
    CloneRes ck cv (postT h kvs es) a (cloneInternalLoop ck cv rec kvs es ⟨A, X⟩ len a)
      (fun r => r.1.len = A.length + kvs.length ∧ Below (h + 1) r.1 ∧
        (∃ out, toList (h + 1) r.1 = toList (h + 1) ⟨A, X⟩ ++ out ∧ All2 (PairClone ck cv) (postT h kvs es) out) ∧
        r.2 = (toList (h + 1) r.1).length) := by
  induction kvs generalizing es A X len a with
  | nil =>
    refine ⟨_, a, rfl, ?_, fun hg _ _ => ⟨hg, fun _ => ⟨_, rfl⟩⟩⟩
    rintro y ⟨rfl⟩
    exact ⟨by simp, ⟨by simp [hX], hXi⟩, ⟨[], by simp, by simp [All2]⟩, hlen⟩
  | cons kv kvs ih =>
    cases es with
    | nil => simp at he
    | cons e es =>
    obtain ⟨k, v⟩ := kv
    simp only [cloneInternalLoop]
    cases hk : ck k a with
    | mk rk a1 =>
    cases rk with
    | error e =>
      exact ⟨_, a1, rfl, by simp, fun hg tk _ => ⟨tk.of hk hg, fun ht => ((ht (k, v) (by simp)).1.not hk hg).elim⟩⟩
    | ok k' =>
    cases hv : cv v a1 with
    | mk rv a2 =>
    cases rv with
    | error e =>
      exact ⟨.error e, a2, by simp [hv], by simp, fun hg tk tv => ⟨tv.of hv (tk.of hk hg), fun ht => ((ht (k, v) (by simp)).2.not hv (tk.of hk hg)).elim⟩⟩
    | ok v' =>
      simp only [hv]
      have hei : Inner h e := hes e (by simp)
      obtain ⟨r, a3, g1, g2, g3⟩ := hrec e a2 hei
      have hgood : a.Good → CloneKeeps ck → CloneKeeps cv → a2.Good := fun hg tk tv => tv.of hv (tk.of hk hg)
      cases r with
      | error err =>
        refine ⟨.error err, a3, by simp [g1], by simp, fun hg tk tv => ?_⟩
        obtain ⟨e1, e2⟩ := g3 (hgood hg tk tv) tk tv
        refine ⟨e1, fun ht => ?_⟩
        obtain ⟨y, hy⟩ := e2 fun kv hkv => ht kv (by simp [hkv])
        simp at hy
      | ok sub =>
        obtain ⟨sub, sublen⟩ := sub
        obtain ⟨s1, s2, s3, s4⟩ := g2 _ rfl
        simp only at s1 s2 s3 s4
        simp only [List.length_cons] at hl he
        have hlt : A.length < 11 := by omega
        have hei1 := hei.1; have hei2 := hei.2.1
        have happ : toList (h + 1) ⟨A ++ [(k', v')], X ++ [sub]⟩ =
            toList (h + 1) ⟨A, X⟩ ++ (k', v') :: toList h sub := by
          rcases List.eq_nil_or_concat X with rfl | ⟨X', x, rfl⟩
          · simp at hX
          · simp only [List.concat_eq_append] at hX ⊢
            have hX' : X'.length = A.length := by simpa using hX
            rw [toList_last (by simpa using hX), toList_last hX', preT_concat hX']
            simp
        obtain ⟨r', a4, k1, k2, k3⟩ := ih es (by omega) (fun c hc => hes c (by simp [hc]))
          (A ++ [(k', v')]) (X ++ [sub]) (by simp [hX])
          (by
            intro c hc
            rcases List.mem_append.1 hc with hc | hc
            · exact hXi c hc
            · rw [List.mem_singleton.1 hc]; exact ⟨by omega, by omega, s2⟩)
          (len + (1 + sublen)) (by rw [happ, hlen, s4]; simp; omega) a3 (by simp; omega)
        refine ⟨r', a4, by simp [g1, Tree.pushInternal, Tree.len, hlt, k1], ?_, fun hg tk tv => ?_⟩
        · intro y hy
          obtain ⟨m1, m2, ⟨out, m3, m4⟩, m5⟩ := k2 y hy
          refine ⟨by rw [m1]; simp; omega, m2, ⟨(k', v') :: (toList h sub ++ out), ?_, ?_⟩, m5⟩
          · rw [m3, happ]; simp
          · rw [postT_cons]
            exact ⟨⟨⟨a, a1, hk⟩, ⟨a1, a2, hv⟩⟩, All2.append s3 m4⟩
        · obtain ⟨q1, _⟩ := g3 (hgood hg tk tv) tk tv
          obtain ⟨e1, e2⟩ := k3 q1 tk tv
          exact ⟨e1, fun ht => e2 fun kv hkv => ht kv (by simp [hkv])⟩

theorem cloneSubtree_spec (ck : Cloner K) (cv : Cloner V) {h : Nat} {t : Tree K V} (hb : Below h t) (hl : t.len ≤ 11)
    (a : Alloc) : CloneRes ck cv (toList h t) a (cloneSubtree ck cv h t a) (SubClone ck cv h t) := by
  induction h generalizing t a with
  | zero =>
    obtain ⟨ks, es⟩ := t
    have : es = [] := hb
    subst this
    simp only [cloneSubtree]
    cases hr : a.request with
    | mk g a1 =>
    cases g with
    | false =>
      refine ⟨_, a1, rfl, by simp, fun hg _ _ => ?_⟩
      have := hg.head; rw [hr] at this; simp at this
    | true =>
      obtain ⟨r, a2, g1, g2, g3⟩ := cloneLeafLoop_spec ck cv ks [] a1 (by simpa using hl)
      have hgood : a.Good → a1.Good := fun hg => by have := hg.tail; rwa [hr] at this
      have he : (emptyLeaf : Tree K V) = ⟨[], []⟩ := rfl
      cases r with
      | error e =>
        refine ⟨.error e, a2, by simp [he, g1], by simp, fun hg tk tv => ?_⟩
        obtain ⟨e1, e2⟩ := g3 (hgood hg) tk tv
        refine ⟨e1, fun ht => ?_⟩
        obtain ⟨y, hy⟩ := e2 ht
        simp at hy
      | ok t' =>
        obtain ⟨out, rfl, ho⟩ := g2 _ rfl
        refine ⟨.ok (⟨out, []⟩, out.length), a2, by simp [he, g1, Tree.len], ?_, fun hg tk tv => ⟨(g3 (hgood hg) tk tv).1, fun _ => ⟨_, rfl⟩⟩⟩
        rintro y ⟨rfl⟩
        exact ⟨by simpa using ho.length.symm, rfl, ho, rfl⟩
  | succ h ih =>
    obtain ⟨A, C, X, c, Y, rfl, hA, hX, hY⟩ := split_edge hb.1 (Nat.zero_le _)
    have hA' : A = [] := by simpa using hA
    have hX' : X = [] := by simpa using hX
    subst hA' hX'
    simp only [List.nil_append] at hb hl ⊢
    have hci : Inner h c := hb.2 c (by simp)
    have hYi : ∀ d ∈ Y, Inner h d := fun d hd => hb.2 d (by simp [hd])
    have hc1 := hci.1; have hc2 := hci.2.1
    obtain ⟨r, a1, g1, g2, g3⟩ := ih hci.2.2 hci.2.1 a
    have hg0 : getE (c :: Y) 0 = .ok c := rfl
    have e1 := toList_split (h := h) (A := []) (C := C) (X := []) (Y := Y) (c := c) rfl
    simp only [preT_nil, List.nil_append] at e1
    simp only [cloneSubtree, hg0, Exec.ok_bind, g1]
    cases r with
    | error e =>
      refine ⟨.error e, a1, rfl, by simp, fun hg tk tv => ?_⟩
      obtain ⟨q1, q2⟩ := g3 hg tk tv
      refine ⟨q1, fun ht => ?_⟩
      obtain ⟨y, hy⟩ := q2 fun kv hkv => ht kv (by rw [e1]; simp [hkv])
      simp at hy
    | ok first =>
      obtain ⟨first, len⟩ := first
      obtain ⟨s1, s2, s3, s4⟩ := g2 _ rfl
      simp only at s1 s2 s3 s4
      cases hr : a1.request with
      | mk g a2 =>
      have hgood : a.Good → CloneKeeps ck → CloneKeeps cv → g = true ∧ a2.Good := fun hg tk tv => by
        have e1 := (g3 hg tk tv).1.head; have e2 := (g3 hg tk tv).1.tail
        rw [hr] at e1 e2; exact ⟨e1, e2⟩
      cases g with
      | false =>
        exact ⟨.error .allocError, a2, rfl, by simp, fun hg tk tv => absurd (hgood hg tk tv).1 (by simp)⟩
      | true =>
        have hfi : Inner h first := ⟨by omega, by omega, s2⟩
        obtain ⟨r', a3, k1, k2, k3⟩ := cloneInternalLoop_spec ck cv (h := h) (fun e a => cloneSubtree ck cv h e a)
          (fun t a hi => ih hi.2.2 hi.2.1 a) C Y hY hYi [] [first] rfl
          (by intro d hd; rw [List.mem_singleton.1 hd]; exact hfi) len
          (by rw [s4]; simp [toList_succ, inter]) a2 (by simpa using hl)
        refine ⟨r', a3, by simpa using k1, ?_, fun hg tk tv => ⟨(k3 (hgood hg tk tv).2 tk tv).1, fun ht =>
          (k3 (hgood hg tk tv).2 tk tv).2 fun kv hkv => ht kv (by rw [e1]; simp [hkv])⟩⟩
        intro y hy
        obtain ⟨m1, m2, ⟨out, m3, m4⟩, m5⟩ := k2 y hy
        refine ⟨by rw [m1]; simp, m2, ?_, m5⟩
        have e2 : toList (h + 1) ⟨[], [first]⟩ = toList h first := by simp [toList_succ, inter]
        rw [e1, m3, e2]
        exact All2.append s3 m4

/-- `try_clone` never faults; on success the clone is a valid map whose entries are clones of the original's entries,
in the same order, with exact length. -/
theorem Map.tryClone_wf (ck : Cloner K) (cv : Cloner V) {x : Nat} {m : Map K V} (h : m.Shaped x) (a : Alloc) :
    ∃ r a', m.tryClone ck cv a = .ok (r, a') ∧
      (∀ c, r = .ok c → c.WF ∧ All2 (PairClone ck cv) m.toList c.toList) ∧
      (a.Good → CloneKeeps ck → CloneKeeps cv → a'.Good ∧ ((∀ kv ∈ m.toList, ClonesAt ck kv.1 ∧ ClonesAt cv kv.2) → ∃ c, r = .ok c)) := by
  unfold Map.tryClone
  by_cases h0 : m.len = 0
  · have hl : m.toList = [] := List.eq_nil_of_length_eq_zero (by have := h.len; simp [Map.len] at h0; omega)
    refine ⟨.ok Map.new, a, by simp [h0], ?_, fun hg _ _ => ⟨hg, fun _ => ⟨_, rfl⟩⟩⟩
    rintro c ⟨rfl⟩
    exact ⟨Map.WF_new, by simp [hl, All2]⟩
  · obtain ⟨s1, s2, s3⟩ := h.shape
    obtain ⟨r, a', g1, g2, g3⟩ := cloneSubtree_spec ck cv s3 s1 a
    simp only [h0, if_false, g1, Exec.ok_bind]
    cases r with
    | error e =>
      refine ⟨.error e, a', rfl, by simp, fun hg tk tv => ?_⟩
      obtain ⟨q1, q2⟩ := g3 hg tk tv
      refine ⟨q1, fun ht => ?_⟩
      obtain ⟨y, hy⟩ := q2 ht
      simp at hy
    | ok t =>
      obtain ⟨t, len⟩ := t
      obtain ⟨k1, k2, k3, k4⟩ := g2 _ rfl
      simp only at k1 k2 k3 k4
      refine ⟨_, a', rfl, ?_, fun hg tk tv => ⟨(g3 hg tk tv).1, fun _ => ⟨_, rfl⟩⟩⟩
      rintro c ⟨rfl⟩
      exact ⟨⟨⟨by simpa [k1] using s1, by simpa [k1] using s2, k2⟩, by simpa [Map.toList] using k4, by simp, by simp⟩, k3⟩

theorem _root_.Verif.Spec.All2.sorted [Ord K] [Std.TransOrd K] {l l' : List (K × V)}
    (h : All2 (fun x y => compare x.1 y.1 = .eq) l l') (hs : Sorted l) : Sorted l' := by
  induction l generalizing l' with
  | nil => cases l' with
    | nil => exact hs
    | cons => simp [All2] at h
  | cons x l ih => cases l' with
    | nil => simp [All2] at h
    | cons y l' =>
      obtain ⟨h1, h2⟩ := h
      obtain ⟨s1, s2⟩ := List.pairwise_cons.1 hs
      refine List.pairwise_cons.2 ⟨fun z hz => ?_, ih h2 s2⟩
      obtain ⟨w, hw, he⟩ := h2.mem_right hz
      have := s1 w hw
      exact Std.TransCmp.lt_of_eq_of_lt (Std.OrientedCmp.eq_symm h1) (Std.TransCmp.lt_of_lt_of_eq this he)

end Verif.BTree
