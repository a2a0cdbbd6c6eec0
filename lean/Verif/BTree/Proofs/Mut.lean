import Verif.BTree.Proofs.Clone
/-
Mutable iteration: writing values keeps every position, so references stay where they are and never coincide.
-/
namespace Verif.BTree
open Verif Verif.Spec

variable {K V Q α β : Type}

/-- Same shape: corresponding nodes have the same number of pairs. -/
def Same : Nat → Tree K V → Tree K V → Prop
  | 0, t, t' => t.kvs.length = t'.kvs.length ∧ t.edges = t'.edges
  | h + 1, t, t' => t.kvs.length = t'.kvs.length ∧ All2 (Same h) t.edges t'.edges

theorem _root_.Verif.Spec.All2.refl {R : α → α → Prop} (hR : ∀ a, R a a) (l : List α) : All2 R l l := by
  induction l with
  | nil => trivial
  | cons a l ih => exact ⟨hR a, ih⟩

theorem _root_.Verif.Spec.All2.split {R : α → β → Prop} {X : List α} {c : α} {Y : List α} {l : List β}
    (h : All2 R (X ++ c :: Y) l) : ∃ X' c' Y', l = X' ++ c' :: Y' ∧ All2 R X X' ∧ R c c' ∧ All2 R Y Y' := by
  induction X generalizing l with
  | nil => cases l with
    | nil => simp [All2] at h
    | cons y l => exact ⟨[], y, l, rfl, trivial, h.1, h.2⟩
  | cons x X ih => cases l with
    | nil => simp [All2] at h
    | cons y l =>
      obtain ⟨X', c', Y', rfl, h1, h2, h3⟩ := ih h.2
      exact ⟨y :: X', c', Y', rfl, ⟨h.1, h1⟩, h2, h3⟩

theorem Same.refl (h : Nat) (t : Tree K V) : Same h t t := by
  induction h generalizing t with
  | zero => exact ⟨rfl, rfl⟩
  | succ h ih => exact ⟨rfl, All2.refl ih _⟩

theorem All2_map_length {R : Tree K V → Tree K V → Prop} {f : Tree K V → List (K × V)}
    (hf : ∀ a b, R a b → (f a).length = (f b).length) {X X' : List (Tree K V)} (h : All2 R X X') :
    (X.map f).map List.length = (X'.map f).map List.length := by
  induction X generalizing X' with
  | nil => cases X' <;> simp_all [All2]
  | cons x X ih => cases X' with
    | nil => simp [All2] at h
    | cons y Y => simp only [List.map_cons]; rw [hf _ _ h.1, ih h.2]

theorem length_pre (ks : List α) (es : List (List α)) :
    (pre ks es).length = ((es.map List.length).take ks.length).sum + min ks.length es.length := by
  induction ks generalizing es with
  | nil => simp
  | cons k ks ih => cases es with
    | nil => simp [pre]
    | cons e es => simp [ih]; omega

theorem length_post (ks : List α) (es : List (List α)) :
    (post ks es).length = ((es.map List.length).take ks.length).sum + min ks.length es.length := by
  induction ks generalizing es with
  | nil => simp
  | cons k ks ih => cases es with
    | nil => simp [post]
    | cons e es => simp [ih]; omega

theorem length_inter_congr {ks ks' : List α} {es es' : List (List α)} (hk : ks.length = ks'.length)
    (he : es.map List.length = es'.map List.length) : (inter ks es).length = (inter ks' es').length := by
  have hel : es.length = es'.length := by simpa using congrArg List.length he
  cases es with
  | nil => cases es' with
    | nil => simpa [inter] using hk
    | cons => simp at hel
  | cons e es => cases es' with
    | nil => simp at hel
    | cons e' es' =>
      simp only [List.map_cons, List.cons.injEq] at he
      simp only [inter, List.length_append, length_post, he.1, he.2, hk]
      simp at hel
      rw [hel]

theorem Same.length {h : Nat} {t t' : Tree K V} (hs : Same h t t') : (toList h t).length = (toList h t').length := by
  induction h generalizing t t' with
  | zero => exact hs.1
  | succ h ih =>
    rw [toList_succ, toList_succ]
    exact length_inter_congr hs.1 (All2_map_length (fun a b hab => ih hab) hs.2)

theorem Same.length_preT {h : Nat} {A A' : List (K × V)} {X X' : List (Tree K V)} (hA : A.length = A'.length)
    (hs : All2 (Same h) X X') : (preT h A X).length = (preT h A' X').length := by
  have := hs.length
  simp only [preT, length_pre, All2_map_length (fun a b hab => Same.length hab) hs, hA, List.length_map, this]

theorem Same.length_postT {h : Nat} {A A' : List (K × V)} {X X' : List (Tree K V)} (hA : A.length = A'.length)
    (hs : All2 (Same h) X X') : (postT h A X).length = (postT h A' X').length := by
  have := hs.length
  simp only [postT, length_post, All2_map_length (fun a b hab => Same.length hab) hs, hA, List.length_map, this]

theorem split_len {l : List α} {a b : Nat} (h : l.length = a + b) : ∃ A B, l = A ++ B ∧ A.length = a ∧ B.length = b :=
  ⟨l.take a, l.drop a, by simp, by simp; omega, by simp; omega⟩

/-- A pair position survives in any tree of the same shape. -/
theorem Same.kvAt {h : Nat} {t t' : Tree K V} {p idx A kv B} (hs : Same h t t') (hk : KvAt h t p idx A kv B) :
    ∃ A' kv' B', KvAt h t' p idx A' kv' B' ∧ A'.length = A.length ∧ B'.length = B.length := by
  induction hk generalizing t' with
  | leaf A kv B =>
    obtain ⟨ks, es⟩ := t'
    obtain ⟨h1, h2⟩ := hs
    simp only at h1 h2
    subst h2
    obtain ⟨A', B', rfl, hA, hB⟩ := split_len (a := A.length) (b := B.length + 1) (by rw [← h1]; simp)
    cases B' with
    | nil => simp at hB
    | cons kv' B' => exact ⟨A', kv', B', hA ▸ .leaf A' kv' B', hA, by simpa using hB⟩
  | @node h A0 kv C0 X l r Y hX hY =>
    obtain ⟨ks, es⟩ := t'
    obtain ⟨h1, h2⟩ := hs
    simp only at h1 h2
    obtain ⟨X', l', Y1, rfl, x1, x2, x3⟩ := h2.split
    cases Y1 with
    | nil => simp [All2] at x3
    | cons r' Y' =>
    obtain ⟨x3, x4⟩ := x3
    obtain ⟨A', B', rfl, hA, hB⟩ := split_len (a := A0.length) (b := C0.length + 1) (by rw [← h1]; simp)
    cases B' with
    | nil => simp at hB
    | cons kv' C' =>
      have hC : C'.length = C0.length := by simpa using hB
      have hX' : X'.length = A'.length := by rw [← x1.length]; omega
      have hk' := KvAt.node (h := h) A' kv' C' X' l' r' Y' hX' (by rw [← x4.length]; omega)
      rw [hA] at hk'
      refine ⟨_, kv', _, hk', ?_, ?_⟩
      · simp only [List.length_append]
        rw [Same.length_preT hA (X := X') (X' := X')  (All2.refl (Same.refl h) _), Same.length_preT rfl x1, x2.length]
      · simp only [List.length_append]
        rw [Same.length_postT hC (X := Y') (X' := Y') (All2.refl (Same.refl h) _), Same.length_postT rfl x4, x3.length]
  | @child h c p idx A B kv A0 C0 X Y hX hY hc ih =>
    obtain ⟨ks, es⟩ := t'
    obtain ⟨h1, h2⟩ := hs
    simp only at h1 h2
    obtain ⟨X', c', Y', rfl, x1, x2, x3⟩ := h2.split
    obtain ⟨A1, kv1, B1, g1, g2, g3⟩ := ih x2
    obtain ⟨A', C', rfl, hA, hC⟩ := split_len (a := A0.length) (b := C0.length) (by rw [← h1]; simp)
    have hX' : X'.length = A'.length := by rw [← x1.length]; omega
    have hk' := KvAt.child A' C' X' Y' hX' (by rw [← x3.length]; omega) g1
    rw [← x1.length] at hk'
    refine ⟨_, kv1, _, hk', ?_, ?_⟩
    · simp only [List.length_append]
      rw [Same.length_preT hA (X := X') (X' := X') (All2.refl (Same.refl h) _), Same.length_preT rfl x1, g2]
    · simp only [List.length_append]
      rw [Same.length_postT hC (X := Y') (X' := Y') (All2.refl (Same.refl h) _), Same.length_postT rfl x3, g3]

/-- So does a leaf edge position. -/
theorem Same.edgeAt {h : Nat} {t t' : Tree K V} {p idx A B} (hs : Same h t t') (hk : EdgeAt h t p idx A B) :
    ∃ A' B', EdgeAt h t' p idx A' B' ∧ A'.length = A.length ∧ B'.length = B.length := by
  induction hk generalizing t' with
  | leaf A B =>
    obtain ⟨ks, es⟩ := t'
    obtain ⟨h1, h2⟩ := hs
    simp only at h1 h2
    subst h2
    obtain ⟨A', B', rfl, hA, hB⟩ := split_len (a := A.length) (b := B.length) (by rw [← h1]; simp)
    exact ⟨A', B', hA ▸ .leaf A' B', hA, by simpa using hB⟩
  | @child h c p idx A B A0 C0 X Y hX hY hc ih =>
    obtain ⟨ks, es⟩ := t'
    obtain ⟨h1, h2⟩ := hs
    simp only at h1 h2
    obtain ⟨X', c', Y', rfl, x1, x2, x3⟩ := h2.split
    obtain ⟨A1, B1, g1, g2, g3⟩ := ih x2
    obtain ⟨A', C', rfl, hA, hC⟩ := split_len (a := A0.length) (b := C0.length) (by rw [← h1]; simp)
    have hX' : X'.length = A'.length := by rw [← x1.length]; omega
    have hk' := EdgeAt.child A' C' X' Y' hX' (by rw [← x3.length]; omega) g1
    rw [← x1.length] at hk'
    refine ⟨_, _, hk', ?_, ?_⟩
    · simp only [List.length_append]
      rw [Same.length_preT hA (X := X') (X' := X') (All2.refl (Same.refl h) _), Same.length_preT rfl x1, g2]
    · simp only [List.length_append]
      rw [Same.length_postT hC (X := Y') (X' := Y') (All2.refl (Same.refl h) _), Same.length_postT rfl x3, g3]

/-- Replacing a pair keeps the shape. -/
theorem KvAt.replace_same {h : Nat} {t : Tree K V} {p idx A kv B} (hk : KvAt h t p idx A kv B) (kv' : K × V) {t' old}
    (he : BTree.replaceKv h t p idx kv' = .ok (t', old)) : Same h t t' := by
  unfold BTree.replaceKv at he
  induction hk generalizing t' with
  | leaf A kv B => simp [modifyAt] at he; obtain ⟨rfl, _⟩ := he; exact ⟨by simp, rfl⟩
  | @node h A0 kv C0 X l r Y hX hY =>
    simp [modifyAt] at he; obtain ⟨rfl, _⟩ := he; exact ⟨by simp, All2.refl (Same.refl h) _⟩
  | @child h c p idx A B kv A0 C0 X Y hX hY hc ih =>
    simp only [modifyAt, getE_append, Exec.ok_bind] at he
    obtain ⟨⟨c', old'⟩, h1, h2⟩ := Exec.bind_eq_ok.1 he
    simp only [setE_append, Exec.ok_bind, Exec.ok.injEq, Prod.mk.injEq] at h2
    obtain ⟨rfl, rfl⟩ := h2
    exact ⟨rfl, All2.append (All2.refl (Same.refl h) X) ⟨ih h1, All2.refl (Same.refl h) Y⟩⟩

/-- The same place has one position. -/
theorem KvAt.pos_unique {h : Nat} {t : Tree K V} {p idx A kv B A' kv' B'} (h1 : KvAt h t p idx A kv B)
    (h2 : KvAt h t p idx A' kv' B') : A = A' ∧ kv = kv' ∧ B = B' := by
  induction h1 generalizing A' B' kv' with
  | leaf A kv B =>
    generalize ht : (⟨A ++ kv :: B, []⟩ : Tree K V) = t at h2
    generalize hi : A.length = i at h2
    cases h2 with
    | leaf A' kv' B' =>
      simp only [Tree.mk.injEq, and_true] at ht
      have := List.append_inj ht hi
      simp only [List.cons.injEq] at this
      exact ⟨this.1, this.2.1, this.2.2⟩
  | @node h A0 kv C0 X l r Y hX hY =>
    generalize ht : (⟨A0 ++ kv :: C0, X ++ l :: r :: Y⟩ : Tree K V) = t at h2
    generalize hi : A0.length = i at h2
    cases h2 with
    | node A0' kv' C0' X' l' r' Y' hX' hY' =>
      simp only [Tree.mk.injEq] at ht
      obtain ⟨e1, e2⟩ := ht
      have e3 := List.append_inj e1 hi
      have e4 := List.append_inj e2 (by omega)
      simp only [List.cons.injEq] at e3 e4
      obtain ⟨rfl, rfl, rfl⟩ := e3
      obtain ⟨rfl, rfl, rfl, rfl⟩ := e4
      exact ⟨rfl, rfl, rfl⟩
  | @child h c p idx A B kv A0 C0 X Y hX hY hc ih =>
    generalize ht : (⟨A0 ++ C0, X ++ c :: Y⟩ : Tree K V) = t at h2
    generalize hp : X.length :: p = q at h2
    cases h2 with
    | node => simp at hp
    | @child _ c' p' _ A' B' _ A0' C0' X' Y' hX' hY' hc' =>
      simp only [Tree.mk.injEq, List.cons.injEq] at ht hp
      obtain ⟨hk, hx⟩ := ht
      obtain ⟨hl, rfl⟩ := hp
      obtain ⟨rfl, h2⟩ := List.append_inj hx hl
      simp only [List.cons.injEq] at h2
      obtain ⟨rfl, rfl⟩ := h2
      obtain ⟨rfl, rfl⟩ := List.append_inj hk (by omega)
      obtain ⟨rfl, rfl, rfl⟩ := ih hc'
      exact ⟨rfl, rfl, rfl⟩

/-- The handle designates position `n` of the contents. -/
def Map.At (m : Map K V) (hd : Handle) (n : Nat) : Prop := ∃ A kv B, m.Points hd A kv B ∧ A.length = n

theorem Map.At.unique {m : Map K V} {hd n n'} (h1 : m.At hd n) (h2 : m.At hd n') : n = n' := by
  obtain ⟨A, kv, B, h1, rfl⟩ := h1
  obtain ⟨A', kv', B', h2, rfl⟩ := h2
  rw [(KvAt.pos_unique h1 h2).1]

theorem Map.At.lt {m : Map K V} {hd n} (h : m.At hd n) : n < m.toList.length := by
  obtain ⟨A, kv, B, h1, rfl⟩ := h
  rw [h1.toList]; simp

theorem Map.At.kvAt {m : Map K V} {hd n} (h : m.At hd n) : m.kvAt hd = .ok (m.toList[n]'h.lt) := by
  obtain ⟨A, kv, B, h1, rfl⟩ := h
  rw [h1.kvAt]
  have := h1.toList
  simp [this]

/-- Writing through a handle changes the value at its position and moves nothing. -/
theorem Map.setVal_at {lo rt x : Nat} {m : Map K V} (h : m.ShapedN lo rt x) {hd n} (hp : m.At hd n) (v : V) :
    ∃ m', m.setVal hd v = .ok (m', (m.toList[n]'hp.lt).2) ∧ m'.ShapedN lo rt x ∧ m'.length = m.length ∧
      m'.toList = m.toList.modify n (fun kv => (kv.1, v)) ∧
      (∀ hd' n', m.At hd' n' → m'.At hd' n') ∧
      (∀ r lo mid hi, Window m r lo mid hi → ∃ lo' mid' hi', Window m' r lo' mid' hi' ∧ lo'.length = lo.length ∧
        mid'.length = mid.length) := by
  obtain ⟨A, kv, B, hp, rfl⟩ := hp
  obtain ⟨t', g1, g2, g3, g4⟩ := KvAt.replaceKv hp (kv.1, v)
  obtain ⟨m', e1, e2, e3, e4, e5, e6⟩ := Map.setVal_spec h hp v
  have hm' : m' = { m with root := t' } := by
    simp [Map.setVal, hp.kvAt, g1] at e1
    exact e1.symm
  have hsame : Same m.height m.root m'.root := by
    rw [hm']
    exact KvAt.replace_same hp (kv.1, v) g1
  have hh : m'.height = m.height := e5
  refine ⟨m', ?_, e2, e4, ?_, ?_, ?_⟩
  · rw [e1]; congr 2
    have := hp.toList
    simp [this]
  · rw [e3.toList, hp.toList]
    rw [List.modify_eq_take_cons_drop (by simp)]
    simp
  · rintro hd' n' ⟨A', kv', B', h1, rfl⟩
    obtain ⟨A2, kv2, B2, k1, k2, k3⟩ := hsame.kvAt h1
    exact ⟨A2, kv2, B2, by unfold Map.Points; rw [hh]; exact k1, k2⟩
  · intro r lo mid hi w
    obtain ⟨P, R, k1, k2, k3⟩ := hsame.edgeAt w.front
    obtain ⟨P', R', k4, k5, k6⟩ := hsame.edgeAt w.back
    have t1 := k1.toList_eq
    have t2 := k4.toList_eq
    have hlen : P.length ≤ P'.length := by rw [k2, k5]; simp
    obtain ⟨M, rfl⟩ : ∃ M, P' = P ++ M := by
      refine ⟨P'.drop P.length, ?_⟩
      have := congrArg (List.take P.length) (t1.symm.trans t2)
      rw [List.take_left' rfl, List.take_append_of_le_length hlen] at this
      have h := List.take_append_drop P.length P'
      rw [← this] at h
      exact h.symm
    have hR : R = M ++ R' := by
      have := t1.symm.trans t2
      rw [List.append_assoc] at this
      exact List.append_cancel_left this
    subst hR
    refine ⟨P, M, R', ⟨?_, ?_, ?_⟩, k2, ?_⟩
    · show BTree.toList m'.height m'.root = _
      rw [hh]; exact t1
    · unfold Map.Gap; rw [hh]; exact k1
    · unfold Map.Gap; rw [hh]; exact k4
    · simp at k5; omega

/-! ### programs -/

/-- The model state of a mutable iteration corresponds to the cursor. -/
structure MutInv {S : Type} (x : Nat) (rng : S → Range) (m : Map K V) (it : S) (refs : List Handle) (c : Cursor K V) : Prop where
  wf : m.Shaped x
  items : m.toList = c.items
  le : c.lo ≤ c.hi
  win : ∃ lo mid hi, Window m (rng it) lo mid hi ∧ lo.length = c.lo ∧ lo.length + mid.length = c.hi
  refs : All2 (fun hd n => m.At hd n) refs c.refs

theorem Gives.front {m : Map K V} {lo kv mid hi hd} (h : Gives m lo (kv :: mid) hi .front hd) :
    ∃ k, hd = some k ∧ m.At k lo.length := by
  obtain ⟨k, rfl, h⟩ := h
  exact ⟨k, rfl, _, _, _, h, rfl⟩

theorem Gives.back {m : Map K V} {lo kv mid hi hd} (h : Gives m lo (mid ++ [kv]) hi .back hd) :
    ∃ k, hd = some k ∧ m.At k (lo.length + mid.length) := by
  simp only [Gives, List.getLast?_append, List.getLast?_singleton, Option.some_or, List.dropLast_concat] at h
  obtain ⟨k, rfl, h⟩ := h
  exact ⟨k, rfl, _, _, _, h, by simp⟩

/-- What `mutRun` needs to know about the step function of an iterator. -/
def StepOK {S : Type} (rng : S → Range) (len : S → Nat → Prop)
    (step : Map K V → End → S → Exec (Option Handle × S)) : Prop :=
  ∀ (m : Map K V) (it : S) (lo mid hi : List (K × V)) (e : End), Below m.height m.root →
    Window m (rng it) lo mid hi → len it mid.length →
    ∃ hd it', step m e it = .ok (hd, it') ∧ Gives m lo mid hi e hd ∧ len it' (pop e mid).2.length ∧
      Window m (rng it') (shift lo mid hi e).1 (pop e mid).2 (shift lo mid hi e).2

theorem Iter.stepOK : StepOK (K := K) (V := V) Iter.range (fun it n => it.length = n) Iter.stepH :=
  fun _ _ _ _ _ e hb w hl => Iter.stepH_spec hb w hl e

theorem Range.stepOK : StepOK (K := K) (V := V) id (fun _ _ => True) Range.stepH := by
  intro m it lo mid hi e hb w _
  obtain ⟨hd, r', h1, h2, h3⟩ := Range.stepH_spec hb w e
  exact ⟨hd, r', h1, h2, trivial, h3⟩

theorem mutRun_spec {S : Type} {rng : S → Range} {len : S → Nat → Prop}
    {step : Map K V → End → S → Exec (Option Handle × S)} (hstep : StepOK rng len step) (as : List (MutAct V))
    {x : Nat} {m : Map K V} {it : S} {refs : List Handle} {c : Cursor K V} (hi : MutInv x rng m it refs c)
    (hlen : len it (c.hi - c.lo)) :
    ∃ m' refs', mutRun step as m it refs = .ok ((c.acts as).1, m', refs') ∧ m'.Shaped x ∧
      m'.toList = (c.acts as).2.items ∧ All2 (fun hd n => m'.At hd n) refs' (c.acts as).2.refs := by
  induction as generalizing m it refs c with
  | nil => exact ⟨m, refs, rfl, hi.wf, hi.items, hi.refs⟩
  | cons act as ih =>
    obtain ⟨wf, items, le, ⟨lo, mid, hh, w, hlo, hhi⟩, hrefs⟩ := hi
    cases act with
    | write i f =>
      cases hr : c.refs[i]? with
      | none =>
        have hr' : refs[i]? = none := by
          rw [List.getElem?_eq_none_iff] at hr ⊢
          rw [hrefs.length]; exact hr
        obtain ⟨m', refs', h1, h2⟩ := ih ⟨wf, items, le, ⟨lo, mid, hh, w, hlo, hhi⟩, hrefs⟩ hlen
        refine ⟨m', refs', ?_, ?_⟩
        · simp [mutRun, hr', h1, Cursor.acts, Cursor.act, hr]
        · simpa [Cursor.acts, Cursor.act, hr] using h2
      | some n =>
        have : ∃ hd, refs[i]? = some hd ∧ m.At hd n := by
          clear ih
          generalize c.refs = cr at hrefs hr
          induction refs generalizing cr i with
          | nil => cases cr with
            | nil => simp at hr
            | cons => simp [All2] at hrefs
          | cons r refs ihr => cases cr with
            | nil => simp at hr
            | cons n' cr =>
              cases i with
              | zero => simp at hr; subst hr; exact ⟨r, rfl, hrefs.1⟩
              | succ i => simpa using ihr i cr hrefs.2 (by simpa using hr)
        obtain ⟨hd, hr', hat⟩ := this
        obtain ⟨m1, e1, e2, e3, e4, e5, e6⟩ := Map.setVal_at wf hat (f (m.toList[n]'hat.lt).2)
        obtain ⟨lo', mid', hi', w', l1, l2⟩ := e6 _ _ _ _ w
        have hit : m1.toList = c.items.modify n (fun kv => (kv.1, f kv.2)) := by
          have hlt := hat.lt
          rw [e4, ← items, List.modify_eq_take_cons_drop hlt, List.modify_eq_take_cons_drop hlt]
        obtain ⟨m', refs', h1, h2⟩ := ih (m := m1) (it := it) (refs := refs)
          (c := { c with items := c.items.modify n (fun kv => (kv.1, f kv.2)) })
          ⟨e2, hit, le, ⟨lo', mid', hi', w', l1.trans hlo, by simp only; omega⟩, hrefs.mono (fun a b hab => e5 a b hab)⟩ hlen
        refine ⟨m', refs', ?_, ?_⟩
        · simp [mutRun, hr', hat.kvAt, e1, h1, Cursor.acts, Cursor.act, hr]
        · simpa [Cursor.acts, Cursor.act, hr] using h2
    | take e =>
      obtain ⟨hd, it', s1, s2, s3, s4⟩ := hstep m it lo mid hh e wf.below w (by
        rw [show mid.length = c.hi - c.lo by omega]; exact hlen)
      have hread := s2.read
      by_cases hm : mid = []
      · subst hm
        have hlohi : ¬ c.lo < c.hi := by simp at hhi; omega
        have hd0 : hd = none := by cases e <;> exact s2
        subst hd0
        have hact : c.act (.take e) = (none, c) := by cases e <;> simp [Cursor.act, hlohi]
        obtain ⟨m', refs', h1, h2⟩ := ih (m := m) (it := it') (refs := refs) (c := c)
          ⟨wf, items, le, ⟨_, _, _, s4, by cases e <;> simpa [shift] using hlo,
            by cases e <;> simpa [shift, pop] using hhi⟩, hrefs⟩
          (by
            have : c.hi - c.lo = (pop e ([] : List (K × V))).2.length := by cases e <;> simp [pop] <;> omega
            rw [this]; exact s3)
        refine ⟨m', refs', ?_, ?_⟩
        · simp [mutRun, s1, Map.readOpt, h1, Cursor.acts, hact]
        · simpa [Cursor.acts, hact] using h2
      · have hmid : 0 < mid.length := by cases mid <;> simp_all
        have hlohi : c.lo < c.hi := by omega
        cases e with
        | front =>
          cases mid with
          | nil => exact absurd rfl hm
          | cons kv mid =>
          obtain ⟨k, rfl, hat⟩ := s2.front
          have hkv : c.items[c.lo]? = some kv := by
            rw [← items, w.all, ← hlo]; simp
          have hact : c.act (.take .front) = (some kv, { c with lo := c.lo + 1, refs := c.refs ++ [c.lo] }) := by
            simp [Cursor.act, hlohi, hkv]
          simp only [pop] at hread s3 s4
          simp only [List.length_cons] at hhi
          obtain ⟨m', refs', h1, h2⟩ := ih (m := m) (it := it') (refs := refs ++ [k])
            (c := { c with lo := c.lo + 1, refs := c.refs ++ [c.lo] })
            ⟨wf, items, hlohi, ⟨_, _, _, s4, by simp [shift, hlo], by simp [shift]; omega⟩,
              hrefs.append ⟨hlo ▸ hat, trivial⟩⟩
            (by
              have : c.hi - (c.lo + 1) = mid.length := by omega
              simp only [this]; exact s3)
          refine ⟨m', refs', ?_, ?_⟩
          · simp [mutRun, s1, hread, h1, Cursor.acts, hact]
          · simpa [Cursor.acts, hact] using h2
        | back =>
          rcases List.eq_nil_or_concat mid with rfl | ⟨mid, kv, rfl⟩
          · exact absurd rfl hm
          simp only [List.concat_eq_append] at *
          obtain ⟨k, rfl, hat⟩ := s2.back
          simp only [List.length_append, List.length_cons, List.length_nil] at hhi
          have hix : c.hi - 1 = lo.length + mid.length := by omega
          have hkv : c.items[c.hi - 1]? = some kv := by
            rw [← items, w.all, hix]
            simp [List.getElem?_append]
          have hact : c.act (.take .back) = (some kv, { c with hi := c.hi - 1, refs := c.refs ++ [c.hi - 1] }) := by
            simp [Cursor.act, hlohi, hkv]
          simp only [pop, List.getLast?_append, List.getLast?_singleton, Option.some_or, List.dropLast_concat] at hread s3 s4
          obtain ⟨m', refs', h1, h2⟩ := ih (m := m) (it := it') (refs := refs ++ [k])
            (c := { c with hi := c.hi - 1, refs := c.refs ++ [c.hi - 1] })
            ⟨wf, items, by simp only; omega, ⟨_, _, _, s4, by simp [shift, hlo], by simp [shift]; omega⟩,
              hrefs.append ⟨hix ▸ hat, trivial⟩⟩
            (by
              have : c.hi - 1 - c.lo = mid.length := by omega
              simp only [this]; exact s3)
          refine ⟨m', refs', ?_, ?_⟩
          · simp [mutRun, s1, hread, h1, Cursor.acts, hact]
          · simpa [Cursor.acts, hact] using h2

/-! ### about cursors -/

theorem _root_.Verif.Spec.Cursor.act_keys (c : Cursor K V) (a : MutAct V) : (c.act a).2.items.map (·.1) = c.items.map (·.1) := by
  cases a with
  | take e => cases e <;> simp only [Cursor.act] <;> split <;> rfl
  | write i f =>
    simp only [Cursor.act]
    split
    · rename_i j _
      simp only
      apply List.ext_getElem?
      intro n
      simp only [List.getElem?_map, List.getElem?_modify]
      cases c.items[n]? <;> simp
      split <;> rfl
    · rfl

theorem _root_.Verif.Spec.Cursor.acts_keys (c : Cursor K V) (as : List (MutAct V)) :
    (c.acts as).2.items.map (·.1) = c.items.map (·.1) := by
  induction as generalizing c with
  | nil => rfl
  | cons a as ih => simp only [Cursor.acts]; rw [ih, Cursor.act_keys]

/-- The positions handed out are pairwise different and outside the part still to come. -/
def _root_.Verif.Spec.Cursor.Ok (c : Cursor K V) : Prop := c.refs.Nodup ∧ ∀ n ∈ c.refs, n < c.lo ∨ c.hi ≤ n

theorem _root_.Verif.Spec.Cursor.Ok.act {c : Cursor K V} (h : c.Ok) (a : MutAct V) : (c.act a).2.Ok := by
  obtain ⟨h1, h2⟩ := h
  cases a with
  | take e =>
    cases e with
    | front =>
      simp only [Cursor.act]; split
      · refine ⟨?_, ?_⟩
        · simp only [List.nodup_append, h1, true_and, List.mem_singleton]
          refine ⟨by simp, ?_⟩
          rintro n hn m rfl
          have := h2 n hn; omega
        · simp only [List.mem_append, List.mem_singleton]
          rintro n (hn | rfl)
          · have := h2 n hn; omega
          · omega
      · exact ⟨h1, h2⟩
    | back =>
      simp only [Cursor.act]; split
      · refine ⟨?_, ?_⟩
        · simp only [List.nodup_append, h1, true_and, List.mem_singleton]
          refine ⟨by simp, ?_⟩
          rintro n hn m rfl
          have := h2 n hn; omega
        · simp only [List.mem_append, List.mem_singleton]
          rintro n (hn | rfl)
          · have := h2 n hn; omega
          · omega
      · exact ⟨h1, h2⟩
  | write i f =>
    simp only [Cursor.act]; split
    · exact ⟨h1, h2⟩
    · exact ⟨h1, h2⟩

theorem _root_.Verif.Spec.Cursor.Ok.acts {c : Cursor K V} (h : c.Ok) (as : List (MutAct V)) : (c.acts as).2.Ok := by
  induction as generalizing c with
  | nil => exact h
  | cons a as ih => exact ih (h.act a)

/-- Different positions have different handles. -/
theorem refs_nodup {m : Map K V} {refs : List Handle} {ns : List Nat} (h : All2 (fun hd n => m.At hd n) refs ns)
    (hn : ns.Nodup) : refs.Nodup := by
  induction refs generalizing ns with
  | nil => exact List.nodup_nil
  | cons r refs ih => cases ns with
    | nil => simp [All2] at h
    | cons n ns =>
      obtain ⟨h1, h2⟩ := h
      obtain ⟨n1, n2⟩ := List.nodup_cons.1 hn
      refine List.nodup_cons.2 ⟨fun hr => n1 ?_, ih h2 n2⟩
      clear ih hn n1 n2
      induction refs generalizing ns with
      | nil => simp at hr
      | cons r' refs ih => cases ns with
        | nil => simp [All2] at h2
        | cons n' ns =>
          rcases List.mem_cons.1 hr with rfl | hr
          · rw [h1.unique h2.1]; simp
          · exact List.mem_cons_of_mem _ (ih _ h2.2 hr)

end Verif.BTree
