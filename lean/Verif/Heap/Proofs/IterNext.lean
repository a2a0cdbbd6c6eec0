import Verif.Heap.Iter
import Verif.Heap.Proofs.RemoveMap
/-
Iteration in memory does what the level-1 model says: `next_unchecked`, `next_back_unchecked`.
-/
namespace Verif.Heap
open Verif
open Verif.BTree (B MIN_LEN CAPACITY Tree Handle setE sliceInsert sliceRemove Map emptyLeaf)

variable {K V Q α β : Type} {E : String → Prop}

/-- A handle on a leaf edge or on a pair, and the pointer it stands for. -/
theorem HandleAt.mk' {h : Nat} {t n : ATree K V} {up : List Nat} {i : Nat} (hn : t.at up.reverse = some n) (hl : up.length ≤ h) :
    HandleAt h t ⟨up, i⟩ ⟨h - up.length, n.addr, i⟩ := ⟨n, hn, hl, rfl⟩

theorem ATree.at_snoc {t c : ATree K V} {p : List Nat} {i : Nat} (h : t.at (p ++ [i]) = some c) :
    ∃ n X Y, t.at p = some n ∧ n.edges = X ++ c :: Y ∧ X.length = i := by
  induction p generalizing t with
  | nil =>
    obtain ⟨X, d, Y, e, hi, hd⟩ := ATree.at_split h
    simp only [ATree.at, Option.some.injEq] at hd
    subst hd
    exact ⟨t, X, Y, rfl, e, hi⟩
  | cons j p ih =>
    rw [List.cons_append] at h
    obtain ⟨X, d, Y, e, hi, hd⟩ := ATree.at_split h
    obtain ⟨n, X', Y', h1, h2, h3⟩ := ih hd
    refine ⟨n, X', Y', ?_, h2, h3⟩
    obtain ⟨a, kvs, es⟩ := t
    dsimp only at e; subst e
    rw [ATree.at_cons hi, h1]

/-- Going up from a node below the root. -/
theorem ascend_at {l : Link} {h : Nat} {t c : ATree K V} {up : List Nat} {i : Nat} (hc : t.at (i :: up).reverse = some c)
    (hl : (i :: up).length ≤ h) :
    ∃ n, t.at up.reverse = some n ∧
    Triple E (tree l h t) (ascend ⟨h - (i :: up).length, c.addr⟩) (fun r => fact (r = some ⟨h - up.length, n.addr, i⟩) ∗ tree l h t) := by
  rw [List.reverse_cons] at hc
  obtain ⟨n, X, Y, hn, e, hi⟩ := ATree.at_snoc hc
  refine ⟨n, hn, ?_⟩
  simp only [List.length_cons] at hl
  refine Triple.readPath hn (by simp; omega) fun l' => ?_
  have hh : h - up.reverse.length = (h - (i :: up).length) + 1 := by simp only [List.length_reverse, List.length_cons]; omega
  rw [hh]
  have := ascend_child (E := E) (l := l') (h := h - (i :: up).length) e hi
  have hh2 : h - up.length = (h - (i :: up).length) + 1 := by simp only [List.length_cons]; omega
  rw [hh2]
  exact this

/-- What `next_unchecked` leaves: the pair and the new front edge. -/
def NextRes (h : Nat) (t : ATree K V) (kv f : Handle) (o : HRef × HRef) : Prop :=
  HandleAt h t kv o.1 ∧ HandleAt h t f o.2

/-- `next` at an edge with a pair to its right in an internal node. -/
theorem nextStep_here {l : Link} {h hn i : Nat} {t n : ATree K V} {up p : List Nat} {c0 : Tree K V} (hn0 : t.at up.reverse = some n) (hle : up.length ≤ h)
    (hh : h - up.length = hn + 1) (hi : i < n.kvs.length) (hc : getE n.erase.edges (i + 1) = .ok c0) (hp : BTree.firstLeafPath hn c0 = .ok p) :
    Triple E (tree l h t) (nextStep ⟨h - up.length, n.addr, i⟩)
      (fun o => fact (∃ x, o = .inr x ∧ NextRes h t ⟨up, i⟩ ⟨p.reverse ++ (i + 1) :: up, 0⟩ x) ∗ tree l h t) := by
  have hle' : up.reverse.length ≤ h := by simpa using hle
  rw [ATree.erase_edges] at hc
  obtain ⟨X, c, Y, e, hX, rfl⟩ := getE_map_ok hc
  have hg : n.edges[i + 1]? = some c := by rw [e, ← hX]; simp
  have hatc : t.at (up.reverse ++ [i + 1]) = some c := by rw [ATree.at_append hn0]; simp [ATree.at, hg]
  unfold nextStep
  dsimp only
  refine Triple.callEq (P₀ := tree l h t) (Triple.readPath hn0 hle' fun l' => lenOf_tree) ?_
  rw [if_pos hi]
  refine Triple.callEq (P₀ := tree l h t) (Triple.readPath hn0 hle' fun l' => newKv_tree hi) ?_
  refine Triple.callEq (P₀ := tree l h t) (Triple.readPath hn0 hle' fun l' => newEdge_tree (by dsimp only; omega)) ?_
  refine Triple.callEq (P₀ := tree l h t) (x := ⟨hn, c.addr⟩) (Triple.readPath hn0 hle' fun l' => ?_) ?_
  · rw [List.length_reverse, hh]
    exact descend_tree hg
  have hlc : (up.reverse ++ [i + 1]).length ≤ h := by simp; omega
  have hhc : hn = h - (up.reverse ++ [i + 1]).length := by simp; omega
  dsimp only
  refine Triple.call (P₀ := tree l h t) (Triple.readPath hatc hlc fun l' => by rw [← hhc]; exact firstLeafEdge_spec hp) fun f => ?_
  simp only [sep_assoc]
  refine Triple.getFact fun hf => ?_
  obtain ⟨m, hm, hql, rfl⟩ := hf
  refine Triple.ofPure (Ent.putFact ⟨_, rfl, HandleAt.mk' hn0 hle, ?_⟩ (by simp only [sep_emp]; exact Ent.refl _))
  refine ⟨m, ?_, by simp; omega, ?_⟩
  · have e2 : (p.reverse ++ (i + 1) :: up).reverse = (up.reverse ++ [i + 1]) ++ p := by simp
    show t.at (p.reverse ++ (i + 1) :: up).reverse = _
    rw [e2, ATree.at_append hatc, hm]
  · simp only [List.length_append, List.length_reverse, List.length_cons]
    rw [show h - (p.length + (up.length + 1)) = 0 by omega]

/-- `next` at the last edge of a node that is not the root. -/
theorem nextStep_up {l : Link} {h i j : Nat} {t n : ATree K V} {up : List Nat} (hn0 : t.at (j :: up).reverse = some n) (hle : (j :: up).length ≤ h)
    (hi : ¬ i < n.kvs.length) :
    Triple E (tree l h t) (nextStep ⟨h - (j :: up).length, n.addr, i⟩)
      (fun o => fact (∃ r, o = .inl r ∧ HandleAt h t ⟨up, j⟩ r) ∗ tree l h t) := by
  have hle' : (j :: up).reverse.length ≤ h := by simpa using hle
  obtain ⟨m, hm, htr⟩ := ascend_at (E := E) (l := l) hn0 hle
  unfold nextStep
  dsimp only
  refine Triple.callEq (P₀ := tree l h t) (Triple.readPath hn0 hle' fun l' => lenOf_tree) ?_
  rw [if_neg hi]
  refine Triple.callEq (P₀ := tree l h t) htr ?_
  dsimp only
  refine Triple.ofPure (Ent.putFact ⟨_, rfl, HandleAt.mk' hm (by simp only [List.length_cons] at hle; omega)⟩ (by simp only [sep_emp]; exact Ent.refl _))

theorem nextLoop_spec {l : Link} {h : Nat} {t : ATree K V} {kv f : Handle} : ∀ {up : List Nat} {i bnd : Nat} {r : HRef},
    BTree.nextLoop h t.erase (i :: up) = .ok (kv, f) → HandleAt h t ⟨up, i⟩ r → up.length < bnd →
    Triple E (tree l h t) (loopN nextStep bnd r) (fun o => fact (∃ x, o = .inr x ∧ NextRes h t kv f x) ∗ tree l h t) := by
  intro up
  induction up with
  | nil =>
    intro i bnd r hx hat hb
    cases bnd with
    | zero => omega
    | succ bnd =>
    obtain ⟨n, hn, hle, rfl⟩ := hat
    rw [BTree.nextLoop] at hx
    obtain ⟨x, hx1, hx⟩ := Exec.bind_eq_ok.1 hx
    obtain ⟨n', hn', hl', rfl⟩ := nodeAt_erase hx1
    rw [hn] at hn'
    simp only [Option.some.injEq] at hn'
    subst hn'
    rw [List.length_reverse] at hx
    cases hh : h - ([] : List Nat).length with
    | zero => rw [hh] at hx; cases hx
    | succ hn1 =>
      rw [hh] at hx
      dsimp only at hx
      split at hx
      · next hi =>
        obtain ⟨c0, hc, hx⟩ := Exec.bind_eq_ok.1 hx
        obtain ⟨p, hp, hx⟩ := Exec.bind_eq_ok.1 hx
        simp only [Exec.ok.injEq, Prod.mk.injEq] at hx
        obtain ⟨rfl, rfl⟩ := hx
        rw [loopN_succ, ← hh]
        refine Triple.seq (nextStep_here hn hle hh (by simpa using hi) hc hp) fun o => ?_
        refine Triple.getFact fun ho => ?_
        obtain ⟨x, rfl, hxr⟩ := ho
        exact Triple.ofPure (Ent.putFact ⟨x, rfl, hxr⟩ (Ent.refl _))
      · simp [BTree.nextLoop] at hx
  | cons j up ih =>
    intro i bnd r hx hat hb
    cases bnd with
    | zero => omega
    | succ bnd =>
    obtain ⟨n, hn, hle, rfl⟩ := hat
    rw [BTree.nextLoop] at hx
    obtain ⟨x, hx1, hx⟩ := Exec.bind_eq_ok.1 hx
    obtain ⟨n', hn', hl', rfl⟩ := nodeAt_erase hx1
    rw [hn] at hn'
    simp only [Option.some.injEq] at hn'
    subst hn'
    rw [List.length_reverse] at hx
    cases hh : h - (j :: up).length with
    | zero => rw [hh] at hx; cases hx
    | succ hn1 =>
      rw [hh] at hx
      dsimp only at hx
      split at hx
      · next hi =>
        obtain ⟨c0, hc, hx⟩ := Exec.bind_eq_ok.1 hx
        obtain ⟨p, hp, hx⟩ := Exec.bind_eq_ok.1 hx
        simp only [Exec.ok.injEq, Prod.mk.injEq] at hx
        obtain ⟨rfl, rfl⟩ := hx
        rw [loopN_succ, ← hh]
        refine Triple.seq (nextStep_here hn hle hh (by simpa using hi) hc hp) fun o => ?_
        refine Triple.getFact fun ho => ?_
        obtain ⟨x, rfl, hxr⟩ := ho
        exact Triple.ofPure (Ent.putFact ⟨x, rfl, hxr⟩ (Ent.refl _))
      · next hi =>
        rw [loopN_succ, ← hh]
        refine Triple.seq (nextStep_up hn hle (by simpa using hi)) fun o => ?_
        refine Triple.getFact fun ho => ?_
        obtain ⟨r, rfl, hr⟩ := ho
        exact ih hx hr (by simp only [List.length_cons] at hb; omega)

theorem nextUnchecked_spec {l : Link} {h bnd : Nat} {t : ATree K V} {front kv f : Handle} {r : HRef}
    (hx : BTree.nextUnchecked h t.erase front = .ok (kv, f)) (hat : HandleAt h t front r) (hb : h ≤ bnd) :
    Triple E (tree l h t) (nextUnchecked bnd r) (fun o => fact (NextRes h t kv f o) ∗ tree l h t) := by
  obtain ⟨up, i⟩ := front
  obtain ⟨n, hn, hle, rfl⟩ := hat
  dsimp only at hn hle
  have hle' : up.reverse.length ≤ h := by simpa using hle
  simp only [BTree.nextUnchecked] at hx
  obtain ⟨x, hx1, hx⟩ := Exec.bind_eq_ok.1 hx
  obtain ⟨n', hn', hl', rfl⟩ := nodeAt_erase hx1
  rw [hn] at hn'
  simp only [Option.some.injEq] at hn'
  subst hn'
  dsimp only at hx
  unfold nextUnchecked
  dsimp only
  refine Triple.callEq (P₀ := tree l h t) (Triple.readPath hn hle' fun l' => lenOf_tree) ?_
  split at hx
  · next hi =>
    have hi' : i < n.kvs.length := by simpa using hi
    simp only [Exec.ok.injEq, Prod.mk.injEq] at hx
    obtain ⟨rfl, rfl⟩ := hx
    rw [if_pos hi']
    refine Triple.callEq (P₀ := tree l h t) (Triple.readPath hn hle' fun l' => newKv_tree hi') ?_
    refine Triple.callEq (P₀ := tree l h t) (Triple.readPath hn hle' fun l' => newEdge_tree (by dsimp only; omega)) ?_
    refine Triple.ofPure (Ent.putFact ⟨HandleAt.mk' hn hle, HandleAt.mk' hn hle⟩ (by simp only [sep_emp]; exact Ent.refl _))
  · next hi =>
    have hi' : ¬ i < n.kvs.length := by simpa using hi
    rw [if_neg hi']
    cases up with
    | nil => simp [BTree.nextLoop] at hx
    | cons j up =>
      obtain ⟨m, hm, htr⟩ := ascend_at (E := E) (l := l) hn hle
      refine Triple.callEq (P₀ := tree l h t) htr ?_
      dsimp only
      simp only [List.length_cons] at hle
      refine Triple.call (P₀ := tree l h t) (nextLoop_spec (bnd := bnd) hx (HandleAt.mk' hm (by omega)) (by omega)) fun o => ?_
      simp only [sep_assoc]
      refine Triple.getFact fun ho => ?_
      obtain ⟨x, rfl, hxr⟩ := ho
      exact Triple.ofPure (Ent.putFact hxr (by simp only [sep_emp]; exact Ent.refl _))

/-! ### backwards -/

/-- `next_back` at an edge with a pair to its left in an internal node. -/
theorem nextBackStep_here {l : Link} {h hn i j : Nat} {t n : ATree K V} {up p : List Nat} {c0 : Tree K V} (hn0 : t.at up.reverse = some n) (hle : up.length ≤ h)
    (hh : h - up.length = hn + 1) (hi : 0 < i) (hin : i - 1 < n.kvs.length) (hc : getE n.erase.edges (i - 1) = .ok c0) (hp : BTree.lastLeafPath hn c0 = .ok (p, j)) :
    Triple E (tree l h t) (nextBackStep ⟨h - up.length, n.addr, i⟩)
      (fun o => fact (∃ x, o = .inr x ∧ NextRes h t ⟨up, i - 1⟩ ⟨p.reverse ++ (i - 1) :: up, j⟩ x) ∗ tree l h t) := by
  have hle' : up.reverse.length ≤ h := by simpa using hle
  rw [ATree.erase_edges] at hc
  obtain ⟨X, c, Y, e, hX, rfl⟩ := getE_map_ok hc
  have hg : n.edges[i - 1]? = some c := by rw [e, ← hX]; simp
  have hatc : t.at (up.reverse ++ [i - 1]) = some c := by rw [ATree.at_append hn0]; simp [ATree.at, hg]
  unfold nextBackStep
  dsimp only
  rw [if_pos hi]
  refine Triple.callEq (P₀ := tree l h t) (Triple.readPath hn0 hle' fun l' => newKv_tree hin) ?_
  refine Triple.callEq (P₀ := tree l h t) (Triple.readPath hn0 hle' fun l' => newEdge_tree (by dsimp only; omega)) ?_
  refine Triple.callEq (P₀ := tree l h t) (x := ⟨hn, c.addr⟩) (Triple.readPath hn0 hle' fun l' => ?_) ?_
  · rw [List.length_reverse, hh]
    exact descend_tree hg
  have hlc : (up.reverse ++ [i - 1]).length ≤ h := by simp; omega
  have hhc : hn = h - (up.reverse ++ [i - 1]).length := by simp; omega
  dsimp only
  refine Triple.call (P₀ := tree l h t) (Triple.readPath hatc hlc fun l' => by rw [← hhc]; exact lastLeafEdge_spec hp) fun f => ?_
  simp only [sep_assoc]
  refine Triple.getFact fun hf => ?_
  obtain ⟨m, hm, hql, _, rfl⟩ := hf
  refine Triple.ofPure (Ent.putFact ⟨_, rfl, HandleAt.mk' hn0 hle, ?_⟩ (by simp only [sep_emp]; exact Ent.refl _))
  refine ⟨m, ?_, by simp; omega, ?_⟩
  · have e2 : (p.reverse ++ (i - 1) :: up).reverse = (up.reverse ++ [i - 1]) ++ p := by simp
    show t.at (p.reverse ++ (i - 1) :: up).reverse = _
    rw [e2, ATree.at_append hatc, hm]
  · simp only [List.length_append, List.length_reverse, List.length_cons]
    rw [show h - (p.length + (up.length + 1)) = 0 by omega]

/-- `next_back` at the first edge of a node that is not the root. -/
theorem nextBackStep_up {l : Link} {h i j : Nat} {t n : ATree K V} {up : List Nat} (hn0 : t.at (j :: up).reverse = some n) (hle : (j :: up).length ≤ h)
    (hi : ¬ 0 < i) :
    Triple E (tree l h t) (nextBackStep ⟨h - (j :: up).length, n.addr, i⟩)
      (fun o => fact (∃ r, o = .inl r ∧ HandleAt h t ⟨up, j⟩ r) ∗ tree l h t) := by
  obtain ⟨m, hm, htr⟩ := ascend_at (E := E) (l := l) hn0 hle
  unfold nextBackStep
  dsimp only
  rw [if_neg hi]
  refine Triple.callEq (P₀ := tree l h t) htr ?_
  dsimp only
  refine Triple.ofPure (Ent.putFact ⟨_, rfl, HandleAt.mk' hm (by simp only [List.length_cons] at hle; omega)⟩ (by simp only [sep_emp]; exact Ent.refl _))

theorem kvAt_lt {h : Nat} {t n : ATree K V} {up : List Nat} {i : Nat} {x : K × V} (hn : t.at up.reverse = some n)
    (hk : BTree.kvAt h t.erase ⟨up, i⟩ = .ok x) : i < n.kvs.length := by
  simp only [BTree.kvAt] at hk
  obtain ⟨y, hy, hk⟩ := Exec.bind_eq_ok.1 hk
  obtain ⟨n', hn', hl, rfl⟩ := nodeAt_erase hy
  rw [hn] at hn'
  simp only [Option.some.injEq] at hn'
  subst hn'
  rw [ATree.erase_kvs] at hk
  obtain ⟨A, C, e, hA⟩ := getE_ok hk
  rw [e]; simp; omega

theorem nextBackLoop_spec {l : Link} {h : Nat} {t : ATree K V} {kv f : Handle} {x : K × V} (hk : BTree.kvAt h t.erase kv = .ok x) :
    ∀ {up : List Nat} {i bnd : Nat} {r : HRef},
    BTree.nextBackLoop h t.erase (i :: up) = .ok (kv, f) → HandleAt h t ⟨up, i⟩ r → up.length < bnd →
    Triple E (tree l h t) (loopN nextBackStep bnd r) (fun o => fact (∃ x, o = .inr x ∧ NextRes h t kv f x) ∗ tree l h t) := by
  intro up
  induction up with
  | nil =>
    intro i bnd r hx hat hb
    cases bnd with
    | zero => omega
    | succ bnd =>
    obtain ⟨n, hn, hle, rfl⟩ := hat
    rw [BTree.nextBackLoop] at hx
    obtain ⟨x, hx1, hx⟩ := Exec.bind_eq_ok.1 hx
    obtain ⟨n', hn', hl', rfl⟩ := nodeAt_erase hx1
    rw [hn] at hn'
    simp only [Option.some.injEq] at hn'
    subst hn'
    rw [List.length_reverse] at hx
    cases hh : h - ([] : List Nat).length with
    | zero => rw [hh] at hx; cases hx
    | succ hn1 =>
      rw [hh] at hx
      dsimp only at hx
      split at hx
      · next hi =>
        obtain ⟨c0, hc, hx⟩ := Exec.bind_eq_ok.1 hx
        obtain ⟨⟨p, j⟩, hp, hx⟩ := Exec.bind_eq_ok.1 hx
        simp only [Exec.ok.injEq, Prod.mk.injEq] at hx
        obtain ⟨rfl, rfl⟩ := hx
        rw [loopN_succ, ← hh]
        refine Triple.seq (nextBackStep_here hn hle hh hi (kvAt_lt hn hk) hc hp) fun o => ?_
        refine Triple.getFact fun ho => ?_
        obtain ⟨x, rfl, hxr⟩ := ho
        exact Triple.ofPure (Ent.putFact ⟨x, rfl, hxr⟩ (Ent.refl _))
      · simp [BTree.nextBackLoop] at hx
  | cons j up ih =>
    intro i bnd r hx hat hb
    cases bnd with
    | zero => omega
    | succ bnd =>
    obtain ⟨n, hn, hle, rfl⟩ := hat
    rw [BTree.nextBackLoop] at hx
    obtain ⟨x, hx1, hx⟩ := Exec.bind_eq_ok.1 hx
    obtain ⟨n', hn', hl', rfl⟩ := nodeAt_erase hx1
    rw [hn] at hn'
    simp only [Option.some.injEq] at hn'
    subst hn'
    rw [List.length_reverse] at hx
    cases hh : h - (j :: up).length with
    | zero => rw [hh] at hx; cases hx
    | succ hn1 =>
      rw [hh] at hx
      dsimp only at hx
      split at hx
      · next hi =>
        obtain ⟨c0, hc, hx⟩ := Exec.bind_eq_ok.1 hx
        obtain ⟨⟨p, j2⟩, hp, hx⟩ := Exec.bind_eq_ok.1 hx
        simp only [Exec.ok.injEq, Prod.mk.injEq] at hx
        obtain ⟨rfl, rfl⟩ := hx
        rw [loopN_succ, ← hh]
        refine Triple.seq (nextBackStep_here hn hle hh hi (kvAt_lt hn hk) hc hp) fun o => ?_
        refine Triple.getFact fun ho => ?_
        obtain ⟨x, rfl, hxr⟩ := ho
        exact Triple.ofPure (Ent.putFact ⟨x, rfl, hxr⟩ (Ent.refl _))
      · next hi =>
        rw [loopN_succ, ← hh]
        refine Triple.seq (nextBackStep_up hn hle hi) fun o => ?_
        refine Triple.getFact fun ho => ?_
        obtain ⟨r, rfl, hr⟩ := ho
        exact ih hx hr (by simp only [List.length_cons] at hb; omega)

theorem nextBackUnchecked_spec {l : Link} {h bnd : Nat} {t : ATree K V} {back kv f : Handle} {r : HRef} {x : K × V}
    (hx : BTree.nextBackUnchecked h t.erase back = .ok (kv, f)) (hk : BTree.kvAt h t.erase kv = .ok x)
    (hat : HandleAt h t back r) (hb : h ≤ bnd) :
    Triple E (tree l h t) (nextBackUnchecked bnd r) (fun o => fact (NextRes h t kv f o) ∗ tree l h t) := by
  obtain ⟨up, i⟩ := back
  obtain ⟨n, hn, hle, rfl⟩ := hat
  dsimp only at hn hle
  have hle' : up.reverse.length ≤ h := by simpa using hle
  simp only [BTree.nextBackUnchecked] at hx
  unfold nextBackUnchecked
  dsimp only
  split at hx
  · next hi =>
    simp only [Exec.ok.injEq, Prod.mk.injEq] at hx
    obtain ⟨rfl, rfl⟩ := hx
    have hi' := kvAt_lt hn hk
    rw [if_pos hi]
    refine Triple.callEq (P₀ := tree l h t) (Triple.readPath hn hle' fun l' => newKv_tree hi') ?_
    refine Triple.callEq (P₀ := tree l h t) (Triple.readPath hn hle' fun l' => newEdge_tree (by dsimp only; omega)) ?_
    refine Triple.ofPure (Ent.putFact ⟨HandleAt.mk' hn hle, HandleAt.mk' hn hle⟩ (by simp only [sep_emp]; exact Ent.refl _))
  · next hi =>
    rw [if_neg hi]
    cases up with
    | nil => simp [BTree.nextBackLoop] at hx
    | cons j up =>
      obtain ⟨m, hm, htr⟩ := ascend_at (E := E) (l := l) hn hle
      refine Triple.callEq (P₀ := tree l h t) htr ?_
      dsimp only
      simp only [List.length_cons] at hle
      refine Triple.call (P₀ := tree l h t) (nextBackLoop_spec hk (bnd := bnd) hx (HandleAt.mk' hm (by omega)) (by omega)) fun o => ?_
      simp only [sep_assoc]
      refine Triple.getFact fun ho => ?_
      obtain ⟨x, rfl, hxr⟩ := ho
      exact Triple.ofPure (Ent.putFact hxr (by simp only [sep_emp]; exact Ent.refl _))

end Verif.Heap
