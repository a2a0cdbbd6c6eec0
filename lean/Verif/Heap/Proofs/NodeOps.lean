import Verif.Heap.Proofs.Tree
/-
The node operations of Verif/Heap/Node.lean on nodes described by lists.
-/
namespace Verif.Heap
open Verif
open Verif.BTree (B MIN_LEN CAPACITY Tree)

variable {K V α β : Type}

/-! ### one node -/

section cell
variable {lay : Layout} {l : Link} {len : Nat} {s s' : Slots (K × V)} {es es' : Slots Addr}

theorem cell_takeKv {i : Nat} {kv : K × V} (h : s.take CAPACITY i = .ok (kv, s')) :
    (cell lay l len s es).takeKv i = .ok (kv, cell lay l len s' es) := by
  simp only [Node.takeKv, cell, Slots.take_map h, Exec.ok_bind]

theorem cell_putKv {i : Nat} {kv : K × V} (h : s.put CAPACITY i kv = .ok s') :
    (cell lay l len s es).putKv i kv = .ok (cell lay l len s' es) := by
  simp only [Node.putKv, cell, Slots.put_map h, Exec.ok_bind]

theorem cell_peekKv {i : Nat} {kv : K × V} (h : s.peek CAPACITY i = .ok kv) :
    (cell lay l len s es).peekKv i = .ok kv := by
  simp only [Node.peekKv, cell, Slots.peek_map h, Exec.ok_bind]

theorem cell_insertKv {i : Nat} {kv : K × V} (hl : len < CAPACITY) (h : s.sliceInsert CAPACITY len i kv = .ok s') :
    (cell lay l len s es).insertKv i kv.1 kv.2 = .ok (cell lay l (len + 1) s' es) := by
  simp only [Node.insertKv, cell, Slots.sliceInsert_map h, Exec.ok_bind, require, decide_eq_true_eq, hl, if_true]

theorem cell_removeKv {i : Nat} {kv : K × V} (h : s.sliceRemove CAPACITY len i = .ok (kv, s')) :
    (cell lay l len s es).removeKv i = .ok (kv, cell lay l len s' es) := by
  simp only [Node.removeKv, cell, Slots.sliceRemove_map h, Exec.ok_bind]

theorem cell_shiftKv {i j n : Nat} (h : s.copyWithin CAPACITY i j n = .ok s') :
    (cell lay l len s es).shiftKv i j n = .ok (cell lay l len s' es) := by
  simp only [Node.shiftKv, cell, Slots.copyWithin_map h, Exec.ok_bind]

theorem cell_insertEdge {n i : Nat} {e : Addr} (h : es.sliceInsert EDGES n i e = .ok es') :
    (cell .internal l len s es).insertEdge n i e = .ok (cell .internal l len s es') := by
  simp only [Node.insertEdge, cell, if_true, h, Exec.ok_bind]

theorem cell_removeEdge {n i : Nat} {e : Addr} (h : es.sliceRemove EDGES n i = .ok (e, es')) :
    (cell .internal l len s es).removeEdge n i = .ok (e, cell .internal l len s es') := by
  simp only [Node.removeEdge, cell, if_true, h, Exec.ok_bind]

theorem cell_shiftEdges {i j n : Nat} (h : es.copyWithin EDGES i j n = .ok es') :
    (cell .internal l len s es).shiftEdges i j n = .ok (cell .internal l len s es') := by
  simp only [Node.shiftEdges, cell, if_true, h, Exec.ok_bind]

theorem cell_peekEdge {i : Nat} {e : Addr} (h : es.peek EDGES i = .ok e) :
    (cell .internal l len s es).peekEdge i = .ok e := by
  simp only [Node.peekEdge, cell, if_true, h]

theorem cell_setLen {n : Nat} : (cell lay l len s es).setLen n = cell lay l n s es := rfl

theorem cell_replaceKv {A C : List (K × V)} {kv kv' : K × V} {i : Nat} (hi : i = A.length) (hl : i < len) (hc : i < CAPACITY) :
    (cell lay l len (.ofList (A ++ kv :: C)) es).replaceKv i kv' = .ok (kv, cell lay l len (.ofList (A ++ kv' :: C)) es) := by
  have h1 : i < (cell lay l len (.ofList (A ++ kv :: C)) es).len := hl
  simp only [Node.replaceKv, require, decide_eq_true_eq, h1, if_true, Exec.ok_bind,
    cell_takeKv (Slots.take_ofList hi hc), cell_putKv (Slots.put_hole hi hc)]

end cell

variable {E : String → Prop} {P R R' : HProp K V} {Qb : β → HProp K V} {a b : Addr}

section two
variable {lay lay' : Layout} {l l' : Link} {len len' : Nat} {s s' d d' : Slots (K × V)} {es es' ds ds' : Slots Addr}

theorem Triple.bindMoveKv {f : Unit → HM K V β} {i j n : Nat} [h : HasPts a P (cell lay l len s es) R]
    [h' : HasPts b R (cell lay' l' len' d ds) R'] (hm : s.moveTo d CAPACITY i j n = .ok (s', d'))
    (hk : Triple E (pts a (cell lay l len s' es) ∗ pts b (cell lay' l' len' d' ds) ∗ R') (f ()) Qb) :
    Triple E P (moveKv a b i j n >>= f) Qb := by
  refine Triple.bindAtNodes (n' := cell lay l len s' es) (nb' := cell lay' l' len' d' ds) ?_ hk
  simp only [cell, Slots.moveTo_map hm, Exec.ok_bind]

theorem Triple.bindMoveEdgesRaw {f : Unit → HM K V β} {i j n : Nat} [h : HasPts a P (cell .internal l len s es) R]
    [h' : HasPts b R (cell .internal l' len' d ds) R'] (hm : es.moveTo ds EDGES i j n = .ok (es', ds'))
    (hk : Triple E (pts a (cell .internal l len s es') ∗ pts b (cell .internal l' len' d ds') ∗ R') (f ()) Qb) :
    Triple E P (moveEdgesRaw a b i j n >>= f) Qb := by
  refine Triple.bindAtNodes (n' := cell .internal l len s es') (nb' := cell .internal l' len' d ds') ?_ hk
  simp only [cell, and_self, if_true, hm, Exec.ok_bind]

end two

theorem Triple.bindSetLen {f : Unit → HM K V β} {lay : Layout} {l : Link} {len k : Nat} {s : Slots (K × V)} {es : Slots Addr}
    [h : HasPts a P (cell lay l len s es) R] (hk : Triple E (pts a (cell lay l k s es) ∗ R) (f ()) Qb) :
    Triple E P (atNode a (fun n => .ok ((), n.setLen k)) >>= f) Qb :=
  Triple.bindAt (h := h) (n := cell lay l len s es) (n' := cell lay l k s es) rfl hk

theorem subs_cons (h : Nat) (l : Link) (c : ATree K V) (lcs : List (Link × ATree K V)) :
    subs h ((l, c) :: lcs) = (tree l h c ∗ subs h lcs) := rfl
theorem subs_append (h : Nat) (xs ys : List (Link × ATree K V)) : subs h (xs ++ ys) = (subs h xs ∗ subs h ys) :=
  stars_append ..

/-- Correct the links of children that sit somewhere in the assertion. -/
theorem Triple.bindCorrect {f : Unit → HM K V β} {l : Link} {len h i m : Nat} {s : Slots (K × V)} {xs ys : List Addr}
    (lcs : List (Link × ATree K V)) {cs : List (ATree K V)} {as : List Addr} (P₀ : HProp K V) [hp : HasPts a P (cell .internal l len s (.ofList as)) R]
    [hp' : Has P₀ R R'] (hP : P₀ = subs h lcs) (hcs : lcs.map (·.2) = cs) (has : as = xs ++ addrs cs ++ ys)
    (hi : i = xs.length) (hm : m = cs.length) (hlen : i + cs.length ≤ len + 1) (hcap : i + cs.length ≤ EDGES)
    (hk : Triple E (pts a (cell .internal l len s (.ofList as)) ∗ kids h a i cs ∗ R') (f ()) Qb) :
    Triple E P (correctLinks a i m >>= f) Qb := by
  have e := hp.eq; have e' := hp'.eq
  rw [e, e', hP, ← sep_assoc]
  have := correctLinks_nd (E := E) (a := a) (n := cell .internal l len s (.ofList as)) (h := h) (lcs := lcs) (cs := cs) (xs := xs) (ys := ys) rfl hcs (by rw [has]; rfl) hi hm hlen hcap
  refine Triple.seq (this.frame R') fun _ => ?_
  rw [sep_assoc]; exact hk

/-- Correct one link. -/
theorem Triple.bindCorrect1 {f : Unit → HM K V β} {l lc : Link} {len h i : Nat} {s : Slots (K × V)} {xs ys : List Addr}
    {c : ATree K V} {as : List Addr} [hp : HasPts a P (cell .internal l len s (.ofList as)) R]
    [hp' : Has (tree lc h c) R R'] (has : as = xs ++ c.addr :: ys)
    (hi : i = xs.length) (hlen : i ≤ len) (hcap : i < EDGES)
    (hk : Triple E (pts a (cell .internal l len s (.ofList as)) ∗ tree (some a, some i) h c ∗ R') (f ()) Qb) :
    Triple E P (correctParentLink a i >>= f) Qb := by
  have e := hp.eq; have e' := hp'.eq
  rw [e, e', ← sep_assoc]
  have := correctParentLink_spec (E := E) (a := a) (n := cell .internal l len s (.ofList as)) (h := h) (l := lc) (c := c) (i := i) rfl hlen hcap
    (by subst has hi; simp [cell, Slots.ofList])
  refine Triple.seq (this.frame R') fun _ => ?_
  rw [sep_assoc]; exact hk

/-- End a block with its last statement seen as a step. -/
theorem Triple.last {m : HM K V α} {Q : α → HProp K V} (h : Triple E P (m >>= fun x => pure x) Q) : Triple E P m Q := by
  have e : (m >>= fun x => pure x) = m := by
    funext s
    show HM.bind m (fun x => pure x) s = m s
    unfold HM.bind
    cases m s <;> rfl
  rwa [e] at h

theorem Triple.assoc {γ : Type} {x : HM K V α} {g : α → HM K V γ} {f : γ → HM K V β}
    (h : Triple E P (x >>= fun y => (g y >>= f)) Qb) : Triple E P ((x >>= g) >>= f) Qb := by
  have e : ((x >>= g) >>= f) = (x >>= fun y => (g y >>= f)) := by
    funext s
    show HM.bind (HM.bind x g) f s = HM.bind x _ s
    unfold HM.bind
    cases x s <;> rfl
  rwa [e]

theorem Triple.bindLenEq {n : Node K V} {f : Nat → HM K V β} (k : Nat) [hp : HasPts a P n R] (hk : n.len = k)
    (h : Triple E P (f k) Qb) : Triple E P (lenOf a >>= f) Qb := Triple.bindLen (by rwa [hk])

theorem capacity_eq : CAPACITY = 11 := rfl
theorem edges_eq : EDGES = 12 := rfl

/-- Arithmetic on lengths of lists and node capacities. -/
macro "len_omega" : tactic => `(tactic|
  (have := capacity_eq; have := edges_eq
   first
   | omega
   | (simp only [List.length_append, List.length_cons, List.length_nil, List.length_map, addrs] at * <;> omega)))

/-! ### insertion and splitting -/

theorem insertFitLeaf_spec {lay : Layout} {l : Link} {A C : List (K × V)} {kv : K × V} {as : List Addr} {h i : Nat} (hi : i = A.length)
    (hc : A.length + C.length < CAPACITY) :
    Triple E (pts a (nd lay l (A ++ C) as)) (insertFitLeaf ⟨h, a, i⟩ kv) (fun _ => pts a (nd lay l (A ++ kv :: C) as)) := by
  unfold insertFitLeaf
  refine Triple.at (n' := nd lay l (A ++ kv :: C) as) (x := ()) ?_ (Ent.of_eq (sep_emp _))
  have h1 : (A ++ C).length = A.length + C.length := List.length_append
  rw [cell_insertKv (by omega) (Slots.sliceInsert_ofList h1 hi (by omega)), Exec.ok_bind]
  simp only [nd, List.length_append, List.length_cons, Nat.add_assoc]

theorem insertFitInternal_spec {l le : Link} {A C : List (K × V)} {kv : K × V} {X Y : List (ATree K V)} {e : ATree K V} {h i : Nat}
    (hi : i = A.length) (hX : X.length = A.length + 1) (hY : Y.length = C.length) (hc : A.length + C.length < CAPACITY) :
    Triple E (pts a (nd .internal l (A ++ C) (addrs (X ++ Y))) ∗ kids h a (i + 1) Y ∗ tree le h e)
      (insertFitInternal ⟨h + 1, a, i⟩ kv ⟨h, e.addr⟩)
      (fun _ => pts a (nd .internal l (A ++ kv :: C) (addrs (X ++ e :: Y))) ∗ kids h a (i + 1) (e :: Y)) := by
  unfold insertFitInternal
  refine Triple.bindReq (by simp) ?_
  refine Triple.bindLen ?_
  have h1 : (A ++ C).length = A.length + C.length := List.length_append
  refine Triple.bindAt (n' := cell .internal l ((A ++ C).length + 1) (.ofList (A ++ kv :: C)) (.ofList (addrs (X ++ Y)))) (x := ()) ?_ ?_
  · rw [cell_insertKv (by omega) (Slots.sliceInsert_ofList h1 hi (by omega)), Exec.ok_bind]
  refine Triple.bindAt (n' := nd .internal l (A ++ kv :: C) (addrs (X ++ e :: Y))) (x := ()) ?_ ?_
  · rw [cell_insertEdge (es' := .ofList (addrs (X ++ e :: Y))), Exec.ok_bind]
    · simp only [nd, List.length_append, List.length_cons, Nat.add_assoc]
    · show Slots.sliceInsert _ _ ((A ++ C).length + 1) _ _ = _
      simp only [addrs, List.map_append, List.map_cons]
      refine Slots.sliceInsert_ofList ?_ ?_ ?_ <;> len_omega
  refine Triple.last ?_
  refine Triple.bindCorrect ((le, e) :: linked a (i + 1) Y) (tree le h e ∗ kids h a (i + 1) Y) rfl (cs := e :: Y) (by simp [linked_map_snd]) (xs := addrs X) (ys := []) (by simp) ?_ ?_ ?_ ?_ ?_
  · len_omega
  · show (A ++ C).length + 1 + 1 - (i + 1) = _
    len_omega
  · len_omega
  · len_omega
  · refine Triple.ofPure (Ent.of_eq ?_)
    simp only [sep_emp]

theorem new_eq (lay : Layout) : (Node.new lay : Node K V) = nd lay (none, none) [] [] := by
  simp only [Node.new, nd, cell, Slots.map_ofList, Slots.uninit_eq, List.map_nil, List.length_nil]

theorem splitLeaf_spec {l : Link} {A C : List (K × V)} {kv : K × V} {h i : Nat} {al : Alloc} (hi : i = A.length)
    (hc : A.length + C.length + 1 ≤ CAPACITY) :
    Triple E (sched al ∗ pts a (nd .leaf l (A ++ kv :: C) [])) (splitLeaf ⟨h, a, i⟩) (fun r => sched al.request.2 ∗
      match r with
      | none => fact (al.request.1 = false) ∗ pts a (nd .leaf l (A ++ kv :: C) [])
      | some x => fact (al.request.1 = true ∧ x.1 = kv ∧ x.2.height = 0) ∗ pts a (nd .leaf l A []) ∗
          pts x.2.node (nd .leaf (none, none) C [])) := by
  unfold splitLeaf
  refine Triple.bindAlloc (fun hno => ?_) fun hyes b => ?_
  · refine Triple.ofPure (Ent.of_eq ?_)
    simp only [fact_of hno, emp_sep, sep_emp]
  · simp only []
    rw [new_eq]
    refine Triple.bindLen ?_
    have h1 : (nd .leaf l (A ++ kv :: C) []).len = A.length + C.length + 1 := by
      show (A ++ kv :: C).length = _; len_omega
    rw [h1]
    refine Triple.bindReq (by simp; omega) ?_
    refine Triple.bindAt (n' := cell .leaf l (A ++ kv :: C).length (.hole A C) (.ofList [])) (x := kv) ?_ ?_
    · exact cell_takeKv (Slots.take_ofList hi (by len_omega))
    refine Triple.bindMoveKv (s' := .ofList A) (d' := .ofList C) ?_ ?_
    · have := Slots.moveTo_hole (a := A) (b := C) (d := []) (cap := CAPACITY) (i := i + 1) (j := 0) (n := C.length)
        (by omega) rfl rfl (by omega) (by omega)
      rw [show A.length + C.length + 1 - i - 1 = C.length by omega]
      simpa using this
    refine Triple.bindAt (n' := nd .leaf l A []) (x := ()) (by rw [cell_setLen, hi]) ?_
    refine Triple.bindAt (n' := nd .leaf (none, none) C []) (x := ()) (by rw [cell_setLen, show A.length + C.length + 1 - i - 1 = C.length by omega]) ?_
    refine Triple.ofPure (Ent.putFact ⟨hyes, rfl, rfl⟩ ?_)
    ent_ac

theorem splitInternal_spec {l : Link} {A C : List (K × V)} {X Y : List (ATree K V)} {kv : K × V} {h i : Nat} {al : Alloc} (hi : i = A.length)
    (hX : X.length = A.length + 1) (hY : Y.length = C.length + 1) (hc : A.length + C.length + 1 ≤ CAPACITY) :
    Triple E (sched al ∗ pts a (nd .internal l (A ++ kv :: C) (addrs (X ++ Y))) ∗ kids h a (i + 1) Y)
      (splitInternal ⟨h + 1, a, i⟩) (fun r => sched al.request.2 ∗
      match r with
      | none => fact (al.request.1 = false) ∗ pts a (nd .internal l (A ++ kv :: C) (addrs (X ++ Y))) ∗ kids h a (i + 1) Y
      | some x => fact (al.request.1 = true ∧ x.1 = kv ∧ x.2.height = h + 1) ∗ pts a (nd .internal l A (addrs X)) ∗
          pts x.2.node (nd .internal (none, none) C (addrs Y)) ∗ kids h x.2.node 0 Y) := by
  unfold splitInternal
  refine Triple.bindAlloc (fun hno => ?_) fun hyes b => ?_
  · refine Triple.ofPure (Ent.of_eq ?_)
    simp only [fact_of hno, emp_sep, sep_emp]
  · simp only []
    rw [new_eq]
    refine Triple.bindLen ?_
    have h1 : (nd .internal l (A ++ kv :: C) (addrs (X ++ Y))).len = A.length + C.length + 1 := by
      show (A ++ kv :: C).length = _; len_omega
    rw [h1]
    refine Triple.bindReq (by simp; omega) ?_
    refine Triple.bindAt (n' := cell .internal l (A ++ kv :: C).length (.hole A C) (.ofList (addrs (X ++ Y)))) (x := kv) ?_ ?_
    · exact cell_takeKv (Slots.take_ofList hi (by len_omega))
    rw [show A.length + C.length + 1 - i - 1 = C.length by omega]
    refine Triple.bindMoveKv (s' := .ofList A) (d' := .ofList C) ?_ ?_
    · have := Slots.moveTo_hole (a := A) (b := C) (d := []) (cap := CAPACITY) (i := i + 1) (j := 0) (n := C.length)
        (by omega) rfl rfl (by omega) (by omega)
      simpa using this
    refine Triple.bindMoveEdgesRaw (es' := .ofList (addrs X)) (ds' := .ofList (addrs Y)) ?_ ?_
    · have := Slots.moveTo_tail (a := addrs X) (b := addrs Y) (d := []) (cap := EDGES) (i := i + 1) (j := 0) (n := C.length + 1)
        (by len_omega) (by len_omega) rfl (by len_omega) (by len_omega)
      simpa using this
    refine Triple.bindAt (n' := nd .internal l A (addrs X)) (x := ()) (by rw [cell_setLen, hi]) ?_
    refine Triple.bindAt (n' := nd .internal (none, none) C (addrs Y)) (x := ()) (by rw [cell_setLen]) ?_
    refine Triple.bindCorrect (linked a (i + 1) Y) (kids h a (i + 1) Y) rfl (cs := Y) (linked_map_snd ..) (xs := []) (ys := []) (by simp)
      rfl (by omega) (by omega) (by len_omega) ?_
    refine Triple.ofPure (Ent.putFact ⟨hyes, rfl, rfl⟩ ?_)
    ent_ac

/-! ### walking -/

theorem Triple.bindNewEdge {f : HRef → HM K V β} {n : Node K V} {ht i : Nat} [hp : HasPts a P n R] (hi : i ≤ n.len)
    (h : Triple E P (f ⟨ht, a, i⟩) Qb) : Triple E P (newEdge ⟨ht, a⟩ i >>= f) Qb := by
  show Triple E P ((lenOf a >>= fun n => HM.req (i ≤ n) >>= fun _ => pure ⟨ht, a, i⟩) >>= f) Qb
  have e := hp.eq; rw [e] at h ⊢
  refine Triple.seq (Q := fun r => fact (r = ⟨ht, a, i⟩) ∗ pts a n ∗ R) ?_ fun r => Triple.ofFact fun e => e ▸ h
  refine Triple.bindLen ?_
  refine Triple.bindReq (by simpa using hi) ?_
  exact Triple.ofPure (Ent.fact_right rfl (Ent.refl _))

theorem Triple.bindNewKv {f : HRef → HM K V β} {n : Node K V} {ht i : Nat} [hp : HasPts a P n R] (hi : i < n.len)
    (h : Triple E P (f ⟨ht, a, i⟩) Qb) : Triple E P (newKv ⟨ht, a⟩ i >>= f) Qb := by
  show Triple E P ((lenOf a >>= fun n => HM.req (i < n) >>= fun _ => pure ⟨ht, a, i⟩) >>= f) Qb
  have e := hp.eq; rw [e] at h ⊢
  refine Triple.seq (Q := fun r => fact (r = ⟨ht, a, i⟩) ∗ pts a n ∗ R) ?_ fun r => Triple.ofFact fun e => e ▸ h
  refine Triple.bindLen ?_
  refine Triple.bindReq (by simpa using hi) ?_
  exact Triple.ofPure (Ent.fact_right rfl (Ent.refl _))

theorem Triple.bindDescend {f : NRef → HM K V β} {l : Link} {len ht i : Nat} {s : Slots (K × V)} {as : List Addr} {c : Addr}
    [hp : HasPts a P (cell .internal l len s (.ofList as)) R] (hi : as[i]? = some c) (hc : i < EDGES)
    (h : Triple E P (f ⟨ht, c⟩) Qb) : Triple E P (descend ⟨ht + 1, a, i⟩ >>= f) Qb := by
  have e := hp.eq; rw [e] at h ⊢
  refine Triple.seq (Q := fun r => fact (r = ⟨ht, c⟩) ∗ pts a (cell .internal l len s (.ofList as)) ∗ R) ?_
    fun r => Triple.ofFact fun e => e ▸ h
  unfold descend
  refine Triple.bindReq (by simp) ?_
  refine Triple.bindGet ?_
  refine Triple.bindLift (cell_peekEdge (Slots.peek_get hi hc)) ?_
  exact Triple.ofPure (Ent.fact_right rfl (Ent.refl _))

theorem Triple.bindChildren {f : NRef × NRef → HM K V β} {l : Link} {len ht i : Nat} {s : Slots (K × V)} {as : List Addr} {c d : Addr}
    [hp : HasPts a P (cell .internal l len s (.ofList as)) R] (hi : as[i]? = some c) (hi' : as[i + 1]? = some d) (hl : i < len)
    (hc : i + 1 < EDGES)
    (h : Triple E P (f (⟨ht, c⟩, ⟨ht, d⟩)) Qb) : Triple E P (children ⟨ht + 1, a, i⟩ >>= f) Qb := by
  have e := hp.eq; rw [e] at h ⊢
  refine Triple.seq (Q := fun r => fact (r = (⟨ht, c⟩, ⟨ht, d⟩)) ∗ pts a (cell .internal l len s (.ofList as)) ∗ R) ?_
    fun r => Triple.ofFact fun e => e ▸ h
  unfold children
  refine Triple.bindNewEdge (Nat.le_of_lt hl) ?_
  refine Triple.bindDescend hi (by show i < EDGES; omega) ?_
  refine Triple.bindNewEdge (a := a) (show i + 1 ≤ len from hl) ?_
  refine Triple.bindDescend hi' hc ?_
  exact Triple.ofPure (Ent.fact_right rfl (Ent.refl _))

/-! ### pushing and popping -/

theorem pushLeaf_spec {lay : Layout} {l : Link} {A : List (K × V)} {kv : K × V} {as : List Addr} (hc : A.length < CAPACITY) :
    Triple E (pts a (nd lay l A as)) (pushLeaf a kv) (fun _ => pts a (nd lay l (A ++ [kv]) as)) := by
  unfold pushLeaf
  refine Triple.at (n' := nd lay l (A ++ [kv]) as) (x := ()) ?_ (Ent.of_eq (sep_emp _))
  have h1 : (nd lay l A as).len = A.length := rfl
  simp only [h1, require, decide_eq_true_eq, hc, if_true, Exec.ok_bind]
  rw [cell_putKv (Slots.put_last rfl hc), Exec.ok_bind, cell_setLen]
  simp [nd, cell]

theorem pushInternal_spec {l le : Link} {A : List (K × V)} {X : List (ATree K V)} {kv : K × V} {e : ATree K V} {h : Nat}
    (hX : X.length = A.length + 1) (hc : A.length < CAPACITY) :
    Triple E (pts a (nd .internal l A (addrs X)) ∗ tree le h e) (pushInternal ⟨h + 1, a⟩ kv ⟨h, e.addr⟩)
      (fun _ => pts a (nd .internal l (A ++ [kv]) (addrs (X ++ [e]))) ∗ tree (some a, some (A.length + 1)) h e) := by
  unfold pushInternal
  dsimp only
  refine Triple.bindReq (by simp) ?_
  refine Triple.bindLenEq A.length rfl ?_
  refine Triple.bindReq (by simpa using hc) ?_
  refine Triple.bindAt (n' := nd .internal l (A ++ [kv]) (addrs (X ++ [e]))) (x := ()) ?_ ?_
  · have h1 : (Slots.ofList (addrs X)).put EDGES (A.length + 1) e.addr = .ok (.ofList (addrs X ++ [e.addr])) :=
      Slots.put_last (by len_omega) (by len_omega)
    rw [cell_putKv (Slots.put_last rfl hc), Exec.ok_bind]
    simp [cell, h1]
  refine Triple.last ?_
  refine Triple.bindCorrect1 (c := e) (lc := le) (h := h) (xs := addrs X) (ys := []) (by simp) (by len_omega) ?_ ?_ ?_
  · len_omega
  · len_omega
  · refine Triple.ofPure ?_
    ent_ac

theorem pushFrontLeaf_spec {lay : Layout} {l : Link} {A : List (K × V)} {kv : K × V} {as : List Addr} (hc : A.length < CAPACITY) :
    Triple E (pts a (nd lay l A as)) (pushFrontLeaf a kv) (fun _ => pts a (nd lay l (kv :: A) as)) := by
  unfold pushFrontLeaf
  refine Triple.at (n' := nd lay l (kv :: A) as) (x := ()) ?_ (Ent.of_eq (sep_emp _))
  have : (Slots.ofList A).sliceInsert CAPACITY A.length 0 kv = .ok (.ofList (kv :: A)) :=
    Slots.sliceInsert_ofList (a := []) (b := A) (by simp) rfl hc
  rw [cell_insertKv hc this, Exec.ok_bind]
  rfl

theorem pushFrontInternal_spec {l le : Link} {A : List (K × V)} {X : List (ATree K V)} {kv : K × V} {e : ATree K V} {h : Nat}
    (hX : X.length = A.length + 1) (hc : A.length < CAPACITY) :
    Triple E (pts a (nd .internal l A (addrs X)) ∗ kids h a 0 X ∗ tree le h e) (pushFrontInternal ⟨h + 1, a⟩ kv ⟨h, e.addr⟩)
      (fun _ => pts a (nd .internal l (kv :: A) (addrs (e :: X))) ∗ kids h a 0 (e :: X)) := by
  unfold pushFrontInternal
  dsimp only
  refine Triple.bindReq (by simp) ?_
  refine Triple.bindLenEq A.length rfl ?_
  refine Triple.bindAt (n' := nd .internal l (kv :: A) (addrs (e :: X))) (x := ()) ?_ ?_
  · have h1 : (nd .internal l A (addrs X)).len = A.length := rfl
    have h2 : (Slots.ofList A).sliceInsert CAPACITY A.length 0 kv = .ok (.ofList (kv :: A)) :=
      Slots.sliceInsert_ofList (a := []) (b := A) (by simp) rfl hc
    have h3 : (Slots.ofList (addrs X)).sliceInsert EDGES (A.length + 1) 0 e.addr = .ok (.ofList (e.addr :: addrs X)) :=
      Slots.sliceInsert_ofList (a := []) (b := addrs X) (by len_omega) rfl (by len_omega)
    simp only [require, decide_eq_true_eq, h1, hc, if_true, Exec.ok_bind]
    simp only [nd, cell, Slots.sliceInsert_map h2, Exec.ok_bind, Node.insertEdge, if_true, h3]
    rfl
  refine Triple.last ?_
  refine Triple.bindCorrect ((le, e) :: linked a 0 X) (tree le h e ∗ kids h a 0 X) rfl (cs := e :: X) (by simp [linked_map_snd]) (xs := []) (ys := []) (by simp)
    rfl ?_ ?_ ?_ ?_
  · len_omega
  · len_omega
  · len_omega
  · exact Triple.ofPure (by ent_ac)

theorem popLeaf_spec {l : Link} {A : List (K × V)} {kv : K × V} (hc : A.length < CAPACITY) :
    Triple E (pts a (nd .leaf l (A ++ [kv]) [])) (pop ⟨0, a⟩)
      (fun r => fact (r = (kv, none)) ∗ pts a (nd .leaf l A [])) := by
  unfold pop
  dsimp only
  refine Triple.bindLenEq (A.length + 1) (List.length_append (as := A) (bs := [kv])) ?_
  refine Triple.bindReq (by simp) ?_
  refine Triple.bindAt (cell_takeKv (Slots.take_last (a := A) (by simp) (by simpa using hc))) ?_
  simp only [if_true]
  refine Triple.bindPure ?_
  refine Triple.bindAt rfl ?_
  refine Triple.ofPure (Ent.putFact rfl ?_)
  ent_ac

theorem Triple.bindSetParentNull {f : Unit → HM K V β} {le : Link} {h : Nat} {e : ATree K V} [hp : Has (tree le h e) P R]
    (hk : Triple E (tree (none, le.2) h e ∗ R) (f ()) Qb) : Triple E P (setParentNull e.addr >>= f) Qb := by
  have e' := hp.eq; rw [e']
  unfold tree setParentNull
  simp only [sep_assoc]
  refine Triple.bindAt (n' := e.node (none, le.2) h) rfl ?_
  simpa only [tree, sep_assoc] using hk

theorem popInternal_spec {l le : Link} {A : List (K × V)} {X : List (ATree K V)} {kv : K × V} {e : ATree K V} {h : Nat}
    (hX : X.length = A.length + 1) (hc : A.length < CAPACITY) :
    Triple E (pts a (nd .internal l (A ++ [kv]) (addrs (X ++ [e]))) ∗ tree le h e) (pop ⟨h + 1, a⟩)
      (fun r => fact (r = (kv, some ⟨h, e.addr⟩)) ∗ pts a (nd .internal l A (addrs X)) ∗ tree (none, le.2) h e) := by
  unfold pop
  dsimp only
  refine Triple.bindLenEq (A.length + 1) (List.length_append (as := A) (bs := [kv])) ?_
  refine Triple.bindReq (by simp) ?_
  refine Triple.bindAt (cell_takeKv (Slots.take_last (a := A) (by simp) (by simpa using hc))) ?_
  rw [if_neg (by simp)]
  refine Triple.assoc ?_
  refine Triple.bindAt (n' := cell .internal l (A ++ [kv]).length (.ofList A) (.ofList (addrs X))) (x := e.addr) ?_ ?_
  · have : (Slots.ofList (addrs X ++ [e.addr])).take EDGES (A.length + 1) = .ok (e.addr, .ofList (addrs X)) :=
      Slots.take_last (by len_omega) (by len_omega)
    simp [cell, this]
  refine Triple.assoc ?_
  refine Triple.bindSetParentNull (le := le) (h := h) ?_
  refine Triple.bindPure ?_
  refine Triple.bindAt rfl ?_
  refine Triple.ofPure (Ent.putFact rfl ?_)
  ent_ac

theorem popFrontLeaf_spec {l : Link} {A : List (K × V)} {kv : K × V} (hc : A.length < CAPACITY) :
    Triple E (pts a (nd .leaf l (kv :: A) [])) (popFront ⟨0, a⟩)
      (fun r => fact (r = (kv, none)) ∗ pts a (nd .leaf l A [])) := by
  unfold popFront
  dsimp only
  refine Triple.bindLenEq (A.length + 1) rfl ?_
  refine Triple.bindReq (by simp) ?_
  refine Triple.bindAt (cell_removeKv (Slots.sliceRemove_ofList (a := []) (b := A) (x := kv) (by len_omega) rfl (by len_omega))) ?_
  simp only [if_true]
  refine Triple.bindPure ?_
  refine Triple.bindAt rfl ?_
  refine Triple.ofPure (Ent.putFact rfl ?_)
  ent_ac

theorem popFrontInternal_spec {l le : Link} {A : List (K × V)} {X : List (ATree K V)} {kv : K × V} {e : ATree K V} {h : Nat}
    (hX : X.length = A.length + 1) (hc : A.length < CAPACITY) :
    Triple E (pts a (nd .internal l (kv :: A) (addrs (e :: X))) ∗ tree le h e ∗ kids h a 1 X) (popFront ⟨h + 1, a⟩)
      (fun r => fact (r = (kv, some ⟨h, e.addr⟩)) ∗ pts a (nd .internal l A (addrs X)) ∗ tree (none, le.2) h e ∗ kids h a 0 X) := by
  unfold popFront
  dsimp only
  refine Triple.bindLenEq (A.length + 1) rfl ?_
  refine Triple.bindReq (by simp) ?_
  refine Triple.bindAt (cell_removeKv (Slots.sliceRemove_ofList (a := []) (b := A) (x := kv) (by len_omega) rfl (by len_omega))) ?_
  rw [if_neg (by simp)]
  refine Triple.assoc ?_
  refine Triple.bindAt (cell_removeEdge (Slots.sliceRemove_ofList (a := []) (b := addrs X) (x := e.addr) (by len_omega) rfl (by len_omega))) ?_
  refine Triple.assoc ?_
  refine Triple.bindSetParentNull (le := le) (h := h) ?_
  refine Triple.assoc ?_
  refine Triple.bindCorrect (linked a 1 X) (kids h a 1 X) rfl (cs := X) (linked_map_snd ..) (xs := []) (ys := []) (by simp)
    rfl (by len_omega) (by len_omega) (by len_omega) ?_
  refine Triple.bindPure ?_
  refine Triple.bindAt rfl ?_
  refine Triple.ofPure (Ent.putFact rfl ?_)
  ent_ac

end Verif.Heap
