import Verif.Heap.Proofs.AnyCalls
/-
`range` and `range_mut` when the comparisons answer anything at all: some stretch of the map, or a panic.
-/
namespace Verif.Heap
open Verif
open Verif.BTree (B MIN_LEN CAPACITY Tree Handle Map emptyLeaf KvAt EdgeAt BelowN InnerN Entry Range Iter Window)
open Verif.Spec (Bound End MutAct Op Out Looks LooksMem Extends Cursor Closed ViewAct Seen Source Pending)

variable {K V Q α β : Type} {E : String → Prop}

/-- An edge of a node with `n` keys was chosen. -/
def EdgeFit (n : Nat) (c : Cmps Q) (r : Option ((Nat × Bool) × Cmps Q)) : Prop :=
  match r with
  | none => ¬ c.Return
  | some ((i, _), c') => i ≤ n ∧ (c.Return → c'.Return)

theorem Fit.edge {n : Nat} {c : Cmps Q} {r : Option ((Nat × Bool) × Cmps Q)} (h : Fit 0 n c r) : EdgeFit n c r := by
  match r, h with
  | none, h => exact h
  | some ((i, b), c'), h => exact ⟨h.2.1, h.2.2.2⟩

theorem Fit.past {n : Nat} {c c' : Cmps Q} {r : Nat × Bool} (h : Fit 0 n c (some (r, c'))) :
    EdgeFit n c (some (if r.2 then (r.1 + 1, true) else (r.1, false), c')) := by
  obtain ⟨i, b⟩ := r
  cases b with
  | false => exact ⟨h.2.1, h.2.2.2⟩
  | true => exact ⟨h.2.2.1 rfl, h.2.2.2⟩

/-- The front edge: the first one if the range is unbounded there. -/
def FrontFit (s : Bound Q) (n : Nat) (c : Cmps Q) (r : Option ((Nat × Bool) × Cmps Q)) : Prop :=
  EdgeFit n c r ∧ (s = .unbounded → ∃ b, r = some ((0, b), c))

/-- The back edge: the last one if the range is unbounded there. -/
def BackFit (s : Bound Q) (n : Nat) (c : Cmps Q) (r : Option ((Nat × Bool) × Cmps Q)) : Prop :=
  EdgeFit n c r ∧ (s = .unbounded → ∃ b, r = some ((n, b), c))

theorem minEdgeO_tree {bor : K → Q} {f : Bool} {s : Bound Q} {l : Link} {h : Nat} {t : ATree K V} (c : Cmps Q) :
    Triple E (tree l h t) (minEdgeO bor f s t.addr c) (fun r => fact (FrontFit s t.kvs.length c r) ∗ tree l h t) := by
  unfold minEdgeO
  cases f <;> cases s with
  | included q =>
    first
    | exact (searchLinearO_tree c).post fun r => Ent.getFact fun hr => Ent.putFact ⟨hr.edge, fun h => by cases h⟩ (Ent.refl _)
    | refine Triple.seq lenOf_tree fun r => Triple.getFact fun hr => ?_
      subst hr
      exact Triple.ofPure (Ent.putFact ⟨⟨Nat.le_refl _, id⟩, fun h => by cases h⟩ (Ent.refl _))
  | excluded q =>
    first
    | exact Triple.ofPure (Ent.putFact ⟨⟨Nat.zero_le _, id⟩, fun h => by cases h⟩ (Ent.refl _))
    | refine Triple.seq (searchLinearO_tree c) fun r => Triple.getFact fun hr => ?_
      match r, hr with
      | none, hr => exact Triple.ofPure (Ent.putFact ⟨hr.edge, fun h => by cases h⟩ (Ent.refl _))
      | some (r, c'), hr => exact Triple.ofPure (Ent.putFact ⟨hr.past, fun h => by cases h⟩ (Ent.refl _))
  | unbounded => exact Triple.ofPure (Ent.putFact ⟨⟨Nat.zero_le _, id⟩, fun _ => ⟨_, rfl⟩⟩ (Ent.refl _))

theorem maxEdgeO_tree {bor : K → Q} {f : Bool} {s : Bound Q} {l : Link} {h : Nat} {t : ATree K V} (c : Cmps Q) :
    Triple E (tree l h t) (maxEdgeO bor f s t.addr c) (fun r => fact (BackFit s t.kvs.length c r) ∗ tree l h t) := by
  unfold maxEdgeO
  cases f <;> cases s with
  | excluded q =>
    first
    | exact (searchLinearO_tree c).post fun r => Ent.getFact fun hr => Ent.putFact ⟨hr.edge, fun h => by cases h⟩ (Ent.refl _)
    | refine Triple.seq lenOf_tree fun r => Triple.getFact fun hr => ?_
      subst hr
      exact Triple.ofPure (Ent.putFact ⟨⟨Nat.le_refl _, id⟩, fun h => by cases h⟩ (Ent.refl _))
  | included q =>
    first
    | exact Triple.ofPure (Ent.putFact ⟨⟨Nat.zero_le _, id⟩, fun h => by cases h⟩ (Ent.refl _))
    | refine Triple.seq (searchLinearO_tree c) fun r => Triple.getFact fun hr => ?_
      match r, hr with
      | none, hr => exact Triple.ofPure (Ent.putFact ⟨hr.edge, fun h => by cases h⟩ (Ent.refl _))
      | some (r, c'), hr => exact Triple.ofPure (Ent.putFact ⟨hr.past, fun h => by cases h⟩ (Ent.refl _))
  | unbounded =>
    refine Triple.seq lenOf_tree fun r => Triple.getFact fun hr => ?_
    subst hr
    exact Triple.ofPure (Ent.putFact ⟨⟨Nat.le_refl _, id⟩, fun _ => ⟨_, rfl⟩⟩ (Ent.refl _))

/-- The node `n` of height `h` at the path `p` of the tree `t` of height `H`, with the entries `L` before it and `R` after it. -/
structure SubAt (H : Nat) (t : ATree K V) (p : List Nat) (h : Nat) (n : ATree K V) (L R : List (K × V)) : Prop where
  node : t.at p = some n
  height : p.length + h = H
  below : ∃ lo, BelowN lo h n.erase
  edge : ∀ q i A B, EdgeAt h n.erase q i A B → EdgeAt H t.erase (p ++ q) i (L ++ A) (B ++ R)

theorem erase_cut {a : Addr} {kvs : List (K × V)} {es : List (ATree K V)} {j : Nat} (hj : j < es.length) :
    (ATree.erase ⟨a, kvs, es⟩ : Tree K V) = ⟨kvs.take j ++ kvs.drop j, (es.take j).map ATree.erase ++ es[j].erase :: (es.drop (j + 1)).map ATree.erase⟩ := by
  rw [ATree.erase_mk, List.take_append_drop, ← List.map_cons, ← List.map_append, ← List.drop_eq_getElem_cons hj, List.take_append_drop]

theorem take_more {l : List α} {i j : Nat} (hij : i < j) (hi : i < l.length) : l.take j = l.take i ++ l[i] :: (l.drop (i + 1)).take (j - i - 1) := by
  obtain ⟨d, rfl⟩ : ∃ d, j = i + (d + 1) := ⟨j - i - 1, by omega⟩
  rw [List.take_add, List.drop_eq_getElem_cons hi, List.take_succ_cons]
  congr 3
  omega

/-- The entries of `n` before its child `j`. -/
def beforeChild (h : Nat) (n : ATree K V) (j : Nat) : List (K × V) := BTree.preT h (n.kvs.take j) ((n.edges.take j).map ATree.erase)

theorem SubAt.child {H h j : Nat} {t n : ATree K V} {p : List Nat} {L R : List (K × V)} (hs : SubAt H t p (h + 1) n L R) (hj : j ≤ n.kvs.length) :
    ∃ c R', n.edges[j]? = some c ∧ SubAt H t (p ++ [j]) h c (L ++ beforeChild h n j) R' := by
  obtain ⟨h1, h2, ⟨lo, h3⟩, h4⟩ := hs
  obtain ⟨a, kvs, es⟩ := n
  have hlen : es.length = kvs.length + 1 := by simpa [ATree.erase_mk, Tree.len] using h3.1
  dsimp only at hj
  have hlt : j < es.length := by omega
  refine ⟨es[j], BTree.postT h (kvs.drop j) ((es.drop (j + 1)).map ATree.erase) ++ R, by simp [hlt], ?_, ?_, ?_, ?_⟩
  · rw [ATree.at_append h1]
    simp [ATree.at, hlt]
  · simp; omega
  · refine ⟨lo, (h3.2 es[j].erase ?_).2.2⟩
    rw [ATree.erase_mk]
    exact List.mem_map_of_mem (List.getElem_mem hlt)
  · intro q i A B hq
    have := EdgeAt.child (h := h) (kvs.take j) (kvs.drop j) ((es.take j).map ATree.erase) ((es.drop (j + 1)).map ATree.erase) (by simp; omega) (by simp; omega) hq
    rw [← erase_cut (a := a) hlt] at this
    have := h4 _ _ _ _ this
    have hj' : (List.map ATree.erase (es.take j)).length = j := by simp; omega
    rw [hj'] at this
    simpa [beforeChild] using this

theorem beforeChild_lt {h i j : Nat} {n c : ATree K V} (hij : i < j) (hj : j ≤ n.kvs.length) (hc : n.edges[i]? = some c)
    (hlen : n.edges.length = n.kvs.length + 1) :
    (beforeChild h n i).length + (BTree.toList h c.erase).length ≤ (beforeChild h n j).length := by
  obtain ⟨a, kvs, es⟩ := n
  dsimp only at hj hc hlen
  have hlt : i < es.length := by omega
  rw [List.getElem?_eq_getElem hlt] at hc
  obtain rfl := Option.some.inj hc
  have e1 := take_more (l := kvs) hij (by omega)
  have e2 := take_more (l := es) hij hlt
  unfold beforeChild
  dsimp only
  rw [e1, e2, List.map_append, List.map_cons, BTree.preT_append (by simp; omega), BTree.preT_cons]
  simp only [List.length_append, List.length_cons]
  omega

/-- The two edges found by `range`, and what lies before them. -/
def RangeFit (H : Nat) (t : ATree K V) (c : Cmps Q) (o : Option (HRange × Cmps Q)) : Prop :=
  match o with
  | none => ¬ c.Return
  | some (r, c') => (c.Return → c'.Return) ∧ ∃ y : Range, RangeAt H t y r ∧ ∃ A1 B1 A2 B2, EdgeAt H t.erase y.front.up.reverse y.front.idx A1 B1 ∧
      EdgeAt H t.erase y.back.up.reverse y.back.idx A2 B2 ∧ A1.length ≤ A2.length

theorem SubAt.leaf {H i : Nat} {t n : ATree K V} {p : List Nat} {L R : List (K × V)} (hs : SubAt H t p 0 n L R) (hi : i ≤ n.kvs.length) :
    EdgeAt H t.erase p i (L ++ n.kvs.take i) (n.kvs.drop i ++ R) := by
  obtain ⟨h1, h2, ⟨lo, h3⟩, h4⟩ := hs
  obtain ⟨a, kvs, es⟩ := n
  dsimp only at hi
  have he : es = [] := by simpa [BelowN, ATree.erase_mk] using h3
  subst he
  have := EdgeAt.leaf (kvs.take i) (kvs.drop i)
  have hl : (kvs.take i).length = i := by simp; omega
  rw [hl, List.take_append_drop] at this
  have := h4 [] i _ _ (by rw [ATree.erase_mk]; exact this)
  simpa using this

theorem crossed_closed {s e : Bound Q} {nmin nmax : ATree K V} {c c1 c2 : Cmps Q} {lo hi : Nat} {mf xf dv : Bool} {φ ψ : Prop}
    (hlo : FrontFit s nmin.kvs.length c (some ((lo, mf), c1))) (hhi : BackFit e nmax.kvs.length c1 (some ((hi, xf), c2)))
    (hn : dv = false → φ ∧ nmin = nmax ∧ ψ) (hc : (!dv && decide (hi < lo)) = true) : Closed s e := by
  cases dv with
  | true => cases hc
  | false =>
    obtain ⟨_, rfl, _⟩ := hn rfl
    simp only [Bool.not_false, Bool.true_and, decide_eq_true_eq] at hc
    constructor
    · intro h
      obtain ⟨b, h⟩ := hlo.2 h
      simp only [Option.some.injEq, Prod.mk.injEq] at h
      omega
    · intro h
      obtain ⟨b, h⟩ := hhi.2 h
      simp only [Option.some.injEq, Prod.mk.injEq] at h
      have := hlo.1.1
      omega

theorem rangeLoopO_spec {bor : K → Q} {s e : Bound Q} {H : Nat} {l : Link} {t : ATree K V} : ∀ {h : Nat} {nmin nmax : ATree K V}
    {mf xf dv : Bool} {pm px : List Nat} {L1 R1 L2 R2 : List (K × V)} (c : Cmps Q), SubAt H t pm h nmin L1 R1 → SubAt H t px h nmax L2 R2 →
    (dv = false → pm = px ∧ nmin = nmax ∧ L1 = L2) → (dv = true → L1.length + (BTree.toList h nmin.erase).length ≤ L2.length) →
    Triple (fun _ => Closed s e) (tree l H t) (rangeLoopO bor s e h nmin.addr nmax.addr mf xf dv c)
      (fun r => fact (RangeFit H t c r) ∗ tree l H t)
  | 0, nmin, nmax, mf, xf, dv, pm, px, L1, R1, L2, R2, c, h1, h2, h3, h4 => by
    unfold rangeLoopO
    have i1 := h1.height
    have i2 := h2.height
    refine Triple.seq (Triple.readPath h1.node (by omega) fun l' => minEdgeO_tree c) fun lo => Triple.getFact fun hlo => ?_
    match lo, hlo with
    | none, hlo => exact Triple.ofPure (Ent.putFact hlo.1 (Ent.refl _))
    | some ((lo, mf'), c1), hlo =>
      dsimp only
      refine Triple.seq (Triple.readPath h2.node (by omega) fun l' => maxEdgeO_tree c1) fun hi => Triple.getFact fun hhi => ?_
      match hi, hhi with
      | none, hhi => exact Triple.ofPure (Ent.putFact (fun h => hhi.1 (hlo.1.2 h)) (Ent.refl _))
      | some ((hi, xf'), c2), hhi =>
        dsimp only
        split
        · next hc => exact Triple.ofPanic (crossed_closed hlo hhi h3 hc)
        · next hc =>
          refine Triple.seq (Triple.readPath h1.node (by omega) fun l' => newEdge_tree hlo.1.1) fun f => Triple.getFact fun hf => ?_
          refine Triple.seq (Triple.readPath h2.node (by omega) fun l' => newEdge_tree hhi.1.1) fun b => Triple.getFact fun hb => ?_
          refine Triple.ofPure (Ent.putFact ?_ (Ent.refl _))
          subst hf hb
          refine ⟨fun h => hhi.1.2 (hlo.1.2 h), ⟨⟨pm.reverse, lo⟩, ⟨px.reverse, hi⟩⟩, ⟨⟨nmin, ?_, ?_, ?_⟩, ⟨nmax, ?_, ?_, ?_⟩⟩,
            L1 ++ nmin.kvs.take lo, nmin.kvs.drop lo ++ R1, L2 ++ nmax.kvs.take hi, nmax.kvs.drop hi ++ R2, ?_, ?_, ?_⟩
          · simpa using h1.node
          · simp; omega
          · simp [show H - pm.length = 0 by omega]
          · simpa using h2.node
          · simp; omega
          · simp [show H - px.length = 0 by omega]
          · simpa using h1.leaf hlo.1.1
          · simpa using h2.leaf hhi.1.1
          · cases dv with
            | false =>
              obtain ⟨_, rfl, rfl⟩ := h3 rfl
              simp only [Bool.not_false, Bool.true_and, decide_eq_true_eq] at hc
              simp only [List.length_append, List.length_take]
              omega
            | true =>
              have := h4 rfl
              obtain ⟨a, kvs, es⟩ := nmin
              have hk : (BTree.toList 0 (ATree.erase ⟨a, kvs, es⟩)) = kvs := by rw [ATree.erase_mk]; rfl
              rw [hk] at this
              simp only [List.length_append, List.length_take]
              omega
  | h + 1, nmin, nmax, mf, xf, dv, pm, px, L1, R1, L2, R2, c, h1, h2, h3, h4 => by
    unfold rangeLoopO
    have i1 := h1.height
    have i2 := h2.height
    refine Triple.seq (Triple.readPath h1.node (by omega) fun l' => minEdgeO_tree c) fun lo => Triple.getFact fun hlo => ?_
    match lo, hlo with
    | none, hlo => exact Triple.ofPure (Ent.putFact hlo.1 (Ent.refl _))
    | some ((lo, mf'), c1), hlo =>
      dsimp only
      refine Triple.seq (Triple.readPath h2.node (by omega) fun l' => maxEdgeO_tree c1) fun hi => Triple.getFact fun hhi => ?_
      match hi, hhi with
      | none, hhi => exact Triple.ofPure (Ent.putFact (fun h => hhi.1 (hlo.1.2 h)) (Ent.refl _))
      | some ((hi, xf'), c2), hhi =>
        dsimp only
        split
        · next hc => exact Triple.ofPanic (crossed_closed hlo hhi h3 hc)
        · next hc =>
          obtain ⟨n1, R1', k1, g1⟩ := h1.child hlo.1.1
          obtain ⟨n2, R2', k2, g2⟩ := h2.child hhi.1.1
          refine Triple.seq (Triple.readPath h1.node (by omega) fun l' => newEdge_tree hlo.1.1) fun f => Triple.getFact fun hf => ?_
          refine Triple.seq (Triple.readPath h2.node (by omega) fun l' => newEdge_tree hhi.1.1) fun b => Triple.getFact fun hb => ?_
          subst hf hb
          refine Triple.seq (Triple.readPath (φ := fun r => r = ⟨h, n1.addr⟩) h1.node (by omega) fun l' => ?_) fun d1 => Triple.getFact fun hd1 => ?_
          · have e1 : H - pm.length = h + 1 := by omega
            rw [e1]; exact descend_tree k1
          refine Triple.seq (Triple.readPath (φ := fun r => r = ⟨h, n2.addr⟩) h2.node (by omega) fun l' => ?_) fun d2 => Triple.getFact fun hd2 => ?_
          · have e1 : H - px.length = h + 1 := by omega
            rw [e1]; exact descend_tree k2
          subst hd1 hd2
          refine (rangeLoopO_spec c2 g1 g2 ?_ ?_).post fun r => Ent.getFact fun hr => Ent.putFact ?_ (Ent.refl _)
          · intro hdv
            simp only [Bool.or_eq_false_iff, bne_eq_false_iff_eq] at hdv
            obtain ⟨hdv, rfl⟩ := hdv
            obtain ⟨rfl, rfl, rfl⟩ := h3 hdv
            rw [k1] at k2
            obtain rfl := Option.some.inj k2
            exact ⟨rfl, rfl, rfl⟩
          · intro hdv
            have hlen1 : nmin.edges.length = nmin.kvs.length + 1 := by
              obtain ⟨lo', hb⟩ := h1.below
              obtain ⟨a, kvs, es⟩ := nmin
              simpa [ATree.erase_mk, Tree.len] using hb.1
            cases dv with
            | false =>
              simp only [Bool.false_or, bne_iff_ne] at hdv
              simp only [Bool.not_false, Bool.true_and, decide_eq_true_eq] at hc
              obtain ⟨rfl, rfl, rfl⟩ := h3 rfl
              have := beforeChild_lt (h := h) (n := nmin) (show lo < hi by omega) hhi.1.1 k1 hlen1
              simp only [List.length_append]
              omega
            | true =>
              have := h4 rfl
              have hsub : (beforeChild h nmin lo).length + (BTree.toList h n1.erase).length ≤ (BTree.toList (h + 1) nmin.erase).length := by
                obtain ⟨a, kvs, es⟩ := nmin
                dsimp only at hlen1 k1
                have hlo' := hlo.1.1
                dsimp only at hlo'
                have hlt : lo < es.length := by omega
                rw [List.getElem?_eq_getElem hlt] at k1
                obtain rfl := Option.some.inj k1
                rw [erase_cut hlt, BTree.toList_split (by simp; omega)]
                unfold beforeChild
                simp only [List.length_append]
                omega
              simp only [List.length_append]
              omega
          · match r, hr with
            | none, hr => exact fun h => hr (hhi.1.2 (hlo.1.2 h))
            | some (r, c'), hr => exact ⟨fun h => hr.1 (hhi.1.2 (hlo.1.2 h)), hr.2⟩

/-- The stretch found by `range`. -/
def RangesAt (M : Map K V) (ta : ATree K V) (c : Cmps Q) (o : Option (HRange × Cmps Q)) : Prop :=
  match o with
  | none => ¬ c.Return
  | some (r, c') => (c.Return → c'.Return) ∧ ∃ y pre mid post, RangeAt M.height ta y r ∧ Window M y pre mid post

theorem RangeFit.window {M : Map K V} {ta : ATree K V} (he : ta.erase = M.root) {c : Cmps Q} {o : Option (HRange × Cmps Q)} (h : RangeFit M.height ta c o) :
    RangesAt M ta c o := by
  match o, h with
  | none, h => exact h
  | some (r, c'), ⟨h1, y, h2, A1, B1, A2, B2, g4, g5, g6⟩ =>
    rw [he] at g4 g5
    have e1 := g4.toList_eq
    have e2 := g5.toList_eq
    obtain ⟨mid, rfl⟩ : ∃ mid, A2 = A1 ++ mid := by
      refine ⟨A2.drop A1.length, ?_⟩
      have := congrArg (List.take A1.length) (e1.symm.trans e2)
      rw [List.take_left' rfl, List.take_append_of_le_length g6] at this
      have h := List.take_append_drop A1.length A2
      rw [← this] at h
      exact h.symm
    have hB : B1 = mid ++ B2 := by
      have := e1.symm.trans e2
      rw [List.append_assoc] at this
      exact List.append_cancel_left this
    refine ⟨h1, y, A1, mid, B2, h2, ?_, ?_, ?_⟩
    · rw [← hB]; exact e1
    · subst hB; exact g4
    · exact g5

theorem minEdgeO_shared {bor : K → Q} {s : Bound Q} {c : Cmps Q} : (minEdgeO bor false s SHARED c : HM K V _) = pure (some ((0, false), c)) := by
  cases s <;> rfl

theorem maxEdgeO_shared {bor : K → Q} {s : Bound Q} {c : Cmps Q} : (maxEdgeO bor false s SHARED c : HM K V _) = pure (some ((0, false), c)) := by
  cases s <;> rfl

theorem rangeCheckO_cases (s e : Bound Q) (c : Cmps Q) :
    (Closed s e ∧ ∃ msg, rangeCheckO s e c = .panic msg) ∨ (¬ c.Return ∧ rangeCheckO s e c = .ok none) ∨
      ∃ c', (c.Return → c'.Return) ∧ rangeCheckO s e c = .ok (some c') := by
  have nret : ∀ n a b, c n a b = none → ¬ c.Return := fun n a b h hr => by have := hr n a b; rw [h] at this; cases this
  have one : ∀ a b, (match c 0 a b with
      | none => Exec.ok none
      | some x => if x = .gt then .panic "range start is greater than range end in BTreeMap" else .ok (some c.rest)) = rangeCheckO s e c → Closed s e →
      (Closed s e ∧ ∃ msg, rangeCheckO s e c = .panic msg) ∨ (¬ c.Return ∧ rangeCheckO s e c = .ok none) ∨
      ∃ c', (c.Return → c'.Return) ∧ rangeCheckO s e c = .ok (some c') := by
    intro a b h hcl
    rw [← h]
    cases h0 : c 0 a b with
    | none => exact .inr (.inl ⟨nret _ _ _ h0, rfl⟩)
    | some x =>
      dsimp only
      split
      · exact .inl ⟨hcl, _, rfl⟩
      · exact .inr (.inr ⟨_, fun h => h.rest, rfl⟩)
  cases s with
  | unbounded => exact .inr (.inr ⟨c, id, by cases e <;> rfl⟩)
  | included a =>
    cases e with
    | unbounded => exact .inr (.inr ⟨c, id, rfl⟩)
    | included b => exact one a b rfl ⟨by simp, by simp⟩
    | excluded b => exact one a b rfl ⟨by simp, by simp⟩
  | excluded a =>
    cases e with
    | unbounded => exact .inr (.inr ⟨c, id, rfl⟩)
    | included b => exact one a b rfl ⟨by simp, by simp⟩
    | excluded b =>
      have hcl : Closed (Bound.excluded a) (Bound.excluded b) := ⟨by simp, by simp⟩
      simp only [rangeCheckO]
      cases h0 : c 0 a b with
      | none => exact .inr (.inl ⟨nret _ _ _ h0, rfl⟩)
      | some x =>
        dsimp only
        split
        · exact .inl ⟨hcl, _, rfl⟩
        · cases h1 : c 1 a b with
          | none => exact .inr (.inl ⟨nret _ _ _ h1, rfl⟩)
          | some x =>
            dsimp only
            split
            · exact .inl ⟨hcl, _, rfl⟩
            · exact .inr (.inr ⟨_, fun h => h.rest.rest, rfl⟩)

theorem rangeO_own {bor : K → Q} {s e : Bound Q} {hm : HMap} {M : Map K V} {ta : ATree K V} {x lo rt : Nat} (hM : M.ShapedN lo rt x) (c : Cmps Q) :
    Triple (fun _ => Closed s e) (own hm M ta) (hm.rangeO bor s e c) (fun r => fact (RangesAt M ta c r) ∗ own hm M ta) := by
  unfold HMap.rangeO
  rcases rangeCheckO_cases s e c with ⟨hcl, msg, h⟩ | ⟨h1, h⟩ | ⟨c', h1, h⟩
  · rw [h]
    exact Triple.ofPanic (α := Option (HRange × Cmps Q)) (msg := msg) hcl
  · refine Triple.bindLift h ?_
    exact Triple.ofPure (Ent.putFact h1 (Ent.refl _))
  · refine Triple.bindLift h ?_
    dsimp only
    have key : Triple (fun _ => Closed s e) (own hm M ta) (rangeLoopO bor s e hm.root.height hm.root.node hm.root.node false false false c')
        (fun r => fact (RangesAt M ta c' r) ∗ own hm M ta) := by
      refine Triple.readOwn (fun hs g1 g2 g3 g4 => ?_) fun hs g1 g2 l => ?_
      · subst g1 g4
        unfold rangeLoopO
        rw [minEdgeO_shared]
        refine Triple.bindPure ?_
        dsimp only
        rw [maxEdgeO_shared]
        refine Triple.bindPure ?_
        show Triple _ emp (pure (some ((⟨⟨0, SHARED, 0⟩, ⟨0, SHARED, 0⟩⟩ : HRange), c'))) _
        refine Triple.ofPure (Ent.of_eq (fact_of ?_).symm)
        have hg : M.Gap ⟨[], 0⟩ [] [] := by
          unfold BTree.Map.Gap
          rw [g2, g3]
          exact EdgeAt.leaf [] []
        refine ⟨id, ⟨⟨[], 0⟩, ⟨[], 0⟩⟩, [], [], [], ⟨?_, ?_⟩, hg.toList, hg, hg⟩
        · rw [g2]; exact HandleAt.nil (t := ⟨SHARED, [], []⟩)
        · rw [g2]; exact HandleAt.nil (t := ⟨SHARED, [], []⟩)
      · subst g2
        refine (rangeLoopO_spec (pm := []) (px := []) (L1 := []) (L2 := []) (R1 := []) (R2 := []) c' ?_ ?_ (fun _ => ⟨rfl, rfl, rfl⟩) (fun h => by cases h)).post
          fun r => Ent.getFact fun hr => Ent.putFact (hr.window g1.symm) (Ent.refl _)
        · exact ⟨rfl, by simp, ⟨lo, by rw [← g1]; exact hM.below⟩, fun q i A B h => by simpa using h⟩
        · exact ⟨rfl, by simp, ⟨lo, by rw [← g1]; exact hM.below⟩, fun q i A B h => by simpa using h⟩
    refine key.post fun r => Ent.getFact fun hr => Ent.putFact (φ := RangesAt M ta c r) ?_ (Ent.refl _)
    match r, hr with
    | none, hr => exact fun h => hr (h1 h)
    | some (r, c2), hr => exact ⟨fun h => hr.1 (h1 h), hr.2⟩

end Verif.Heap
