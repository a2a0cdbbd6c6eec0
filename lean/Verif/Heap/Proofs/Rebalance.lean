import Verif.Heap.Proofs.NodeOps
/-
Merging and stealing on nodes described by lists.
-/
namespace Verif.Heap
open Verif
open Verif.BTree (B MIN_LEN CAPACITY Tree)

variable {K V α β : Type} {E : String → Prop} {P R R' : HProp K V} {Qb : β → HProp K V} {a b : Addr}

/-- The parent of the pair around which two children are rebalanced. -/
abbrev par (p : Addr) (lp : Link) (A : List (K × V)) (kv : K × V) (C : List (K × V)) (X : List (ATree K V)) (la ra : Addr)
    (Y : List (ATree K V)) : HProp K V :=
  pts p (nd .internal lp (A ++ kv :: C) (addrs X ++ la :: ra :: addrs Y))

theorem get_left {X : List (ATree K V)} {la ra : Addr} {Y : List (ATree K V)} {i : Nat} (hi : i = X.length) :
    (addrs X ++ la :: ra :: addrs Y)[i]? = some la := by
  subst hi; simp
theorem get_right {X : List (ATree K V)} {la ra : Addr} {Y : List (ATree K V)} {i : Nat} (hi : i = X.length) :
    (addrs X ++ la :: ra :: addrs Y)[i + 1]? = some ra := by
  subst hi; simp [List.getElem?_append_right]

theorem tree_leaf (l : Link) (a : Addr) (kvs : List (K × V)) :
    tree l 0 ⟨a, kvs, []⟩ = (fact (kvs.length ≤ CAPACITY) ∗ pts a (nd .leaf l kvs [])) := by
  rw [tree_zero]
  simp only [ATree.node, layOf, true_and]
  rfl

theorem tree_internal (l : Link) (h : Nat) (a : Addr) (kvs : List (K × V)) (es : List (ATree K V)) :
    tree l (h + 1) ⟨a, kvs, es⟩ = (fact (es.length = kvs.length + 1 ∧ kvs.length ≤ CAPACITY) ∗
      pts a (nd .internal l kvs (addrs es)) ∗ kids h a 0 es) := by
  rw [tree_succ]
  simp only [ATree.node, layOf]

theorem canMerge_spec {p : Addr} {lp ll lr : Link} {A C : List (K × V)} {kv : K × V} {X Y : List (ATree K V)} {L R : ATree K V} {h i : Nat}
    (hi : i = A.length) (hX : X.length = A.length) (hc : A.length + C.length + 1 ≤ CAPACITY) :
    Triple E (par p lp A kv C X L.addr R.addr Y ∗ tree ll h L ∗ tree lr h R) (canMerge ⟨h + 1, p, i⟩)
      (fun r => fact (r = decide (L.kvs.length + R.kvs.length + 1 ≤ CAPACITY)) ∗ par p lp A kv C X L.addr R.addr Y ∗ tree ll h L ∗ tree lr h R) := by
  unfold canMerge
  dsimp only
  refine Triple.bindChildren (get_left (by omega)) (get_right (by omega)) (by len_omega) (by len_omega) ?_
  dsimp only
  simp only [tree, sep_assoc]
  refine Triple.bindLenEq (a := L.addr) L.kvs.length rfl ?_
  refine Triple.bindLenEq (a := R.addr) R.kvs.length rfl ?_
  refine Triple.ofPure (Ent.putFact rfl ?_)
  ent_ac

theorem merge_spec {p : Addr} {lp ll lr : Link} {A C : List (K × V)} {kv : K × V} {X Y : List (ATree K V)} {L R : ATree K V} {h i : Nat}
    (hi : i = A.length) (hX : X.length = A.length) (hY : Y.length = C.length) (hc : A.length + C.length + 1 ≤ CAPACITY)
    (hm : L.kvs.length + R.kvs.length + 1 ≤ CAPACITY) :
    Triple E (par p lp A kv C X L.addr R.addr Y ∗ tree ll h L ∗ tree lr h R ∗ kids h p (i + 2) Y) (merge ⟨h + 1, p, i⟩)
      (fun r => fact (r = ⟨h + 1, p, i⟩) ∗ pts p (nd .internal lp (A ++ C) (addrs X ++ L.addr :: addrs Y)) ∗
        tree ll h ⟨L.addr, L.kvs ++ kv :: R.kvs, L.edges ++ R.edges⟩ ∗ kids h p (i + 1) Y) := by
  obtain ⟨la, lk, le⟩ := L
  obtain ⟨ra, rk, re⟩ := R
  dsimp only at *
  unfold merge
  dsimp only
  refine Triple.bindChildren (get_left (by omega)) (get_right (by omega)) (by len_omega) (by len_omega) ?_
  dsimp only
  have hrm : (Slots.ofList (A ++ kv :: C)).sliceRemove CAPACITY (A ++ kv :: C).length i = .ok (kv, .ofList (A ++ C)) :=
    Slots.sliceRemove_ofList (by len_omega) hi (by len_omega)
  have hput : (Slots.ofList lk).put CAPACITY lk.length kv = .ok (.ofList (lk ++ [kv])) := Slots.put_last rfl (by omega)
  have hmv : (Slots.ofList rk).moveTo (Slots.ofList (lk ++ [kv])) CAPACITY 0 (lk.length + 1) rk.length =
      .ok (.ofList [], .ofList ((lk ++ [kv]) ++ rk)) := Slots.moveTo_all rfl (by len_omega) (by omega) (by omega)
  have hre : (Slots.ofList (addrs X ++ la :: ra :: addrs Y)).sliceRemove EDGES EDGES (i + 1) = .ok (ra, .ofList ((addrs X ++ [la]) ++ addrs Y)) := by
    have := Slots.sliceRemove_ofList (a := addrs X ++ [la]) (b := addrs Y) (x := ra) (cap := EDGES) (len := EDGES) (idx := i + 1)
      (by len_omega) (by len_omega) (by omega)
    simpa using this
  cases h with
  | zero =>
    simp only [tree_zero, sep_assoc, ATree.node, layOf]
    refine Triple.getFact fun hl => Triple.getFact fun hr => ?_
    obtain ⟨rfl, hl2⟩ := hl
    obtain ⟨rfl, hr2⟩ := hr
    refine Triple.bindLenEq (a := la) lk.length rfl ?_
    refine Triple.bindLenEq (a := ra) rk.length rfl ?_
    refine Triple.bindReq (by simpa using hm) ?_
    refine Triple.bindLenEq (a := p) (A ++ kv :: C).length rfl ?_
    refine Triple.bindAt (cell_removeKv hrm) ?_
    refine Triple.bindAt (a := la) (n' := cell .leaf ll lk.length (.ofList (lk ++ [kv])) (.ofList (addrs ([] : List (ATree K V))))) (x := ()) ?_ ?_
    · rw [cell_putKv hput, Exec.ok_bind]
    refine Triple.bindMoveKv hmv ?_
    refine Triple.bindAt (cell_removeEdge hre) ?_
    refine Triple.bindCorrect (linked p (i + 2) Y) (kids 0 p (i + 2) Y) rfl (cs := Y) (linked_map_snd ..) (xs := addrs X ++ [la]) (ys := []) (by simp)
      (by len_omega) (by len_omega) (by len_omega) (by len_omega) ?_
    refine Triple.bindSetLen ?_
    refine Triple.bindSetLen ?_
    simp only [show ¬ (1 < 0 + 1) by omega, if_false]
    refine Triple.bindFree rfl ?_
    refine Triple.last ?_
    refine Triple.bindNewEdge (a := p) (by show i ≤ (A ++ kv :: C).length - 1; len_omega) ?_
    refine Triple.ofPure (Ent.putFact rfl ?_)
    refine Ent.putFact (by refine ⟨rfl, ?_⟩; len_omega) ?_
    simp only [List.append_assoc, List.singleton_append]
    rw [show (A ++ kv :: C).length - 1 = (A ++ C).length by len_omega,
      show lk.length + (rk.length + 1) = (lk ++ kv :: rk).length by len_omega]
    simp only [List.append_nil, List.map_nil, addrs]
    ent_ac
  | succ h =>
    simp only [tree_succ, sep_assoc, ATree.node, layOf]
    refine Triple.getFact fun hl => Triple.getFact fun hr => ?_
    obtain ⟨hl1, hl2⟩ := hl
    obtain ⟨hr1, hr2⟩ := hr
    refine Triple.bindLenEq (a := la) lk.length rfl ?_
    refine Triple.bindLenEq (a := ra) rk.length rfl ?_
    refine Triple.bindReq (by simpa using hm) ?_
    refine Triple.bindLenEq (a := p) (A ++ kv :: C).length rfl ?_
    refine Triple.bindAt (cell_removeKv hrm) ?_
    refine Triple.bindAt (a := la) (n' := cell .internal ll lk.length (.ofList (lk ++ [kv])) (.ofList (addrs le))) (x := ()) ?_ ?_
    · rw [cell_putKv hput, Exec.ok_bind]
    refine Triple.bindMoveKv hmv ?_
    refine Triple.bindAt (cell_removeEdge hre) ?_
    refine Triple.bindCorrect (h := h + 1) (linked p (i + 2) Y) (kids (h + 1) p (i + 2) Y) rfl (cs := Y) (linked_map_snd ..) (xs := addrs X ++ [la]) (ys := []) (by simp)
      (by len_omega) (by len_omega) (by len_omega) (by len_omega) ?_
    refine Triple.bindSetLen ?_
    refine Triple.bindSetLen ?_
    simp only [show 1 < h + 1 + 1 by omega, if_true]
    refine Triple.bindMoveEdgesRaw (Slots.moveTo_all (b := addrs re) (d := addrs le) (by len_omega) (by len_omega) (by len_omega) (by len_omega)) ?_
    refine Triple.bindCorrect (h := h) (linked ra 0 re) (kids h ra 0 re) rfl (cs := re) (linked_map_snd ..) (xs := addrs le) (ys := []) (by simp)
      (by len_omega) (by len_omega) (by len_omega) (by len_omega) ?_
    refine Triple.bindFree rfl ?_
    refine Triple.last ?_
    refine Triple.bindNewEdge (a := p) (by show i ≤ (A ++ kv :: C).length - 1; len_omega) ?_
    refine Triple.ofPure (Ent.putFact rfl ?_)
    refine Ent.putFact (by constructor <;> len_omega) ?_
    simp only [List.append_assoc, List.singleton_append, List.map_append]
    rw [show (A ++ kv :: C).length - 1 = (A ++ C).length by len_omega,
      show lk.length + (rk.length + 1) = (lk ++ kv :: rk).length by len_omega, kids_append, Nat.zero_add, hl1]
    ent_ac

/-- Normalise lists in assertions. -/
macro "norm_lists" : tactic => `(tactic|
  simp only [par, addrs, List.map_append, List.map_cons, List.map_nil, List.append_assoc, List.cons_append, List.nil_append, List.append_nil])

/-- The facts a node of a tree must satisfy. -/
macro "node_fact" : tactic => `(tactic|
  (first
   | (constructor <;> len_omega)
   | (refine ⟨by simp, ?_⟩; len_omega)))

theorem par_replace {p : Addr} {lp : Link} {A C : List (K × V)} {kv kv' : K × V} {as : List Addr} {i : Nat}
    (hi : i = A.length) (hc : A.length + C.length + 1 ≤ CAPACITY) :
    (nd .internal lp (A ++ kv :: C) as).replaceKv i kv' = .ok (kv, nd .internal lp (A ++ kv' :: C) as) := by
  rw [cell_replaceKv hi (by len_omega) (by len_omega)]
  simp only [nd, List.length_append, List.length_cons]

theorem stealLeft_spec {p : Addr} {lp ll lr : Link} {A C LA RK : List (K × V)} {kv lkv : K × V} {X Y LX LY RE : List (ATree K V)}
    {la ra : Addr} {h i : Nat}
    (hi : i = A.length) (hX : X.length = A.length) (hc : A.length + C.length + 1 ≤ CAPACITY) (hr : RK.length < CAPACITY)
    (hLX : h ≠ 0 → LX.length = LA.length + 1) :
    Triple E (par p lp A kv C X la ra Y ∗ tree ll h ⟨la, LA ++ [lkv], LX ++ LY⟩ ∗ tree lr h ⟨ra, RK, RE⟩) (stealLeft ⟨h + 1, p, i⟩)
      (fun _ => par p lp A lkv C X la ra Y ∗ tree ll h ⟨la, LA, LX⟩ ∗ tree lr h ⟨ra, kv :: RK, LY ++ RE⟩) := by
  unfold stealLeft
  dsimp only
  refine Triple.bindNewEdge (by show i ≤ (A ++ kv :: C).length; len_omega) ?_
  refine Triple.bindDescend (get_left (by omega)) (by len_omega) ?_
  cases h with
  | zero =>
    simp only [tree_zero, sep_assoc, ATree.node, layOf, List.append_eq_nil_iff]
    refine Triple.getFact fun hl => Triple.getFact fun hr => ?_
    obtain ⟨⟨rfl, rfl⟩, hl2⟩ := hl
    obtain ⟨rfl, hr2⟩ := hr
    simp only [List.append_nil, addrs, List.map_nil]
    refine Triple.callEq (P₀ := pts la (nd .leaf ll (LA ++ [lkv]) [])) (popLeaf_spec (by len_omega)) ?_
    dsimp only
    refine Triple.bindAt (a := p) (par_replace (p := p) hi hc) ?_
    refine Triple.bindNewEdge (by show i + 1 ≤ (A ++ lkv :: C).length; len_omega) ?_
    refine Triple.bindDescend (get_right (by omega)) (by len_omega) ?_
    unfold pushFrontAny
    dsimp only
    simp only [if_true]
    refine Triple.callLast (P₀ := pts ra (nd .leaf lr RK [])) (pushFrontLeaf_spec (by len_omega)) fun _ => ?_
    refine Ent.putFact (by node_fact) ?_
    refine Ent.putFact (by node_fact) ?_
    norm_lists
    ent_ac
  | succ h =>
    simp only [tree_succ, sep_assoc, ATree.node, layOf]
    refine Triple.getFact fun hl => Triple.getFact fun hr => ?_
    obtain ⟨hl1, hl2⟩ := hl
    obtain ⟨hr1, hr2⟩ := hr
    have hLX' := hLX (by simp)
    obtain ⟨e, rfl⟩ : ∃ e, LY = [e] := by
      match LY, hl1 with
      | [e], _ => exact ⟨e, rfl⟩
      | [], h => exfalso; len_omega
      | _ :: _ :: _, h => exfalso; len_omega
    rw [kids_append, Nat.zero_add, kids_cons, kids_nil, sep_emp, sep_assoc]
    refine Triple.callEq (P₀ := pts la (nd .internal ll (LA ++ [lkv]) (addrs (LX ++ [e]))) ∗ tree (some la, some LX.length) h e)
      (popInternal_spec hLX' (by len_omega)) ?_
    dsimp only
    simp only [sep_assoc]
    refine Triple.bindAt (a := p) (par_replace (p := p) hi hc) ?_
    refine Triple.bindNewEdge (by show i + 1 ≤ (A ++ lkv :: C).length; len_omega) ?_
    refine Triple.bindDescend (get_right (by omega)) (by len_omega) ?_
    unfold pushFrontAny
    dsimp only
    simp only [Nat.add_one_ne_zero, if_false]
    refine Triple.callLast (P₀ := pts ra (nd .internal lr RK (addrs RE)) ∗ kids h ra 0 RE ∗ tree (none, some LX.length) h e)
      (pushFrontInternal_spec hr1 (by len_omega)) fun _ => ?_
    refine Ent.putFact (by node_fact) ?_
    refine Ent.putFact (by node_fact) ?_
    norm_lists
    ent_ac

theorem stealRight_spec {p : Addr} {lp ll lr : Link} {A C LK RC : List (K × V)} {kv rkv : K × V} {X Y LE RX RY : List (ATree K V)}
    {la ra : Addr} {h i : Nat}
    (hi : i = A.length) (hX : X.length = A.length) (hc : A.length + C.length + 1 ≤ CAPACITY) (hl : LK.length < CAPACITY)
    (hRX : h ≠ 0 → RX.length = 1) :
    Triple E (par p lp A kv C X la ra Y ∗ tree ll h ⟨la, LK, LE⟩ ∗ tree lr h ⟨ra, rkv :: RC, RX ++ RY⟩) (stealRight ⟨h + 1, p, i⟩)
      (fun _ => par p lp A rkv C X la ra Y ∗ tree ll h ⟨la, LK ++ [kv], LE ++ RX⟩ ∗ tree lr h ⟨ra, RC, RY⟩) := by
  unfold stealRight
  dsimp only
  refine Triple.bindNewEdge (by show i + 1 ≤ (A ++ kv :: C).length; len_omega) ?_
  refine Triple.bindDescend (get_right (by omega)) (by len_omega) ?_
  cases h with
  | zero =>
    simp only [tree_zero, sep_assoc, ATree.node, layOf, List.append_eq_nil_iff]
    refine Triple.getFact fun hl => Triple.getFact fun hr => ?_
    obtain ⟨rfl, hl2⟩ := hl
    obtain ⟨⟨rfl, rfl⟩, hr2⟩ := hr
    simp only [List.append_nil, addrs, List.map_nil]
    refine Triple.callEq (P₀ := pts ra (nd .leaf lr (rkv :: RC) [])) (popFrontLeaf_spec (by len_omega)) ?_
    dsimp only
    refine Triple.bindAt (a := p) (par_replace (p := p) hi hc) ?_
    refine Triple.bindNewEdge (by show i ≤ (A ++ rkv :: C).length; len_omega) ?_
    refine Triple.bindDescend (get_left (by omega)) (by len_omega) ?_
    unfold pushAny
    dsimp only
    simp only [if_true]
    refine Triple.callLast (P₀ := pts la (nd .leaf ll LK [])) (pushLeaf_spec (by len_omega)) fun _ => ?_
    refine Ent.putFact (by node_fact) ?_
    refine Ent.putFact (by node_fact) ?_
    norm_lists
    ent_ac
  | succ h =>
    simp only [tree_succ, sep_assoc, ATree.node, layOf]
    refine Triple.getFact fun hl => Triple.getFact fun hr => ?_
    obtain ⟨hl1, hl2⟩ := hl
    obtain ⟨hr1, hr2⟩ := hr
    obtain ⟨e, rfl⟩ : ∃ e, RX = [e] := by
      match RX, hRX (by simp) with
      | [e], _ => exact ⟨e, rfl⟩
    simp only [List.singleton_append, kids_cons, Nat.zero_add] at *
    refine Triple.callEq (P₀ := pts ra (nd .internal lr (rkv :: RC) (addrs (e :: RY))) ∗ tree (some ra, some 0) h e ∗ kids h ra 1 RY)
      (popFrontInternal_spec (by len_omega) (by len_omega)) ?_
    dsimp only
    simp only [sep_assoc]
    refine Triple.bindAt (a := p) (par_replace (p := p) hi hc) ?_
    refine Triple.bindNewEdge (by show i ≤ (A ++ rkv :: C).length; len_omega) ?_
    refine Triple.bindDescend (get_left (by omega)) (by len_omega) ?_
    unfold pushAny
    dsimp only
    simp only [Nat.add_one_ne_zero, if_false]
    refine Triple.callLast (P₀ := pts la (nd .internal ll LK (addrs LE)) ∗ tree (none, some 0) h e)
      (pushInternal_spec hl1 (by len_omega)) fun _ => ?_
    refine Ent.putFact (by node_fact) ?_
    refine Ent.putFact (by node_fact) ?_
    rw [kids_append, Nat.zero_add, hl1, kids_cons, kids_nil]
    norm_lists
    ent_ac

theorem Triple.bindTakeKvAt {f : K × V → HM K V β} {lay : Layout} {l : Link} {len i : Nat} {s s' : Slots (K × V)} {es : Slots Addr} {kv : K × V}
    [h : HasPts a P (cell lay l len s es) R] (ht : s.take CAPACITY i = .ok (kv, s'))
    (hk : Triple E (pts a (cell lay l len s' es) ∗ R) (f kv) Qb) : Triple E P (takeKvAt a i >>= f) Qb := by
  unfold takeKvAt
  exact Triple.bindAt (h := h) (cell_takeKv ht) hk

theorem Triple.bindPutKvAt {f : Unit → HM K V β} {lay : Layout} {l : Link} {len i : Nat} {s s' : Slots (K × V)} {es : Slots Addr} {kv : K × V}
    [h : HasPts a P (cell lay l len s es) R] (ht : s.put CAPACITY i kv = .ok s')
    (hk : Triple E (pts a (cell lay l len s' es) ∗ R) (f ()) Qb) : Triple E P (putKvAt a i kv >>= f) Qb := by
  unfold putKvAt
  exact Triple.bindAt (h := h) (n' := cell lay l len s' es) (by rw [cell_putKv ht, Exec.ok_bind]) hk

theorem Triple.bindShiftKv {f : Unit → HM K V β} {lay : Layout} {l : Link} {len i j n : Nat} {s s' : Slots (K × V)} {es : Slots Addr}
    [h : HasPts a P (cell lay l len s es) R] (ht : s.copyWithin CAPACITY i j n = .ok s')
    (hk : Triple E (pts a (cell lay l len s' es) ∗ R) (f ()) Qb) :
    Triple E P (atNode a (fun m => do let m ← m.shiftKv i j n; .ok ((), m)) >>= f) Qb :=
  Triple.bindAt (h := h) (n' := cell lay l len s' es) (by rw [cell_shiftKv ht, Exec.ok_bind]) hk

theorem Triple.bindShiftEdges {f : Unit → HM K V β} {l : Link} {len i j n : Nat} {s : Slots (K × V)} {es es' : Slots Addr}
    [h : HasPts a P (cell .internal l len s es) R] (ht : es.copyWithin EDGES i j n = .ok es')
    (hk : Triple E (pts a (cell .internal l len s es') ∗ R) (f ()) Qb) :
    Triple E P (atNode a (fun m => do let m ← m.shiftEdges i j n; .ok ((), m)) >>= f) Qb :=
  Triple.bindAt (h := h) (n' := cell .internal l len s es') (by rw [cell_shiftEdges ht, Exec.ok_bind]) hk

/-- `Triple.bindCorrect` for edges that do not start at slot 0. -/
theorem Triple.bindCorrect' {f : Unit → HM K V β} {l : Link} {len h i m k : Nat} {s : Slots (K × V)}
    (lcs : List (Link × ATree K V)) {cs : List (ATree K V)} (P₀ : HProp K V) [hp : HasPts a P (cell .internal l len s (.shifted k (addrs cs))) R]
    [hp' : Has P₀ R R'] (hP : P₀ = subs h lcs) (hcs : lcs.map (·.2) = cs)
    (hi : i = k) (hm : m = cs.length) (hlen : i + cs.length ≤ len + 1) (hcap : i + cs.length ≤ EDGES)
    (hk : Triple E (pts a (cell .internal l len s (.shifted k (addrs cs))) ∗ kids h a i cs ∗ R') (f ()) Qb) :
    Triple E P (correctLinks a i m >>= f) Qb := by
  have e := hp.eq; have e' := hp'.eq
  rw [e, e', hP, ← sep_assoc]
  have hcl : cs.length = lcs.length := by rw [← hcs, List.length_map]
  have := correctLinks_spec (E := E) (a := a) (n := cell .internal l len s (.shifted k (addrs cs))) (h := h) rfl lcs i m (by omega)
    (by show i + lcs.length ≤ len + 1; omega) (by omega) (fun j c hj => by
      subst hi
      simp only [cell, Slots.shifted]
      rw [if_neg (by omega), Nat.add_sub_cancel_left, ← hcs, addrs, List.getElem?_map, hj]; rfl)
  rw [hcs] at this
  refine Triple.seq (this.frame R') fun _ => ?_
  rw [sep_assoc]; exact hk

theorem bulkStealLeft_spec {p : Addr} {lp ll lr : Link} {A C LA LB RK : List (K × V)} {kv lkv : K × V} {X Y LX LY RE : List (ATree K V)}
    {la ra : Addr} {h i count : Nat}
    (hi : i = A.length) (hX : X.length = A.length) (hc : A.length + C.length + 1 ≤ CAPACITY) (hcnt : count = LB.length + 1)
    (hr : RK.length + count ≤ CAPACITY) (hLX : h ≠ 0 → LX.length = LA.length + 1) :
    Triple E (par p lp A kv C X la ra Y ∗ tree ll h ⟨la, LA ++ lkv :: LB, LX ++ LY⟩ ∗ tree lr h ⟨ra, RK, RE⟩)
      (bulkStealLeft ⟨h + 1, p, i⟩ count)
      (fun _ => par p lp A lkv C X la ra Y ∗ tree ll h ⟨la, LA, LX⟩ ∗ tree lr h ⟨ra, LB ++ kv :: RK, LY ++ RE⟩) := by
  subst hcnt
  unfold bulkStealLeft
  dsimp only
  refine Triple.bindChildren (get_left (by omega)) (get_right (by omega)) (by len_omega) (by len_omega) ?_
  dsimp only
  have h1 : (Slots.ofList RK).copyWithin CAPACITY 0 (LB.length + 1) RK.length = .ok (.shifted (LB.length + 1) RK) := Slots.copy_up rfl (by omega)
  have h3 : (Slots.ofList (A ++ kv :: C)).take CAPACITY i = .ok (kv, .hole A C) := Slots.take_ofList hi (by len_omega)
  have h4 : (Slots.hole LB RK).put CAPACITY LB.length kv = .ok (.ofList (LB ++ kv :: RK)) := Slots.put_hole (by omega) (by omega)
  have h6 : (Slots.hole A C).put CAPACITY i lkv = .ok (.ofList (A ++ lkv :: C)) := Slots.put_hole hi (by len_omega)
  have h2 : (LA ++ lkv :: LB).length ≤ CAPACITY → (Slots.ofList (LA ++ lkv :: LB)).moveTo (.shifted (LB.length + 1) RK) CAPACITY (LA.length + 1) 0 LB.length =
        .ok (.ofList (LA ++ [lkv]), .hole LB RK) := by
    intro hcap
    have h2 : (Slots.ofList ((LA ++ [lkv]) ++ LB)).moveTo (.shifted (LB.length + 1) RK) CAPACITY (LA.length + 1) 0 LB.length =
        .ok (.ofList (LA ++ [lkv]), fun x => if x < LB.length then LB[x]? else Slots.shifted (LB.length + 1) RK x) :=
      Slots.moveTo_shifted (by len_omega) (by omega) (by omega) (by len_omega) (by len_omega)
    rw [Slots.fill_hole rfl, List.append_assoc] at h2
    exact h2
  cases h with
  | zero =>
    simp only [tree_zero, sep_assoc, ATree.node, layOf, List.append_eq_nil_iff]
    refine Triple.getFact fun hl => Triple.getFact fun hr' => ?_
    obtain ⟨⟨rfl, rfl⟩, hl2⟩ := hl
    obtain ⟨rfl, hr2⟩ := hr'
    simp only [List.append_nil, addrs, List.map_nil]
    refine Triple.bindLenEq (a := la) (LA.length + (LB.length + 1)) (by show (LA ++ lkv :: LB).length = _; len_omega) ?_
    refine Triple.bindLenEq (a := ra) RK.length rfl ?_
    refine Triple.bindReq (by simpa using hr) ?_
    refine Triple.bindReq (by simp) ?_
    refine Triple.bindReq (by simp) ?_
    simp only [Nat.add_sub_cancel]
    refine Triple.bindShiftKv (a := ra) h1 ?_
    refine Triple.bindMoveKv (h2 hl2) ?_
    refine Triple.bindTakeKvAt h3 ?_
    refine Triple.bindPutKvAt h4 ?_
    refine Triple.bindTakeKvAt (Slots.take_last rfl (by len_omega)) ?_
    refine Triple.bindPutKvAt h6 ?_
    refine Triple.bindSetLen ?_
    refine Triple.bindSetLen ?_
    simp only [Nat.lt_irrefl, and_self, if_false, if_true]
    refine Triple.ofPure ?_
    refine Ent.putFact (by node_fact) ?_
    refine Ent.putFact (by node_fact) ?_
    norm_lists
    rw [show (A ++ kv :: C).length = (A ++ lkv :: C).length by len_omega, show RK.length + (LB.length + 1) = (LB ++ kv :: RK).length by len_omega]
    ent_ac
  | succ h =>
    simp only [tree_succ, sep_assoc, ATree.node, layOf]
    refine Triple.getFact fun hl => Triple.getFact fun hr' => ?_
    obtain ⟨hl1, hl2⟩ := hl
    obtain ⟨hr1, hr2⟩ := hr'
    have hLX' := hLX (by simp)
    refine Triple.bindLenEq (a := la) (LA.length + (LB.length + 1)) (by show (LA ++ lkv :: LB).length = _; len_omega) ?_
    refine Triple.bindLenEq (a := ra) RK.length rfl ?_
    refine Triple.bindReq (by simpa using hr) ?_
    refine Triple.bindReq (by simp) ?_
    refine Triple.bindReq (by simp) ?_
    simp only [Nat.add_sub_cancel]
    refine Triple.bindShiftKv (a := ra) h1 ?_
    refine Triple.bindMoveKv (h2 hl2) ?_
    refine Triple.bindTakeKvAt h3 ?_
    refine Triple.bindPutKvAt h4 ?_
    refine Triple.bindTakeKvAt (Slots.take_last rfl (by len_omega)) ?_
    refine Triple.bindPutKvAt h6 ?_
    refine Triple.bindSetLen ?_
    refine Triple.bindSetLen ?_
    simp only [Nat.zero_lt_succ, and_self, if_true]
    have e1 : (Slots.ofList (addrs RE)).copyWithin EDGES 0 (LB.length + 1) (RK.length + 1) = .ok (.shifted (LB.length + 1) (addrs RE)) :=
      Slots.copy_up (by len_omega) (by len_omega)
    refine Triple.bindShiftEdges (a := ra) e1 ?_
    refine Triple.bindCorrect' (h := h) (linked ra 0 RE) (kids h ra 0 RE) rfl (cs := RE) (linked_map_snd ..) rfl (by len_omega) (by len_omega) (by len_omega) ?_
    unfold moveEdges
    have e2 : (Slots.ofList (addrs LX ++ addrs LY)).moveTo (.shifted (LB.length + 1) (addrs RE)) EDGES (LA.length + 1) 0 (LB.length + 1) =
        .ok (.ofList (addrs LX), .ofList (addrs LY ++ addrs RE)) := by
      have := Slots.moveTo_shifted (a := addrs LX) (b := addrs LY) (d := addrs RE) (cap := EDGES) (i := LA.length + 1) (n := LB.length + 1) (k := LB.length + 1) (by len_omega) (by len_omega) (by omega) (by len_omega) (by len_omega)
      rw [Slots.fill_shifted (by len_omega)] at this
      exact this
    rw [show addrs (LX ++ LY) = addrs LX ++ addrs LY from List.map_append ..]
    refine Triple.bindMoveEdgesRaw e2 ?_
    rw [kids_append, sep_assoc, Nat.zero_add]
    refine Triple.last ?_
    refine Triple.bindCorrect (h := h) (linked la LX.length LY) (kids h la LX.length LY) rfl (cs := LY) (linked_map_snd ..) (xs := []) (ys := addrs RE) (by simp)
      (by len_omega) (by len_omega) (by len_omega) (by len_omega) ?_
    refine Triple.ofPure ?_
    refine Ent.putFact (by node_fact) ?_
    refine Ent.putFact (by node_fact) ?_
    rw [kids_append, Nat.zero_add, show LB.length + 1 = LY.length by len_omega]
    norm_lists
    rw [show (A ++ kv :: C).length = (A ++ lkv :: C).length by len_omega, show RK.length + LY.length = (LB ++ kv :: RK).length by len_omega]
    ent_ac

theorem bulkStealRight_spec {p : Addr} {lp ll lr : Link} {A C LK RA RB : List (K × V)} {kv rkv : K × V} {X Y LE RX RY : List (ATree K V)}
    {la ra : Addr} {h i count : Nat}
    (hi : i = A.length) (hX : X.length = A.length) (hc : A.length + C.length + 1 ≤ CAPACITY) (hcnt : count = RA.length + 1)
    (hl : LK.length + count ≤ CAPACITY) (hRX : h ≠ 0 → RX.length = count) :
    Triple E (par p lp A kv C X la ra Y ∗ tree ll h ⟨la, LK, LE⟩ ∗ tree lr h ⟨ra, RA ++ rkv :: RB, RX ++ RY⟩)
      (bulkStealRight ⟨h + 1, p, i⟩ count)
      (fun _ => par p lp A rkv C X la ra Y ∗ tree ll h ⟨la, LK ++ kv :: RA, LE ++ RX⟩ ∗ tree lr h ⟨ra, RB, RY⟩) := by
  subst hcnt
  unfold bulkStealRight
  dsimp only
  refine Triple.bindChildren (get_left (by omega)) (get_right (by omega)) (by len_omega) (by len_omega) ?_
  dsimp only
  have h1 : (Slots.ofList (A ++ kv :: C)).take CAPACITY i = .ok (kv, .hole A C) := Slots.take_ofList hi (by len_omega)
  have h2 : (Slots.ofList LK).put CAPACITY LK.length kv = .ok (.ofList (LK ++ [kv])) := Slots.put_last rfl (by omega)
  have h3 : (RA ++ rkv :: RB).length ≤ CAPACITY → (Slots.ofList (RA ++ rkv :: RB)).moveTo (Slots.ofList (LK ++ [kv])) CAPACITY 0 (LK.length + 1) RA.length =
      .ok (.shifted RA.length (rkv :: RB), .ofList ((LK ++ [kv]) ++ RA)) := fun hcap =>
    Slots.moveTo_front rfl (by len_omega) (by len_omega) (by omega)
  have h4 : (RA ++ rkv :: RB).length ≤ CAPACITY → (Slots.shifted RA.length (rkv :: RB)).take CAPACITY RA.length = .ok (rkv, .shifted (RA.length + 1) RB) := fun hcap =>
    Slots.take_shifted (by len_omega)
  have h5 : (Slots.hole A C).put CAPACITY i rkv = .ok (.ofList (A ++ rkv :: C)) := Slots.put_hole hi (by len_omega)
  have h6 : (RA ++ rkv :: RB).length ≤ CAPACITY → (Slots.shifted (RA.length + 1) RB).copyWithin CAPACITY (RA.length + 1) 0 RB.length = .ok (.ofList RB) := fun hcap =>
    Slots.copy_down rfl (by len_omega)
  cases h with
  | zero =>
    simp only [tree_zero, sep_assoc, ATree.node, layOf, List.append_eq_nil_iff]
    refine Triple.getFact fun hl => Triple.getFact fun hr' => ?_
    obtain ⟨rfl, hl2⟩ := hl
    obtain ⟨⟨rfl, rfl⟩, hr2⟩ := hr'
    simp only [List.append_nil, addrs, List.map_nil]
    refine Triple.bindLenEq (a := la) LK.length rfl ?_
    refine Triple.bindLenEq (a := ra) (RB.length + (RA.length + 1)) (by show (RA ++ rkv :: RB).length = _; len_omega) ?_
    refine Triple.bindReq (by simpa using hl) ?_
    refine Triple.bindReq (by simp) ?_
    refine Triple.bindReq (by simp) ?_
    simp only [Nat.add_sub_cancel]
    refine Triple.bindTakeKvAt h1 ?_
    refine Triple.bindPutKvAt h2 ?_
    refine Triple.bindMoveKv (h3 hr2) ?_
    refine Triple.bindTakeKvAt (h4 hr2) ?_
    refine Triple.bindPutKvAt h5 ?_
    refine Triple.bindShiftKv (a := ra) (h6 hr2) ?_
    refine Triple.bindSetLen ?_
    refine Triple.bindSetLen ?_
    simp only [Nat.lt_irrefl, and_self, if_false, if_true]
    refine Triple.ofPure ?_
    refine Ent.putFact (by node_fact) ?_
    refine Ent.putFact (by node_fact) ?_
    norm_lists
    rw [show (A ++ kv :: C).length = (A ++ rkv :: C).length by len_omega, show LK.length + (RA.length + 1) = (LK ++ kv :: RA).length by len_omega]
    ent_ac
  | succ h =>
    simp only [tree_succ, sep_assoc, ATree.node, layOf]
    refine Triple.getFact fun hl => Triple.getFact fun hr' => ?_
    obtain ⟨hl1, hl2⟩ := hl
    obtain ⟨hr1, hr2⟩ := hr'
    have hRX' := hRX (by simp)
    refine Triple.bindLenEq (a := la) LK.length rfl ?_
    refine Triple.bindLenEq (a := ra) (RB.length + (RA.length + 1)) (by show (RA ++ rkv :: RB).length = _; len_omega) ?_
    refine Triple.bindReq (by simpa using hl) ?_
    refine Triple.bindReq (by simp) ?_
    refine Triple.bindReq (by simp) ?_
    simp only [Nat.add_sub_cancel]
    refine Triple.bindTakeKvAt h1 ?_
    refine Triple.bindPutKvAt h2 ?_
    refine Triple.bindMoveKv (h3 hr2) ?_
    refine Triple.bindTakeKvAt (h4 hr2) ?_
    refine Triple.bindPutKvAt h5 ?_
    refine Triple.bindShiftKv (a := ra) (h6 hr2) ?_
    refine Triple.bindSetLen ?_
    refine Triple.bindSetLen ?_
    simp only [Nat.zero_lt_succ, and_self, if_true]
    unfold moveEdges
    have e2 : (Slots.ofList (addrs RX ++ addrs RY)).moveTo (.ofList (addrs LE)) EDGES 0 (LK.length + 1) (RA.length + 1) =
        .ok (.shifted (RA.length + 1) (addrs RY), .ofList (addrs LE ++ addrs RX)) :=
      Slots.moveTo_front (by len_omega) (by len_omega) (by len_omega) (by len_omega)
    have e1 : (Slots.shifted (RA.length + 1) (addrs RY)).copyWithin EDGES (RA.length + 1) 0 (RB.length + 1) = .ok (.ofList (addrs RY)) :=
      Slots.copy_down (by len_omega) (by len_omega)
    rw [show addrs (RX ++ RY) = addrs RX ++ addrs RY from List.map_append ..]
    refine Triple.assoc ?_
    refine Triple.bindMoveEdgesRaw e2 ?_
    rw [kids_append, Nat.zero_add]
    refine Triple.bindCorrect (h := h) (linked ra 0 RX) (kids h ra 0 RX) rfl (cs := RX) (linked_map_snd ..) (xs := addrs LE) (ys := []) (by simp)
      (by len_omega) (by len_omega) (by len_omega) (by len_omega) ?_
    refine Triple.bindShiftEdges (a := ra) e1 ?_
    refine Triple.last ?_
    refine Triple.bindCorrect (h := h) (linked ra RX.length RY) (kids h ra RX.length RY) rfl (cs := RY) (linked_map_snd ..) (xs := []) (ys := []) (by simp)
      (by len_omega) (by len_omega) (by len_omega) (by len_omega) ?_
    refine Triple.ofPure ?_
    refine Ent.putFact (by node_fact) ?_
    refine Ent.putFact (by node_fact) ?_
    rw [kids_append, Nat.zero_add, hl1]
    norm_lists
    rw [show (A ++ kv :: C).length = (A ++ rkv :: C).length by len_omega, show LK.length + (RA.length + 1) = (LK ++ kv :: RA).length by len_omega]
    ent_ac

end Verif.Heap
