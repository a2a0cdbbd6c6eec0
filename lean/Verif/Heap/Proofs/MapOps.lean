import Verif.Heap.Proofs.Insert
import Verif.BTree.Proofs.Lists
/-
Maps in memory, and that the operations on them do what the level-1 model says: insertion and lookup.
-/
namespace Verif.Heap
open Verif
open Verif.BTree (B MIN_LEN CAPACITY Tree Handle setE sliceInsert sliceRemove InsertRes Gone Map emptyLeaf)

variable {K V Q α β : Type} {E : String → Prop}

/-- The map `hm` in memory is the level-1 map `M`, its nodes being at the addresses in `ta`. -/
def own (hm : HMap) (M : Map K V) (ta : ATree K V) : HProp K V :=
  if M.shared then
    fact (hm = ⟨⟨0, SHARED⟩, M.length⟩ ∧ M.height = 0 ∧ M.root = emptyLeaf ∧ ta = ⟨SHARED, [], []⟩)
  else hex fun pi : Option Nat => fact (ta.erase = M.root ∧ hm = ⟨⟨M.height, ta.addr⟩, M.length⟩) ∗ tree (none, pi) M.height ta

/-- The map `hm` in memory is the level-1 map `M`. -/
def rep (hm : HMap) (M : Map K V) : HProp K V := hex fun ta => own hm M ta

theorem own_owned {hm : HMap} {M : Map K V} {ta : ATree K V} (h : M.shared = false) :
    own hm M ta = hex fun pi : Option Nat => fact (ta.erase = M.root ∧ hm = ⟨⟨M.height, ta.addr⟩, M.length⟩) ∗ tree (none, pi) M.height ta := by
  rw [own, h]; rfl

theorem tree_pos {l : Link} {h : Nat} {t : ATree K V} : Ent (tree l h t) (fact (t.addr ≠ SHARED) ∗ tree l h t) := by
  unfold tree
  rw [← sep_assoc]
  exact Ent.frame pts_pos _

theorem pushLevel_spec {l : Link} {h : Nat} {t : ATree K V} {al : Alloc} :
    Triple E (sched al ∗ tree l h t) (pushLevel ⟨h, t.addr⟩) (fun r => sched al.request.2 ∗
      match r with
      | none => fact (al.request.1 = false) ∗ tree l h t
      | some n => fact (al.request.1 = true ∧ n.height = h + 1) ∗ pts n.node (nd .internal (none, none) [] (addrs [t])) ∗
          tree (some n.node, some 0) h t) := by
  refine Triple.pre ?_ (Ent.sep (Ent.refl _) tree_pos)
  refine Triple.getFact fun h0 => ?_
  unfold pushLevel
  refine Triple.bindReq (by simpa using h0) ?_
  refine Triple.bindAlloc (fun hno => ?_) fun hyes a => ?_
  · refine Triple.ofPure (Ent.putFact hno ?_)
    ent_ac
  · dsimp only
    rw [new_eq]
    refine Triple.bindAt (n' := nd .internal (none, none) [] (addrs [t])) (x := ()) ?_ ?_
    · have : (Slots.ofList ([] : List Addr)).put EDGES 0 t.addr = .ok (.ofList ([] ++ [t.addr])) := Slots.put_last rfl (by decide)
      simp only [nd, cell, this, Exec.ok_bind]
      rfl
    refine Triple.bindCorrect1 (c := t) (lc := l) (h := h) (xs := []) (ys := []) rfl rfl (by simp) (by decide) ?_
    refine Triple.ofPure (Ent.putFact ⟨hyes, rfl⟩ ?_)
    ent_ac

/-- The memory of one map that nobody has a handle to: what a failed insertion leaves without an owner is like that (no nodes, or one tree of them). -/
def litter : HProp K V := hex fun x : HMap × Map K V => fact (x.2.length = (BTree.toList x.2.height x.2.root).length) ∗ rep x.1 x.2

/-- The half of a node that is left without an owner, as a map. -/
def halfMap : Option (Nat × Tree K V) → Map K V
  | none => Map.new
  | some r => ⟨r.1, r.2, false, (BTree.toList r.1 r.2).length⟩

theorem halfMap_len : ∀ {g : Option (Nat × Tree K V)}, (halfMap g).length = (BTree.toList (halfMap g).height (halfMap g).root).length
  | none => rfl
  | some _ => rfl

theorem leaked_rep : ∀ {g : Option (Nat × Tree K V)}, Ent (leaked g) (hex fun x : HMap => rep x (halfMap g))
  | none => by
    refine Ent.hex_right HMap.new (Ent.hex_right ⟨SHARED, [], []⟩ ?_)
    refine Ent.of_eq ?_
    exact (fact_of ⟨rfl, rfl, rfl, rfl⟩).symm
  | some r => by
    rintro w ⟨ta, hw⟩
    obtain ⟨h1, h2⟩ := fact_sep.1 hw
    refine ⟨⟨⟨r.1, ta.addr⟩, (BTree.toList r.1 r.2).length⟩, ta, ?_⟩
    show own _ _ ta w
    rw [own_owned rfl]
    exact ⟨none, fact_sep.2 ⟨⟨h1, rfl⟩, h2⟩⟩

theorem leaked_litter {g : Option (Nat × Tree K V)} : Ent (leaked g) litter := by
  refine Ent.trans leaked_rep ?_
  rintro w ⟨x, hw⟩
  exact ⟨(x, halfMap g), fact_sep.2 ⟨halfMap_len, hw⟩⟩

theorem emp_litter : Ent (emp : HProp K V) litter := leaked_litter (g := none)

/-- Success of an insertion and where the new value is, or failure and what was left without an owner. -/
def VacExact (M' : Map K V) (gone : Option (Gone K V)) (res : Res Handle) (o : Option HRef × HMap) : HProp K V :=
  match res with
  | .ok hd => hex fun x : ATree K V × HRef => fact (o.1 = some x.2 ∧ HandleAt M'.height x.1 hd x.2) ∗ own o.2 M' x.1
  | .error _ => hex fun g : Gone K V => fact (o.1 = none ∧ gone = some g) ∗ rep o.2 M' ∗ leaked g.half

/-- Success of an insertion and where the new value is, or failure (some memory may have been lost). -/
def VacPost (M' : Map K V) (res : Res Handle) (o : Option HRef × HMap) : HProp K V :=
  match res with
  | .ok hd => hex fun x : ATree K V × HRef => fact (o.1 = some x.2 ∧ HandleAt M'.height x.1 hd x.2) ∗ own o.2 M' x.1
  | .error _ => fact (o.1 = none) ∗ rep o.2 M' ∗ litter

theorem insertRec_length : ∀ {h : Nat} {t : Tree K V} {p : List Nat} {idx : Nat} {kv : K × V} {al : Alloc} {x : InsertRes K V × Alloc},
    BTree.insertRec h t p idx kv al = .ok x → p.length = h
  | 0, t, [], idx, kv, al, x, _ => rfl
  | 0, t, _ :: _, idx, kv, al, x, h => by simp [BTree.insertRec] at h
  | h + 1, t, [], idx, kv, al, x, hx => by simp [BTree.insertRec] at hx
  | h + 1, t, i :: p, idx, kv, al, x, hx => by
    simp only [BTree.insertRec] at hx
    obtain ⟨c, _, hx⟩ := Exec.bind_eq_ok.1 hx
    obtain ⟨y, hy, _⟩ := Exec.bind_eq_ok.1 hx
    simpa using insertRec_length hy

theorem VacExact.post {M' : Map K V} {gone : Option (Gone K V)} {res : Res Handle} {o : Option HRef × HMap} :
    Ent (VacExact M' gone res o) (VacPost M' res o) := by
  cases res with
  | ok hd => exact Ent.refl _
  | error e =>
    rintro w ⟨g, hw⟩
    obtain ⟨h1, h2⟩ := fact_sep.1 hw
    exact fact_sep.2 ⟨h1.1, Ent.sep (Ent.refl _) leaked_litter _ h2⟩

theorem vacantInsert_exact {hm : HMap} {M M' : Map K V} {ta : ATree K V} {hd : Handle} {hr : HRef} {k : K} {v : V} {al al' : Alloc} {res : Res Handle}
    (hs : M.shared = false) (hat : HandleAt M.height ta hd hr) (hx : M.vacantInsert hd k v al = .ok (res, M', al')) :
    Triple E (own hm M ta ∗ sched al) (hm.vacantInsert hr (k, v)) (fun o => sched al' ∗ VacExact M' (M.vacantGone hd k v al) res o) := by
  obtain ⟨H, root, shared, len⟩ := M
  dsimp only at hs hat
  subst hs
  rw [own_owned rfl]
  refine Triple.getHex fun pi => ?_
  simp only [sep_assoc]
  refine Triple.getFact fun hf => ?_
  obtain ⟨rfl, rfl⟩ := hf
  rw [vacantInsert_climb]
  dsimp only
  simp only [BTree.Map.vacantInsert] at hx
  obtain ⟨⟨r, al1⟩, hrec, hx⟩ := Exec.bind_eq_ok.1 hx
  obtain ⟨n, hn, hle, rfl⟩ := hat
  have hlen := insertRec_length hrec
  rw [List.length_reverse] at hlen
  rw [hlen, Nat.sub_self, climb_succ, bind_assoc']
  refine Triple.seq (climb_spec (root := ⟨H, ta.addr⟩) (l := (none, pi)) hn hrec) fun x => ?_
  obtain ⟨pos, x⟩ := x
  cases r with
  | fit t' loc =>
    simp only [Exec.ok.injEq, Prod.mk.injEq] at hx
    obtain ⟨rfl, rfl, rfl⟩ := hx
    match x with
    | .inl c2 =>
      simp only [ClimbPost, InsPost]
      exact Triple.getFact fun h => h.elim
    | .inr (rt, false) =>
      simp only [ClimbPost, InsPost, sep_assoc]
      exact Triple.getFact fun _ => Triple.getFact fun h => h.elim
    | .inr (rt, true) =>
      simp only [ClimbPost, InsPost, sep_assoc]
      refine Triple.getFact fun hrt => ?_
      subst hrt
      simp only [hex_sep, sep_hex]
      refine Triple.ofHex fun ta' => ?_
      refine Triple.getFact fun hta => ?_
      obtain ⟨rfl, hta, hpos⟩ := hta
      show Triple E _ (pure _) _
      refine Triple.ofPure ?_
      simp only [VacExact, sep_hex]
      refine Ent.hex_right (ta', pos) ?_
      refine Ent.putFact ⟨rfl, hpos⟩ ?_
      rw [own_owned rfl, sep_hex]
      refine Ent.hex_right pi ?_
      refine Ent.putFact ⟨rfl, by rw [hta]⟩ ?_
      ent_ac
  | oom t' gone =>
    simp only [Exec.ok.injEq, Prod.mk.injEq] at hx
    obtain ⟨rfl, rfl, rfl⟩ := hx
    match x with
    | .inl c2 =>
      simp only [ClimbPost, InsPost]
      exact Triple.getFact fun h => h.elim
    | .inr (rt, true) =>
      simp only [ClimbPost, InsPost, sep_assoc]
      exact Triple.getFact fun _ => Triple.getFact fun h => h.elim
    | .inr (rt, false) =>
      simp only [ClimbPost, InsPost, sep_assoc]
      refine Triple.getFact fun hrt => ?_
      subst hrt
      simp only [hex_sep, sep_hex]
      refine Triple.ofHex fun ta' => ?_
      refine Triple.getFact fun hta => ?_
      obtain ⟨rfl, hta⟩ := hta
      show Triple E _ (pure _) _
      refine Triple.ofPure ?_
      simp only [VacExact, sep_hex]
      refine Ent.hex_right gone ?_
      refine Ent.putFact ⟨rfl, by simp only [BTree.Map.vacantGone, hrec]⟩ ?_
      simp only [rep, hex_sep, sep_hex]
      refine Ent.hex_right ta' ?_
      rw [own_owned rfl, hex_sep, sep_hex]
      refine Ent.hex_right pi ?_
      simp only [sep_assoc]
      refine Ent.putFact ⟨trivial, by rw [hta]⟩ ?_
      ent_ac
  | split L mid R inRight loc =>
    match x with
    | .inr (rt, true) =>
      simp only [ClimbPost, InsPost, sep_assoc]
      exact Triple.getFact fun _ => Triple.getFact fun h => h.elim
    | .inr (rt, false) =>
      simp only [ClimbPost, InsPost, sep_assoc]
      exact Triple.getFact fun _ => Triple.getFact fun h => h.elim
    | .inl c2 =>
      simp only [ClimbPost, InsPost, sep_assoc]
      simp only [hex_sep, sep_hex]
      refine Triple.ofHex fun ta' => ?_
      obtain ⟨L', R'⟩ := ta'
      simp only [sep_assoc]
      refine Triple.getFact fun hta => ?_
      obtain ⟨rfl, hL, rfl, rfl, hpos⟩ := hta
      simp only [require, Bool.not_false, if_true, Exec.ok_bind] at hx
      show Triple E _ ((insertStep _ _ >>= _) >>= _) _
      unfold insertStep
      dsimp only
      refine Triple.assoc ?_
      refine Triple.assoc ?_
      rw [← hL]
      have hlink : tree (none, pi) H L' = (pts L'.addr (L'.node (none, pi) H) ∗ below H L') := rfl
      rw [hlink]
      simp only [sep_assoc]
      refine Triple.bindAscendNone (a := L'.addr) rfl ?_
      dsimp only
      refine Triple.assoc ?_
      refine Triple.pre (P := (tree (none, pi) H L' ∗ tree (none, none) H R' ∗ sched al1)) ?_ (by rw [hlink]; ent_ac)
      refine Triple.call (P₀ := sched al1 ∗ tree (none, pi) H L') pushLevel_spec fun o => ?_
      cases o with
      | none =>
        simp only [sep_assoc]
        refine Triple.getFact fun hno => ?_
        rw [hno] at hx
        simp only [Bool.false_eq_true, if_false, Exec.ok.injEq, Prod.mk.injEq] at hx
        obtain ⟨rfl, rfl, rfl⟩ := hx
        show Triple E _ (pure _) _
        refine Triple.ofPure ?_
        simp only [VacExact, sep_hex]
        refine Ent.hex_right ⟨mid, some (H, R'.erase)⟩ ?_
        refine Ent.putFact ⟨rfl, by simp only [BTree.Map.vacantGone, hrec, hno, Bool.false_eq_true, if_false]⟩ ?_
        simp only [rep, hex_sep, sep_hex]
        refine Ent.hex_right L' ?_
        rw [own_owned rfl, hex_sep, sep_hex]
        refine Ent.hex_right pi ?_
        simp only [sep_assoc]
        refine Ent.putFact ⟨trivial, trivial⟩ ?_
        exact Ent.sep (Ent.refl _) (Ent.sep (Ent.refl _) ((Ent.of_eq (sep_emp _)).trans (leaked_tree rfl)))
      | some nr =>
        obtain ⟨nh, na⟩ := nr
        simp only [sep_assoc]
        refine Triple.getFact fun hyes => ?_
        obtain ⟨hyes, hnh⟩ := hyes
        subst hnh
        rw [hyes] at hx
        simp only [if_true, BTree.Tree.pushInternal, BTree.Tree.len, List.length_nil, require, decide_eq_true_eq, Nat.zero_lt_succ, Exec.ok_bind,
          List.nil_append, List.singleton_append, Exec.ok.injEq, Prod.mk.injEq] at hx
        obtain ⟨rfl, rfl, rfl⟩ := hx
        refine Triple.assoc ?_
        refine Triple.call (P₀ := pts na (nd .internal (none, none) [] (addrs [L'])) ∗ tree (none, none) H R')
          (pushInternal_spec (X := [L']) (A := []) rfl (Nat.zero_lt_succ _)) fun _ => ?_
        show Triple E _ (pure _) _
        refine Triple.ofPure ?_
        simp only [VacExact, sep_hex]
        refine Ent.hex_right (⟨na, [mid], [L', R']⟩, pos) ?_
        refine Ent.putFact ⟨rfl, HandleAt.halves (a := na) (kvs := [mid]) (X := []) (Y := []) hpos.1 rfl⟩ ?_
        rw [own_owned rfl, sep_hex]
        refine Ent.hex_right none ?_
        refine Ent.putFact ⟨by rw [ATree.erase_mk]; rfl, rfl⟩ ?_
        dsimp only
        rw [tree_internal]
        refine Ent.putFact ⟨rfl, show 1 ≤ 11 by decide⟩ ?_
        rw [kids_cons, kids_cons, kids_nil]
        ent_ac

theorem vacantInsert_spec {hm : HMap} {M M' : Map K V} {ta : ATree K V} {hd : Handle} {hr : HRef} {k : K} {v : V} {al al' : Alloc} {res : Res Handle}
    (hs : M.shared = false) (hat : HandleAt M.height ta hd hr) (hx : M.vacantInsert hd k v al = .ok (res, M', al')) :
    Triple E (own hm M ta ∗ sched al) (hm.vacantInsert hr (k, v)) (fun o => sched al' ∗ VacPost M' res o) :=
  Triple.post (vacantInsert_exact hs hat hx) fun _ => Ent.sep (Ent.refl _) VacExact.post

end Verif.Heap
