import Verif.Heap.Proofs.AnyCalls
import Verif.Heap.Proofs.SplitOffMap
/-
`split_off`, whatever the comparisons: it cuts the map somewhere.
-/
namespace Verif.Heap
open Verif
open Verif.BTree (B MIN_LEN CAPACITY Tree Handle Map emptyLeaf emptySpine setE toList Below RSpine LSpine)
open Verif.Spec (Out)

variable {K V Q α β : Type} {E : String → Prop}

/-- The two trees after the cut. -/
def Cut (h : Nat) (t : Tree K V) (x : Tree K V × Tree K V) : Prop :=
  RSpine h x.1 ∧ LSpine h x.2 ∧ x.1.len ≤ 11 ∧ x.2.len ≤ 11 ∧ toList h x.1 ++ toList h x.2 = toList h t

theorem splitLoopO_spec {bor : K → Q} {q : Q} {ret : Prop} (hE : ∀ msg, ¬ ret → E msg) : ∀ {h : Nat} {ll lr : Link} {tl tr : ATree K V} {c : Cmps Q},
    Below h tl.erase → tl.erase.len ≤ 11 → tr.erase = emptySpine h → (ret → c.Return) →
    Triple E (tree ll h tl ∗ tree lr h tr) (splitLoopO bor q h tl.addr tr.addr c)
      (fun _ => hex fun x : Tree K V × Tree K V => fact (Cut h tl.erase x) ∗ holds ll h tl.addr x.1 ∗ holds lr h tr.addr x.2)
  | 0, ll, lr, tl, tr, c, hb, hl, hr, hret => by
    unfold splitLoopO
    refine Triple.call (P₀ := tree ll 0 tl) (searchLinearO_tree c) fun o => ?_
    rw [sep_assoc]
    refine Triple.getFact fun hf => ?_
    match o, hf with
    | none, hf => exact Triple.ofPanic (hE _ fun h => hf (hret h))
    | some ((i, b), c'), hf =>
      obtain ⟨_, hi, _, _⟩ := hf
      have hes : tl.erase.edges = [] := hb
      have hmv : tl.erase.moveSuffix tr.erase i = .ok (⟨tl.erase.kvs.take i, []⟩, ⟨tl.erase.kvs.drop i, []⟩) := by
        rw [hr]
        have hes' : List.map ATree.erase tl.edges = [] := by simpa using hes
        have this : i ≤ tl.kvs.length := hi
        simp [BTree.Tree.moveSuffix, emptySpine, emptyLeaf, BTree.Tree.len, hes', this]
      obtain ⟨tl', tr', e, e1, e2, hle, _, hm⟩ := moveSuffix_ref (E := E) (ll := ll) (lr := lr) (h := 0) hmv
      simp only [Prod.mk.injEq] at e
      dsimp only
      refine Triple.callEq (P₀ := tree ll 0 tl) (newEdge_tree hle) ?_
      refine hm.post fun _ => ?_
      rw [← e1, ← e2]
      refine Ent.hex_right (tl'.erase, tr'.erase) (Ent.putFact ⟨?_, ?_, ?_, ?_, ?_⟩ (Ent.sep holds_intro holds_intro))
      · dsimp only; rw [← e.1]; exact .leaf _
      · dsimp only; rw [← e.2]; exact .leaf _
      · dsimp only; rw [← e.1]; simp [BTree.Tree.len] at hl ⊢; omega
      · dsimp only; rw [← e.2]; simp [BTree.Tree.len] at hl ⊢; omega
      · dsimp only; rw [← e.1, ← e.2]; simp
  | h + 1, ll, lr, tl, tr, c, hb, hl, hr, hret => by
    unfold splitLoopO
    refine Triple.call (P₀ := tree ll (h + 1) tl) (searchLinearO_tree c) fun o => ?_
    rw [sep_assoc]
    refine Triple.getFact fun hf => ?_
    match o, hf with
    | none, hf => exact Triple.ofPanic (hE _ fun h => hf (hret h))
    | some ((i, b), c'), hf =>
      obtain ⟨_, hi, _, hc⟩ := hf
      obtain ⟨A, C, X, d, Y, htl, hA, hX, hY⟩ := BTree.split_edge hb.1 (i := i) (by rw [ATree.erase_len]; exact hi)
      have hX' : X.length = A.length := by omega
      have t1 : (A ++ C).take i = A := by rw [← hA]; simp
      have t2 : (A ++ C).drop i = C := by rw [← hA]; simp
      have t3 : (X ++ d :: Y).take (i + 1) = X ++ [d] := by
        rw [← hA, ← hX', List.take_append, List.take_of_length_le (Nat.le_succ _)]; simp
      have t4 : (X ++ d :: Y).drop (i + 1) = Y := by
        rw [← hA, ← hX', List.drop_append, List.drop_eq_nil_of_le (Nat.le_succ _)]; simp
      rw [htl] at hb hl
      obtain ⟨hXi, hci, hYi⟩ := BTree.mem_edges_split hb.2
      have hiA : i ≤ A.length + C.length := by omega
      have hmv : tl.erase.moveSuffix tr.erase i = .ok (⟨A, X ++ [d]⟩, ⟨C, emptySpine h :: Y⟩) := by
        rw [hr, htl]
        simp only [BTree.Tree.moveSuffix, emptySpine, BTree.Tree.len, t1, t2, t3, t4]
        simp [hiA]
      obtain ⟨tl', tr', e, e1, e2, hle, hlen, hm⟩ := moveSuffix_ref (E := E) (ll := ll) (lr := lr) (h := h + 1) hmv
      simp only [Prod.mk.injEq] at e
      have hcl : getE tl'.erase.edges i = .ok d := by rw [← e.1, ← hA, ← hX']; simp
      have hcr : getE tr'.erase.edges 0 = .ok (emptySpine h) := by rw [← e.2]; rfl
      obtain ⟨clA, F, h1, h2, h3, h4⟩ := open_child (l := ll) (h := h) hcl
      obtain ⟨crA, G, g1, g2, g3, g4⟩ := open_child (l := lr) (h := h) hcr
      dsimp only
      refine Triple.callEq (P₀ := tree ll (h + 1) tl) (newEdge_tree hle) ?_
      refine Triple.seq hm fun _ => ?_
      rw [← e1, ← e2]
      refine Triple.callEq (P₀ := tree ll (h + 1) tl') (descend_tree h1) ?_
      refine Triple.callEq (P₀ := tree lr (h + 1) tr') (newEdge_tree (Nat.zero_le _)) ?_
      refine Triple.callEq (P₀ := tree lr (h + 1) tr') (descend_tree g1) ?_
      rw [h3, g3]
      simp only [sep_assoc]
      refine Triple.callLast (P₀ := tree (some tl'.addr, some i) h clA ∗ tree (some tr'.addr, some 0) h crA)
        (splitLoopO_spec hE (by rw [h2]; exact hci.2.2) (by rw [h2]; exact hci.2.1) g2 fun h => hc (hret h)) fun _ => ?_
      rw [hex_sep]
      rintro w ⟨⟨cl', cr'⟩, hw⟩
      rw [sep_assoc] at hw
      obtain ⟨⟨k1, k2, k3, k4, k5⟩, hw⟩ := fact_sep.1 hw
      rw [h2] at k5
      dsimp only at k1 k2 k3 k4 k5
      have hle' : setE tl'.erase.edges i cl' = .ok (X ++ [cl']) := by rw [← e.1, ← hA, ← hX']; simp
      have hre' : setE tr'.erase.edges 0 cr' = .ok (cr' :: Y) := by rw [← e.2]; simpa using BTree.setE_append [] (emptySpine h) cr' Y
      refine ⟨(⟨A, X ++ [cl']⟩, ⟨C, cr' :: Y⟩), fact_sep.2 ⟨⟨.node A X cl' hX' hXi k3 k1, .node C cr' Y hY hYi k4 k2, ?_, ?_, ?_⟩, ?_⟩⟩
      · simp [BTree.Tree.len] at hl ⊢; omega
      · simp [BTree.Tree.len] at hl ⊢; omega
      · dsimp only
        have e1 := BTree.toList_split (h := h) (A := A) (C := []) (X := X) (Y := []) (c := cl') hX'
        have e2 := BTree.toList_split (h := h) (A := []) (C := C) (X := []) (Y := Y) (c := cr') rfl
        simp only [BTree.postT_nil, BTree.preT_nil, List.append_nil, List.nil_append] at e1 e2
        rw [e1, e2, htl, BTree.toList_split hX', ← k5]; simp
      · have k := Ent.sep (h4 cl' _ hle') (g4 cr' _ hre')
        rw [← e.1, ← e.2] at k
        dsimp only at k ⊢
        refine k w ?_
        revert hw
        exact (show Ent _ _ by ent_ac) w

/-- What `split_off` leaves, of a map with the entries `l`. -/
def SplitPostO (mem : Prop) (l : List (K × V)) (o : Option HMap × HMap) : HProp K V :=
  hex fun y : (Map K V × Map K V) × Alloc => fact ((mem → y.2.Good) ∧ y.1.1.WF) ∗ sched y.2 ∗ rep o.2 y.1.1 ∗
    match o.1 with
    | some hr => fact (y.1.2.WF ∧ l = y.1.1.toList ++ y.1.2.toList) ∗ rep hr y.1.2
    | none => fact (¬ mem ∧ y.1.1.toList = l)

theorem splitPostO_some {mem : Prop} {l : List (K × V)} {hr hm : HMap} {ML MR : Map K V} {al : Alloc} {P : HProp K V} (hal : mem → al.Good) (h1 : ML.WF) (h2 : MR.WF)
    (h3 : l = ML.toList ++ MR.toList) (h : Ent P (sched al ∗ rep hm ML ∗ rep hr MR)) : Ent P (SplitPostO mem l (some hr, hm)) := by
  refine Ent.hex_right ((ML, MR), al) (Ent.fact_right ⟨hal, h1⟩ ?_)
  dsimp only
  rw [fact_of ⟨h2, h3⟩, emp_sep]
  exact h

theorem splitPostO_none {mem : Prop} {l : List (K × V)} {hm : HMap} {ML : Map K V} {al : Alloc} {P : HProp K V} (hmem : ¬ mem) (h1 : ML.WF)
    (h3 : ML.toList = l) (h : Ent P (sched al ∗ rep hm ML)) : Ent P (SplitPostO mem l (none, hm)) := by
  refine Ent.hex_right ((ML, ML), al) (Ent.fact_right ⟨fun h => absurd h hmem, h1⟩ ?_)
  dsimp only
  rw [fact_of ⟨hmem, h3⟩, sep_emp]
  exact h

theorem splitOffO_spec {bor : K → Q} {q : Q} {hm : HMap} {M : Map K V} {al : Alloc} {mem ret : Prop} {c : Cmps Q} (hM : M.WF) (hal : mem → al.Good)
    (hret : ret → c.Return) (hE : ∀ msg, ¬ ret → E msg) :
    Triple E (rep hm M ∗ sched al) (hm.splitOffO bor q c) (SplitPostO mem M.toList) := by
  have hlen0 := hM.len
  by_cases h0 : M.length = 0
  · have hlen : Ent (rep hm M ∗ sched al) (fact (hm.length = 0) ∗ rep hm M ∗ sched al) := by
      cases hs : M.shared with
      | true =>
        rw [rep_shared hs]
        refine Ent.getFact fun hf => ?_
        exact Ent.fact_right (by rw [hf.1, h0]) (Ent.fact_right hf (Ent.refl _))
      | false =>
        rw [own_rooted hs, sep_assoc]
        refine Ent.getFact fun hf => ?_
        exact Ent.fact_right (by rw [hf, h0]) (Ent.fact_right hf (Ent.refl _))
    refine Triple.pre ?_ hlen
    refine Triple.getFact fun hl => ?_
    unfold HMap.splitOffO
    rw [if_pos hl]
    refine Triple.ofPure (splitPostO_some (ML := M) (MR := Map.new) hal hM Map.WF_new ?_ ?_)
    · show M.toList = M.toList ++ []
      rw [List.append_nil]
    · rw [rep_new, sep_emp]
      ent_ac
  · have hs : M.shared = false := by
      cases h : M.shared with
      | false => rfl
      | true =>
        obtain ⟨k1, k2⟩ := hM.shared h
        exfalso
        apply h0
        have : M.toList = [] := by unfold BTree.Map.toList; rw [k1, k2]; rfl
        rw [hlen0, this]; rfl
    rw [own_rooted hs]
    refine Triple.pre (P := fact (hm.length = M.length) ∗ rooted hm.root M.height M.root ∗ sched al) ?_ (Ent.of_eq (sep_assoc ..))
    refine Triple.getFact fun hlen => ?_
    obtain ⟨hroot, hl⟩ := hm
    dsimp only at hlen ⊢
    subst hlen
    unfold HMap.splitOffO
    dsimp only
    rw [if_neg h0]
    refine Triple.call (P₀ := sched al) newLeaf_spec fun o => ?_
    cases o with
    | none =>
      dsimp only
      simp only [sep_assoc]
      refine Triple.getFact fun hno => ?_
      refine Triple.pre (P := (rep HMap.new (Map.new : Map K V)) ∗ sched al.request.2 ∗ rooted hroot M.height M.root) ?_
        (by rw [rep_new, emp_sep]; simp only [sep_emp]; exact Ent.refl _)
      refine Triple.call (P₀ := rep HMap.new (Map.new : Map K V)) (mapDrop_spec rfl) fun _ => ?_
      refine Triple.getFact fun _ => ?_
      refine Triple.ofPure (splitPostO_none (ML := M) (al := al.request.2) (fun h => ?_) hM rfl ?_)
      · rw [(hal h).head] at hno; cases hno
      · rw [own_rooted hs, fact_of rfl, emp_sep]
        exact Ent.refl _
    | some r =>
      dsimp only
      simp only [sep_assoc]
      refine Triple.getFact fun hyes => ?_
      refine Triple.pre (P := rooted hroot M.height M.root ∗ sched al.request.2 ∗ rooted r 0 (emptySpine 0)) ?_ (by ent_ac)
      refine rooted_elim fun ta pi he hr => ?_
      subst hr
      dsimp only
      refine Triple.call (P₀ := sched al.request.2 ∗ rooted r 0 (emptySpine 0 : Tree K V)) pushLevels_ref fun x => ?_
      simp only [hex_sep, sep_hex]
      refine Triple.ofHex fun h' => ?_
      simp only [sep_assoc]
      refine Triple.getFact fun hf => ?_
      obtain ⟨hf1, hf2⟩ := hf
      rw [hf1]
      have hgood : mem → (BTree.Alloc.requests M.height al.request.2).1 = true ∧ (BTree.Alloc.requests M.height al.request.2).2.Good := fun h =>
        BTree.requests_good (hal h).tail M.height
      cases hb : (BTree.Alloc.requests M.height al.request.2).1 with
      | false =>
        simp only [Bool.false_eq_true, if_false]
        refine Triple.pre (P := (rep ⟨x.1, 0⟩ (⟨h', emptySpine h', false, 0⟩ : Map K V)) ∗ sched (BTree.Alloc.requests M.height al.request.2).2 ∗
          tree (none, pi) M.height ta) ?_
          (by rw [own_rooted rfl, fact_of rfl, emp_sep]; ent_ac)
        refine Triple.call (P₀ := rep ⟨x.1, 0⟩ (⟨h', emptySpine h', false, 0⟩ : Map K V)) (mapDrop_spec (by simp)) fun _ => ?_
        refine Triple.getFact fun _ => ?_
        refine Triple.ofPure (splitPostO_none (ML := M) (al := (BTree.Alloc.requests M.height al.request.2).2) (fun h => ?_) hM rfl ?_)
        · rw [(hgood h).1] at hb; cases hb
        · rw [own_rooted hs, fact_of rfl, emp_sep]
          refine Ent.sep (Ent.refl _) ?_
          dsimp only
          rw [← he]
          exact rooted_intro
      | true =>
        simp only [if_true]
        obtain rfl : h' = M.height := by have := hf2 hb; omega
        obtain ⟨s1, s2, s3⟩ := hM.shape
        refine Triple.pre (P := rooted x.1 M.height (emptySpine M.height : Tree K V) ∗ sched (BTree.Alloc.requests M.height al.request.2).2 ∗
          tree (none, pi) M.height ta) ?_ (by ent_ac)
        refine rooted_elim fun tr pr her hrr => ?_
        rw [hrr]
        dsimp only
        refine Triple.call (P₀ := tree (none, pi) M.height ta ∗ tree (none, pr) M.height tr)
          (splitLoopO_spec hE (by rw [he]; exact s3) (by rw [he]; exact s1) her hret) fun _ => ?_
        rw [hex_sep]
        refine Triple.ofHex fun lr1 => ?_
        obtain ⟨l1, r1⟩ := lr1
        simp only [sep_assoc]
        refine Triple.getFact fun hcut => ?_
        rw [he] at hcut
        obtain ⟨p1, p2, n1, n2, ht⟩ := hcut
        dsimp only at p1 p2 n1 n2 ht
        obtain ⟨lh, lt, hfr, ok1, t1, z1⟩ := BTree.fixRightBorder_spec p1 n1
        obtain ⟨rh, rt, hfl, ok2, t2⟩ := BTree.fixLeftBorder_spec p2 n2
        have htot : M.toList = toList lh lt ++ toList rh rt := by rw [t1, t2, ht]; rfl
        have htl : M.toList.length = (toList lh lt).length + (toList rh rt).length := by rw [htot]; simp
        refine holds_elim fun tl' hel hal' => ?_
        rw [← hal']
        rw [← hel] at hfr
        refine Triple.call (P₀ := tree (none, pi) M.height tl') (fixRightBorder_ref hfr) fun lr => ?_
        rw [sep_comm]
        simp only [sep_assoc]
        refine holds_elim fun tr' her' har => ?_
        rw [← har]
        rw [← her'] at hfl
        refine Triple.call (P₀ := tree (none, pr) M.height tr') (fixLeftBorder_ref hfl) fun rr => ?_
        refine Triple.pre (P := rooted lr lh lt ∗ rooted rr rh rt ∗ sched (BTree.Alloc.requests M.height al.request.2).2) ?_ (by ent_ac)
        refine rooted_elim fun tl2 pl2 hl2 hlr2 => ?_
        refine Triple.pre (P := rooted rr rh rt ∗ tree (none, pl2) lh tl2 ∗ sched (BTree.Alloc.requests M.height al.request.2).2) ?_ (by ent_ac)
        refine rooted_elim fun tr2 pr2 hr2 hrr2 => ?_
        rw [hlr2, hrr2]
        dsimp only
        by_cases hlt : lh < rh
        · rw [if_pos hlt]
          have hd := BTree.dfsLen_spec ok1.2.2
          rw [← hl2] at hd
          refine Triple.callEq (P₀ := tree (none, pl2) lh tl2) (dfsLen_ref hd) ?_
          rw [hl2]
          refine Triple.bindReq (decide_eq_true (by omega)) ?_
          refine Triple.ofPure (splitPostO_some (ML := ⟨lh, lt, false, (toList lh lt).length⟩) (MR := ⟨rh, rt, false, M.length - (toList lh lt).length⟩) (fun h => (hgood h).2)
            ⟨ok1, rfl, by simp, by simp⟩ ⟨ok2, ?_, by simp, by simp⟩ htot ?_)
          · show M.length - (toList lh lt).length = (toList rh rt).length + 0
            omega
          rw [own_rooted rfl, own_rooted rfl]
          dsimp only
          rw [fact_of rfl, fact_of rfl, emp_sep, emp_sep, ← hl2, ← hr2]
          refine Ent.trans ?_ (Ent.sep (Ent.refl _) (Ent.sep (rooted_intro (pi := pl2)) (rooted_intro (pi := pr2))))
          ent_ac
        · rw [if_neg hlt]
          have hd := BTree.dfsLen_spec ok2.2.2
          rw [← hr2] at hd
          refine Triple.callEq (P₀ := tree (none, pr2) rh tr2) (dfsLen_ref hd) ?_
          rw [hr2]
          refine Triple.bindReq (decide_eq_true (by omega)) ?_
          refine Triple.ofPure (splitPostO_some (ML := ⟨lh, lt, false, M.length - (toList rh rt).length⟩) (MR := ⟨rh, rt, false, (toList rh rt).length⟩) (fun h => (hgood h).2)
            ⟨ok1, ?_, by simp, by simp⟩ ⟨ok2, rfl, by simp, by simp⟩ htot ?_)
          · show M.length - (toList rh rt).length = (toList lh lt).length + 0
            omega
          rw [own_rooted rfl, own_rooted rfl]
          dsimp only
          rw [fact_of rfl, fact_of rfl, emp_sep, emp_sep, ← hl2, ← hr2]
          refine Ent.trans ?_ (Ent.sep (Ent.refl _) (Ent.sep (rooted_intro (pi := pl2)) (rooted_intro (pi := pr2))))
          ent_ac

end Verif.Heap
