import Verif.Heap.UnwindSplit
import Verif.Heap.Proofs.SplitOffMap
import Verif.Heap.Proofs.RangeMap
import Verif.Heap.Proofs.DropUb
import Verif.BTree.Proofs.Unwind
import Verif.Heap.Proofs.Program
/-
`split_off` in memory when a comparison panics.
-/
namespace Verif.Heap
open Verif
open Verif.BTree (B MIN_LEN CAPACITY Tree Handle setE Map emptyLeaf emptySpine inter Why)

variable {K V Q α β : Type} {E : String → Prop}

/-! ### search -/

theorem searchKeysU_spec [Ord Q] {bor : K → Q} {q : Q} {a : Addr} {lay : Layout} {l : Link} {as : List Addr} :
    ∀ {C A : List (K × V)} {fuel : Nat}, A.length + C.length ≤ CAPACITY →
    Triple E (pts a (nd lay l (A ++ C) as)) (searchKeysU bor q a A.length C.length fuel)
      (fun r => fact (r = BTree.searchFromP bor q A.length C fuel) ∗ pts a (nd lay l (A ++ C) as))
  | [], A, fuel, _ => by
    show Triple E _ (pure _) _
    exact Triple.ofPure (Ent.fact_right (by simp [BTree.searchFromP]) (Ent.refl _))
  | kv :: C, A, fuel, hc => by
    simp only [List.length_cons] at hc
    show Triple E _ (getNode a >>= _) _
    refine Triple.bindGet ?_
    refine Triple.bindLift (a := kv.1) ?_ ?_
    · show ((Slots.ofList (A ++ kv :: C)).map _).peek CAPACITY A.length = _
      exact Slots.peek_map (f := fun x : K × V => x.1) (Slots.peek_ofList (a := A) (b := C) (x := kv) rfl (by omega))
    cases fuel with
    | zero => exact Triple.ofPure (Ent.putFact rfl (Ent.refl _))
    | succ fuel =>
    simp only [BTree.searchFromP]
    cases compare q (bor kv.1) with
    | gt =>
      dsimp only
      have := searchKeysU_spec (bor := bor) (q := q) (a := a) (lay := lay) (l := l) (as := as) (C := C) (A := A ++ [kv]) (fuel := fuel)
        (by simp only [List.length_append, List.length_cons, List.length_nil]; omega)
      simpa only [List.length_append, List.length_cons, List.length_nil, Nat.zero_add, List.append_assoc, List.singleton_append] using this
    | eq => exact Triple.ofPure (Ent.putFact rfl (Ent.refl _))
    | lt => exact Triple.ofPure (Ent.putFact rfl (Ent.refl _))

theorem searchLinearU_tree [Ord Q] {bor : K → Q} {q : Q} {l : Link} {h : Nat} {t : ATree K V} {fuel : Nat} :
    Triple E (tree l h t) (searchLinearU bor q t.addr fuel) (fun r => fact (r = BTree.searchFromP bor q 0 t.kvs fuel) ∗ tree l h t) := by
  refine Triple.pre ?_ tree_cap
  refine Triple.getFact fun hc => ?_
  have h1 : Triple E (pts t.addr (ATree.node l h t)) (searchLinearU bor q t.addr fuel)
      (fun r => fact (r = BTree.searchFromP bor q 0 t.kvs fuel) ∗ pts t.addr (ATree.node l h t)) := by
    unfold searchLinearU
    refine Triple.bindLenEq t.kvs.length rfl ?_
    exact searchKeysU_spec (A := []) (by simpa using hc)
  unfold tree
  refine Triple.callLast (P₀ := pts t.addr (ATree.node l h t)) h1 fun r => ?_
  exact Ent.of_eq (sep_assoc ..)

/-! ### the splitting loop -/

/-- What the loop of level 1 returns, in memory. -/
def splitEnd (o : BTree.Outcome (Tree K V × Tree K V) ((Tree K V × Tree K V) × Nat)) : Option Nat × (Tree K V × Tree K V) :=
  match o with
  | .done (x, f) => (some f, x)
  | .unwound x _ => (none, x)

theorem splitLoopU_ref [Ord Q] {bor : K → Q} {q : Q} : ∀ {h : Nat} {ll lr : Link} {tl tr : ATree K V} {fuel : Nat}
    {x : BTree.Outcome (Tree K V × Tree K V) ((Tree K V × Tree K V) × Nat)}, BTree.splitLoopP bor q h tl.erase tr.erase fuel = .ok x →
    Triple E (tree ll h tl ∗ tree lr h tr) (splitLoopU bor q h tl.addr tr.addr fuel)
      (fun o => fact (o = (splitEnd x).1) ∗ holds ll h tl.addr (splitEnd x).2.1 ∗ holds lr h tr.addr (splitEnd x).2.2)
  | 0, ll, lr, tl, tr, fuel, x, hx => by
    unfold BTree.splitLoopP at hx
    simp only [ATree.erase_kvs] at hx
    unfold splitLoopU
    refine Triple.callEq (P₀ := tree ll 0 tl) searchLinearU_tree ?_
    cases hs : BTree.searchFromP bor q 0 tl.kvs fuel with
    | none =>
      simp only [hs, Exec.ok.injEq] at hx ⊢
      subst hx
      exact Triple.ofPure (Ent.putFact rfl (Ent.sep holds_intro holds_intro))
    | some y =>
      obtain ⟨⟨i, b⟩, f⟩ := y
      simp only [hs] at hx ⊢
      obtain ⟨z, hmv, hx⟩ := Exec.bind_eq_ok.1 hx
      simp only [Exec.ok.injEq] at hx
      subst hx
      obtain ⟨tl', tr', rfl, e1, e2, hle, _, hm⟩ := moveSuffix_ref (E := E) (ll := ll) (lr := lr) (h := 0) hmv
      refine Triple.callEq (P₀ := tree ll 0 tl) (newEdge_tree hle) ?_
      refine Triple.seq hm fun _ => ?_
      refine Triple.ofPure (Ent.putFact rfl ?_)
      rw [← e1, ← e2]
      exact Ent.sep holds_intro holds_intro
  | h + 1, ll, lr, tl, tr, fuel, x, hx => by
    unfold BTree.splitLoopP at hx
    simp only [ATree.erase_kvs] at hx
    unfold splitLoopU
    refine Triple.callEq (P₀ := tree ll (h + 1) tl) searchLinearU_tree ?_
    cases hs : BTree.searchFromP bor q 0 tl.kvs fuel with
    | none =>
      simp only [hs, Exec.ok.injEq] at hx ⊢
      subst hx
      exact Triple.ofPure (Ent.putFact rfl (Ent.sep holds_intro holds_intro))
    | some y =>
      obtain ⟨⟨i, b⟩, f⟩ := y
      simp only [hs] at hx ⊢
      obtain ⟨⟨y1, y2⟩, hmv, hx⟩ := Exec.bind_eq_ok.1 hx
      obtain ⟨tl', tr', e, e1, e2, hle, hlen, hm⟩ := moveSuffix_ref (E := E) (ll := ll) (lr := lr) (h := h + 1) hmv
      simp only [Prod.mk.injEq] at e
      obtain ⟨rfl, rfl⟩ := e
      obtain ⟨cl, hcl, hx⟩ := Exec.bind_eq_ok.1 hx
      obtain ⟨cr, hcr, hx⟩ := Exec.bind_eq_ok.1 hx
      obtain ⟨o, hrec, hx⟩ := Exec.bind_eq_ok.1 hx
      have hx' : ∃ le re, setE tl'.erase.edges i (splitEnd o).2.1 = .ok le ∧ setE tr'.erase.edges 0 (splitEnd o).2.2 = .ok re ∧
          splitEnd x = ((splitEnd o).1, (⟨tl'.erase.kvs, le⟩, ⟨tr'.erase.kvs, re⟩)) := by
        match o, hx with
        | .done ((cl', cr'), f'), hx =>
          obtain ⟨le, hle', hx⟩ := Exec.bind_eq_ok.1 hx
          obtain ⟨re, hre', hx⟩ := Exec.bind_eq_ok.1 hx
          simp only [Exec.ok.injEq] at hx
          subst hx
          exact ⟨le, re, hle', hre', rfl⟩
        | .unwound (cl', cr') w, hx =>
          obtain ⟨le, hle', hx⟩ := Exec.bind_eq_ok.1 hx
          obtain ⟨re, hre', hx⟩ := Exec.bind_eq_ok.1 hx
          simp only [Exec.ok.injEq] at hx
          subst hx
          exact ⟨le, re, hle', hre', rfl⟩
      obtain ⟨le, re, hle', hre', hx⟩ := hx'
      rw [hx]
      dsimp only
      obtain ⟨clA, F, h1, rfl, h3, h4⟩ := open_child (l := ll) (h := h) hcl
      obtain ⟨crA, G, g1, rfl, g3, g4⟩ := open_child (l := lr) (h := h) hcr
      refine Triple.callEq (P₀ := tree ll (h + 1) tl) (newEdge_tree hle) ?_
      refine Triple.seq hm fun _ => ?_
      rw [← e1, ← e2]
      refine Triple.callEq (P₀ := tree ll (h + 1) tl') (descend_tree h1) ?_
      refine Triple.callEq (P₀ := tree lr (h + 1) tr') (newEdge_tree (Nat.zero_le _)) ?_
      refine Triple.callEq (P₀ := tree lr (h + 1) tr') (descend_tree g1) ?_
      rw [h3, g3]
      simp only [sep_assoc]
      refine Triple.callLast (P₀ := tree (some tl'.addr, some i) h clA ∗ tree (some tr'.addr, some 0) h crA)
        (splitLoopU_ref hrec) fun o => ?_
      simp only [sep_assoc]
      refine Ent.getFact fun ho => Ent.putFact ho ?_
      refine Ent.trans ?_ (Ent.sep (h4 _ le hle') (g4 _ re hre'))
      ent_ac

/-! ### dropping a map that claims to be empty -/

/-- The path from the first leaf up is freed, whatever else the tree has. -/
theorem freeUp_any : ∀ {h : Nat} {l : Link} {p : PT K V}, p.Good h → (l.1 = none ∨ ∃ pa pi, l = (some pa, some pi)) →
    Triple E (p.mem l h) (loopN freeUpStep (h + 1) (p.first h).ref : HM K V _) (fun o => fact (o = match l.1 with
      | none => .inr ()
      | some pa => .inl ⟨h + 1, pa⟩) ∗ anything)
  | 0, l, p, hg, hl => by
    obtain ⟨a, pre, kvs, ks, post⟩ := p
    rw [PT.mem_leaf]
    refine Triple.getFact fun hcap => ?_
    rw [loopN_succ]
    unfold freeUpStep
    refine Triple.assoc ?_
    rw [show (PT.first 0 (⟨a, pre, kvs, ks, post⟩ : PT K V)).ref = ⟨0, a⟩ from rfl]
    rcases hl with hl | ⟨pa, pi, hl⟩
    · obtain ⟨l1, l2⟩ := l
      dsimp only at hl
      subst hl
      refine Triple.bindDeallocNone (a := a) rfl rfl ?_
      exact Triple.ofPure (Ent.putFact rfl fun _ _ => trivial)
    · subst hl
      refine Triple.bindDealloc (a := a) rfl rfl rfl ?_
      exact Triple.ofPure (Ent.putFact rfl fun _ _ => trivial)
  | h + 1, l, p, hg, hl => by
    obtain ⟨c, cs, hk, hlen⟩ := hg.kids_cons
    obtain ⟨a, pre, kvs, ks, post⟩ := p
    dsimp only at hk hlen
    subst hk
    have hgc := hg.2.2.2 c (by simp)
    rw [PT.mem_cons]
    refine Triple.getFact fun hcap => ?_
    rw [loopN_snoc]
    rw [show PT.first (h + 1) (⟨a, pre, kvs, c :: cs, post⟩ : PT K V) = c.first h from rfl]
    refine Triple.call (P₀ := c.mem (some a, some pre.length) h) (freeUp_any hgc (.inr ⟨_, _, rfl⟩)) fun o => ?_
    rw [sep_assoc]
    refine Triple.getFact fun ho => ?_
    subst ho
    simp only [goOn]
    unfold freeUpStep
    rcases hl with hl | ⟨pa, pi, hl⟩
    · obtain ⟨l1, l2⟩ := l
      dsimp only at hl
      subst hl
      refine Triple.pre (P := pts a _ ∗ anything ∗ PT.sub h a (pre.length + 1) cs) ?_ (by ent_ac)
      refine Triple.bindDeallocNone (a := a) rfl rfl ?_
      exact Triple.ofPure (Ent.putFact rfl fun _ _ => trivial)
    · subst hl
      refine Triple.pre (P := pts a _ ∗ anything ∗ PT.sub h a (pre.length + 1) cs) ?_ (by ent_ac)
      refine Triple.bindDealloc (a := a) rfl rfl rfl ?_
      exact Triple.ofPure (Ent.putFact rfl fun _ _ => trivial)

/-- Dropping a map with a root of its own and `length` 0: no entry is dropped; of the nodes, those on the path to the first leaf are freed. -/
theorem mapDrop_zero {hm : HMap} {M : Map K V} (hs : M.shared = false) (hl : M.length = 0) :
    Triple E (rep hm M) (hm.drop : HM K V _) (fun o => fact (o = []) ∗ anything) := by
  unfold HMap.drop
  refine Triple.seq (intoIter_any hs) fun it => ?_
  refine Triple.ofHex fun x => ?_
  refine Triple.ofFact fun hx => ?_
  obtain ⟨h1, h2, h3, h4, h5⟩ := hx
  rw [hl] at h4
  unfold HIntoIter.drop
  rw [h4]
  have hd : (it.drain hm.root.height (0 + 1) : HM K V _) = pure ([], it) := by
    unfold HIntoIter.drain HIntoIter.next
    rw [if_pos h4]
    rfl
  rw [hd]
  show Triple E _ (if it.front.node = SHARED then pure [] else _) _
  refine Triple.pre ?_ (mem_first_pos h1)
  refine Triple.ofFact fun hne => ?_
  rw [h3, if_neg hne]
  refine Triple.callEq (Q₀ := anything) (freeUp_any (E := E) (l := (none, x.2)) h1 (.inl rfl)) ?_
  exact Triple.ofPure (Ent.putFact rfl fun _ _ => trivial)

/-! ### split_off -/

/-- What `split_off` leaves in memory.  If it unwound: `self`, and nothing else unless entries had been moved. -/
def SplitPostU (hm : HMap) (M : Map K V) (al : Alloc) (x : BTree.Outcome (Map K V) ((Res (Map K V) × Map K V × Alloc) × Nat)) (o : SplitEnd K V × HMap) : HProp K V :=
  match x with
  | .done ((res, M', al'), _) => hex fun r => fact (o.1 = .returned r) ∗ sched al' ∗ SplitPost res M' (r, o.2)
  | .unwound M' _ => fact (o = (.unwound [], hm)) ∗ sched (BTree.Alloc.requests (M.height + 1) al).2 ∗ rep hm M' ∗ leak (M'.toList.length == M.toList.length)

theorem splitOffU_ref [Ord Q] {bor : K → Q} {q : Q} {hm : HMap} {M : Map K V} {al : Alloc} {fuel : Nat}
    {x : BTree.Outcome (Map K V) ((Res (Map K V) × Map K V × Alloc) × Nat)} (hwf : M.WF) (hx : M.splitOffP bor q al fuel = .ok x) :
    Triple E (rep hm M ∗ sched al) (hm.splitOffU bor q fuel) (fun o => SplitPostU hm M al x o) := by
  have hsh : M.shared = true → M.length = 0 := fun h => by
    obtain ⟨h1, h2⟩ := hwf.shared h
    have := hwf.len
    simpa [Map.toList, h1, h2, emptyLeaf] using this
  by_cases h0 : M.length = 0
  · have hemp : M.isEmpty = true := by simp [BTree.Map.isEmpty, BTree.Map.len, h0]
    simp only [BTree.Map.splitOffP, hemp, if_true, Exec.ok.injEq] at hx
    subst hx
    have hlen : Ent (rep hm M ∗ sched al) (fact (hm.length = 0) ∗ rep hm M ∗ sched al) := by
      cases hs : M.shared with
      | true =>
        rw [rep_shared hs]
        refine Ent.getFact fun hf => ?_
        exact Ent.fact_right (by rw [hf.1, h0]) (Ent.fact_right hf (Ent.refl _))
      | false =>
        rw [own_rooted hs, sep_assoc]
        refine Ent.getFact fun hf => ?_
        exact Ent.fact_right (by rw [hf, h0]) (Ent.fact_right hf (Ent.refl _))
    refine Triple.pre ?_ hlen
    refine Triple.getFact fun hl => ?_
    unfold HMap.splitOffU
    rw [if_pos hl]
    refine Triple.ofPure ?_
    simp only [SplitPostU, SplitPost]
    refine Ent.hex_right _ (Ent.putFact rfl ?_)
    simp only [hex_sep, sep_hex]
    refine Ent.hex_right HMap.new ?_
    rw [rep_new, sep_emp]
    refine Ent.putFact rfl ?_
    ent_ac
  · have hs : M.shared = false := by
      cases h : M.shared with
      | false => rfl
      | true => exact absurd (hsh h) h0
    have hemp : M.isEmpty = false := by simp [BTree.Map.isEmpty, BTree.Map.len, h0]
    simp only [BTree.Map.splitOffP, hemp, Bool.false_eq_true, if_false, BTree.Alloc.requests] at hx
    rw [own_rooted hs]
    refine Triple.pre (P := fact (hm.length = M.length) ∗ rooted hm.root M.height M.root ∗ sched al) ?_ (Ent.of_eq (sep_assoc ..))
    refine Triple.getFact fun hlen => ?_
    obtain ⟨hroot, hl⟩ := hm
    dsimp only at hlen ⊢
    subst hlen
    unfold HMap.splitOffU
    dsimp only
    rw [if_neg h0]
    refine Triple.call (P₀ := sched al) newLeaf_spec fun o => ?_
    cases o with
    | none =>
      dsimp only
      simp only [sep_assoc]
      refine Triple.getFact fun hno => ?_
      simp only [hno, Bool.false_eq_true, if_false, Exec.ok.injEq] at hx
      subst hx
      refine Triple.pre (P := (rep HMap.new (Map.new : Map K V)) ∗ sched al.request.2 ∗ rooted hroot M.height M.root) ?_
        (by rw [rep_new, emp_sep]; simp only [sep_emp]; exact Ent.refl _)
      refine Triple.call (P₀ := rep HMap.new (Map.new : Map K V)) (mapDrop_spec rfl) fun _ => ?_
      refine Triple.getFact fun _ => ?_
      refine Triple.ofPure ?_
      unfold SplitPostU
      dsimp only
      refine Ent.hex_right none (Ent.putFact rfl ?_)
      rw [splitPost_error, own_rooted hs]
      refine Ent.putFact rfl ?_
      refine Ent.putFact rfl ?_
      ent_ac
    | some r =>
      dsimp only
      simp only [sep_assoc]
      refine Triple.getFact fun hyes => ?_
      simp only [hyes, if_true] at hx
      refine Triple.pre (P := rooted hroot M.height M.root ∗ sched al.request.2 ∗ rooted r 0 (emptySpine 0)) ?_ (by ent_ac)
      refine rooted_elim fun ta pi he hr => ?_
      subst hr
      dsimp only
      refine Triple.call (P₀ := sched al.request.2 ∗ rooted r 0 (emptySpine 0 : Tree K V)) pushLevels_ref fun y => ?_
      simp only [hex_sep, sep_hex]
      refine Triple.ofHex fun h' => ?_
      simp only [sep_assoc]
      refine Triple.getFact fun hf => ?_
      obtain ⟨hf1, hf2⟩ := hf
      rw [hf1]
      cases hb : (BTree.Alloc.requests M.height al.request.2).1 with
      | false =>
        simp only [hb, Bool.false_eq_true, if_false, Exec.ok.injEq] at hx ⊢
        subst hx
        refine Triple.pre (P := (rep ⟨y.1, 0⟩ (⟨h', emptySpine h', false, 0⟩ : Map K V)) ∗ sched (BTree.Alloc.requests M.height al.request.2).2 ∗
          tree (none, pi) M.height ta) ?_
          (by rw [own_rooted rfl, fact_of rfl, emp_sep]; ent_ac)
        refine Triple.call (P₀ := rep ⟨y.1, 0⟩ (⟨h', emptySpine h', false, 0⟩ : Map K V)) (mapDrop_spec (by simp)) fun _ => ?_
        refine Triple.getFact fun _ => ?_
        refine Triple.ofPure ?_
        unfold SplitPostU
        dsimp only
        refine Ent.hex_right none (Ent.putFact rfl ?_)
        rw [splitPost_error, own_rooted hs]
        refine Ent.putFact rfl ?_
        refine Ent.putFact rfl ?_
        refine Ent.sep (Ent.refl _) ?_
        dsimp only
        rw [← he]
        exact rooted_intro
      | true =>
        simp only [hb, if_true] at hx ⊢
        obtain rfl : h' = M.height := by have := hf2 hb; omega
        obtain ⟨z, hsplit, hx⟩ := Exec.bind_eq_ok.1 hx
        refine Triple.pre (P := rooted y.1 M.height (emptySpine M.height : Tree K V) ∗ sched (BTree.Alloc.requests M.height al.request.2).2 ∗
          tree (none, pi) M.height ta) ?_ (by ent_ac)
        refine rooted_elim fun tr pr her hrr => ?_
        rw [hrr]
        dsimp only
        have hcut2 := BTree.splitLoopP_spec bor q hwf.shape.2.2 hwf.shape.1 fuel
        rw [hsplit] at hcut2
        rw [← he, ← her] at hsplit
        refine Triple.call (P₀ := tree (none, pi) M.height ta ∗ tree (none, pr) M.height tr) (splitLoopU_ref hsplit) fun o => ?_
        rw [sep_assoc]
        refine Triple.getFact fun ho => ?_
        subst ho
        simp only [sep_assoc]
        match z, hx, hsplit, hcut2 with
        | .unwound (l1, r1) w, hx, hsplit, hcut2 =>
          simp only [Exec.ok.injEq] at hx
          subst hx
          simp only [splitEnd]
          have happ : M.toList = BTree.toList M.height l1 ++ BTree.toList M.height r1 := by
            rcases hcut2 with ⟨l, r, g1, _, _, g4, _⟩ | ⟨lr, f, g1, _⟩
            · simp only [Exec.ok.injEq, BTree.Outcome.unwound.injEq, Prod.mk.injEq] at g1
              obtain ⟨⟨rfl, rfl⟩, rfl⟩ := g1
              exact g4
            · simp at g1
          have hleft : Ent (holds (none, pi) M.height ta.addr l1) (rep ⟨⟨M.height, ta.addr⟩, M.length⟩ { M with root := l1 }) := by
            rw [own_rooted (M := { M with root := l1 }) hs]
            refine Ent.fact_right rfl ?_
            rintro w ⟨t, hw⟩
            obtain ⟨⟨e1, e2⟩, hw⟩ := fact_sep.1 hw
            dsimp only
            rw [← e1, ← e2]
            exact rooted_intro w hw
          have hright : Ent (holds (none, pr) M.height tr.addr r1) (rep ⟨⟨M.height, tr.addr⟩, 0⟩ (⟨M.height, r1, false, 0⟩ : Map K V)) := by
            rw [own_rooted (M := ⟨M.height, r1, false, 0⟩) rfl]
            refine Ent.fact_right rfl ?_
            rintro w ⟨t, hw⟩
            obtain ⟨⟨e1, e2⟩, hw⟩ := fact_sep.1 hw
            dsimp only
            rw [← e1, ← e2]
            exact rooted_intro w hw
          refine Triple.pre (P := rep ⟨⟨M.height, tr.addr⟩, 0⟩ (⟨M.height, r1, false, 0⟩ : Map K V) ∗ rep ⟨⟨M.height, ta.addr⟩, M.length⟩ { M with root := l1 } ∗
            sched (BTree.Alloc.requests M.height al.request.2).2) ?_
            (Ent.trans (Ent.sep hleft (Ent.sep hright (Ent.refl _))) (by ent_ac))
          have hdrop : Triple E (rep ⟨⟨M.height, tr.addr⟩, 0⟩ (⟨M.height, r1, false, 0⟩ : Map K V)) (HMap.drop ⟨⟨M.height, tr.addr⟩, 0⟩ : HM K V _)
              (fun o => fact (o = []) ∗ leak ((BTree.toList M.height l1).length == M.toList.length)) := by
            cases hr1 : BTree.toList M.height r1 with
            | nil =>
              have : ((BTree.toList M.height l1).length == M.toList.length) = true := by rw [happ, hr1]; simp
              rw [this, show leak (K := K) (V := V) true = emp from rfl]
              simp only [sep_emp]
              exact (mapDrop_spec (M := ⟨M.height, r1, false, 0⟩) (by simp [hr1])).post fun o => by rw [hr1]; exact Ent.refl _
            | cons kv rest =>
              have : ((BTree.toList M.height l1).length == M.toList.length) = false := by rw [happ, hr1]; simp
              rw [this]
              exact mapDrop_zero rfl rfl
          refine Triple.call hdrop fun d => ?_
          simp only [sep_assoc]
          refine Triple.getFact fun hd => ?_
          subst hd
          refine Triple.ofPure ?_
          unfold SplitPostU
          dsimp only
          refine Ent.putFact rfl ?_
          simp only [BTree.Alloc.requests, hyes, if_true]
          show Ent _ (_ ∗ _ ∗ leak ((BTree.toList M.height l1).length == _))
          ent_ac
        | .done ((l1, r1), f), hx, hsplit, hcut2 =>
        simp only [splitEnd]
        obtain ⟨⟨lh, lt⟩, hfr, hx⟩ := Exec.bind_eq_ok.1 hx
        obtain ⟨⟨rh, rt⟩, hfl, hx⟩ := Exec.bind_eq_ok.1 hx
        dsimp only at hx
        refine holds_elim fun tl' hel hal => ?_
        rw [← hal]
        rw [← hel] at hfr
        refine Triple.call (P₀ := tree (none, pi) M.height tl') (fixRightBorder_ref hfr) fun lr => ?_
        rw [sep_comm]
        simp only [sep_assoc]
        refine holds_elim fun tr' her' har => ?_
        rw [← har]
        rw [← her'] at hfl
        refine Triple.call (P₀ := tree (none, pr) M.height tr') (fixLeftBorder_ref hfl) fun rr => ?_
        refine Triple.pre (P := rooted lr lh lt ∗ rooted rr rh rt ∗ sched (BTree.Alloc.requests M.height al.request.2).2) ?_ (by ent_ac)
        refine rooted_elim fun tl2 pl2 hl2 hlr2 => ?_
        refine Triple.pre (P := rooted rr rh rt ∗ tree (none, pl2) lh tl2 ∗ sched (BTree.Alloc.requests M.height al.request.2).2) ?_ (by ent_ac)
        refine rooted_elim fun tr2 pr2 hr2 hrr2 => ?_
        rw [hlr2, hrr2]
        dsimp only
        split at hx
        · next hlt =>
          rw [if_pos hlt]
          obtain ⟨ll, hd, hx⟩ := Exec.bind_eq_ok.1 hx
          obtain ⟨_, hq, hx⟩ := Exec.bind_eq_ok.1 hx
          have hq' := require_ok hq
          simp only [Exec.ok.injEq] at hx
          subst hx
          rw [← hl2] at hd
          refine Triple.callEq (P₀ := tree (none, pl2) lh tl2) (dfsLen_ref hd) ?_
          refine Triple.bindReq hq' ?_
          refine Triple.ofPure ?_
          simp only [SplitPostU, SplitPost, hex_sep, sep_hex]
          refine Ent.hex_right (some ⟨⟨rh, tr2.addr⟩, M.length - ll⟩) ?_
          refine Ent.hex_right ⟨⟨rh, tr2.addr⟩, M.length - ll⟩ ?_
          rw [own_rooted rfl, own_rooted (M := ⟨lh, lt, M.shared, _⟩) hs]
          dsimp only
          simp only [sep_assoc]
          refine Ent.putFact trivial (Ent.putFact trivial (Ent.putFact trivial (Ent.putFact trivial ?_)))
          rw [← hl2, ← hr2]
          refine Ent.trans ?_ (Ent.sep (Ent.refl _) (Ent.sep (rooted_intro (pi := pr2)) (rooted_intro (pi := pl2))))
          ent_ac
        · next hlt =>
          rw [if_neg hlt]
          obtain ⟨rl, hd, hx⟩ := Exec.bind_eq_ok.1 hx
          obtain ⟨_, hq, hx⟩ := Exec.bind_eq_ok.1 hx
          have hq' := require_ok hq
          simp only [Exec.ok.injEq] at hx
          subst hx
          rw [← hr2] at hd
          refine Triple.callEq (P₀ := tree (none, pr2) rh tr2) (dfsLen_ref hd) ?_
          refine Triple.bindReq hq' ?_
          refine Triple.ofPure ?_
          simp only [SplitPostU, SplitPost, hex_sep, sep_hex]
          refine Ent.hex_right (some ⟨⟨rh, tr2.addr⟩, rl⟩) ?_
          refine Ent.hex_right ⟨⟨rh, tr2.addr⟩, rl⟩ ?_
          rw [own_rooted rfl, own_rooted (M := ⟨lh, lt, M.shared, _⟩) hs]
          dsimp only
          simp only [sep_assoc]
          refine Ent.putFact trivial (Ent.putFact trivial (Ent.putFact trivial (Ent.putFact trivial ?_)))
          rw [← hl2, ← hr2]
          refine Ent.trans ?_ (Ent.sep (Ent.refl _) (Ent.sep (rooted_intro (pi := pr2)) (rooted_intro (pi := pl2))))
          ent_ac

/-! ### undisturbed, it is the call of Verif/Heap/Bulk.lean -/

theorem run_bind {m : HM K V α} {f : α → HM K V β} {s : Heap K V} {r : β × Heap K V} :
    (m >>= f) s = .ok r ↔ ∃ a s1, m s = .ok (a, s1) ∧ f a s1 = .ok r := by
  show HM.bind m f s = .ok r ↔ _
  unfold HM.bind
  cases h : m s with
  | ok x =>
    obtain ⟨a, s1⟩ := x
    constructor
    · intro h'; exact ⟨a, s1, rfl, h'⟩
    · rintro ⟨a', s', e, h'⟩
      simp only [Exec.ok.injEq, Prod.mk.injEq] at e
      obtain ⟨rfl, rfl⟩ := e
      exact h'
  | ub => simp
  | panic msg => simp

theorem searchKeysU_run [Ord Q] {bor : K → Q} {q : Q} {a : Addr} : ∀ {n i fuel : Nat} {s s' : Heap K V} {x : Nat × Bool} {f : Nat},
    searchKeysU bor q a i n fuel s = .ok (some (x, f), s') → searchKeys bor q a i n s = .ok (x, s')
  | 0, i, fuel, s, s', x, f, h => by
    have h' : Exec.ok (some ((i, false), fuel), s) = Exec.ok (some (x, f), s') := h
    simp only [Exec.ok.injEq, Prod.mk.injEq, Option.some.injEq] at h'
    obtain ⟨⟨rfl, rfl⟩, rfl⟩ := h'
    rfl
  | n + 1, i, fuel, s, s', x, f, h => by
    unfold searchKeysU at h
    unfold searchKeys
    obtain ⟨nd, s1, h1, h⟩ := run_bind.1 h
    obtain ⟨k, s2, h2, h⟩ := run_bind.1 h
    refine run_bind.2 ⟨nd, s1, h1, run_bind.2 ⟨k, s2, h2, ?_⟩⟩
    cases fuel with
    | zero =>
      have h' : Exec.ok (none, s2) = Exec.ok (some (x, f), s') := h
      simp at h'
    | succ fuel =>
      dsimp only at h ⊢
      cases hc : compare q (bor k) with
      | gt =>
        simp only [hc] at h ⊢
        exact searchKeysU_run h
      | eq =>
        simp only [hc] at h ⊢
        have h' : Exec.ok (some ((i, true), fuel), s2) = Exec.ok (some (x, f), s') := h
        simp only [Exec.ok.injEq, Prod.mk.injEq, Option.some.injEq] at h'
        obtain ⟨⟨rfl, rfl⟩, rfl⟩ := h'
        rfl
      | lt =>
        simp only [hc] at h ⊢
        have h' : Exec.ok (some ((i, false), fuel), s2) = Exec.ok (some (x, f), s') := h
        simp only [Exec.ok.injEq, Prod.mk.injEq, Option.some.injEq] at h'
        obtain ⟨⟨rfl, rfl⟩, rfl⟩ := h'
        rfl

theorem searchLinearU_run [Ord Q] {bor : K → Q} {q : Q} {a : Addr} {fuel : Nat} {s s' : Heap K V} {x : Nat × Bool} {f : Nat}
    (h : searchLinearU bor q a fuel s = .ok (some (x, f), s')) : searchLinear bor q a s = .ok (x, s') := by
  obtain ⟨n, s1, h1, h⟩ := run_bind.1 h
  exact run_bind.2 ⟨n, s1, h1, searchKeysU_run h⟩

theorem splitLoopU_run [Ord Q] {bor : K → Q} {q : Q} : ∀ {h : Nat} {l r : Addr} {fuel f : Nat} {s s' : Heap K V},
    splitLoopU bor q h l r fuel s = .ok (some f, s') → splitLoop bor q h l r s = .ok ((), s')
  | 0, l, r, fuel, f, s, s', hx => by
    unfold splitLoopU at hx
    unfold splitLoop
    obtain ⟨x, s1, h1, hx⟩ := run_bind.1 hx
    match x, h1, hx with
    | none, _, hx =>
      have h' : Exec.ok (none, s1) = Exec.ok (some f, s') := hx
      simp at h'
    | some (x, f'), h1, hx =>
      refine run_bind.2 ⟨x, s1, searchLinearU_run h1, ?_⟩
      obtain ⟨e, s2, h2, hx⟩ := run_bind.1 hx
      obtain ⟨u, s3, h3, hx⟩ := run_bind.1 hx
      have h' : Exec.ok (some f', s3) = Exec.ok (some f, s') := hx
      simp only [Exec.ok.injEq, Prod.mk.injEq] at h'
      obtain ⟨_, rfl⟩ := h'
      exact run_bind.2 ⟨e, s2, h2, h3⟩
  | h + 1, l, r, fuel, f, s, s', hx => by
    unfold splitLoopU at hx
    unfold splitLoop
    obtain ⟨x, s1, h1, hx⟩ := run_bind.1 hx
    match x, h1, hx with
    | none, _, hx =>
      have h' : Exec.ok (none, s1) = Exec.ok (some f, s') := hx
      simp at h'
    | some (x, f'), h1, hx =>
      refine run_bind.2 ⟨x, s1, searchLinearU_run h1, ?_⟩
      obtain ⟨e, s2, h2, hx⟩ := run_bind.1 hx
      obtain ⟨u, s3, h3, hx⟩ := run_bind.1 hx
      obtain ⟨cl, s4, h4, hx⟩ := run_bind.1 hx
      obtain ⟨g, s5, h5, hx⟩ := run_bind.1 hx
      obtain ⟨cr, s6, h6, hx⟩ := run_bind.1 hx
      exact run_bind.2 ⟨e, s2, h2, run_bind.2 ⟨u, s3, h3, run_bind.2 ⟨cl, s4, h4, run_bind.2 ⟨g, s5, h5, run_bind.2 ⟨cr, s6, h6, splitLoopU_run hx⟩⟩⟩⟩⟩

theorem run_pure {a b : α} {s s' : Heap K V} : (pure a : HM K V α) s = .ok (b, s') ↔ a = b ∧ s = s' := by
  show Exec.ok (a, s) = Exec.ok (b, s') ↔ _
  simp

/-- A call of `split_off` that returns did what the undisturbed call does. -/
theorem splitOffU_run [Ord Q] {bor : K → Q} {q : Q} {m m' : HMap} {fuel : Nat} {r : Option HMap} {s s' : Heap K V}
    (hx : m.splitOffU bor q fuel s = .ok ((.returned r, m'), s')) : m.splitOff bor q s = .ok ((r, m'), s') := by
  unfold HMap.splitOffU at hx
  unfold HMap.splitOff
  split at hx
  · next h0 =>
    rw [if_pos h0]
    obtain ⟨e, rfl⟩ := run_pure.1 hx
    simp only [Prod.mk.injEq, SplitEnd.returned.injEq] at e
    obtain ⟨rfl, rfl⟩ := e
    rfl
  · next h0 =>
    rw [if_neg h0]
    obtain ⟨o, s1, h1, hx⟩ := run_bind.1 hx
    refine run_bind.2 ⟨o, s1, h1, ?_⟩
    cases o with
    | none =>
      obtain ⟨d, s2, h2, hx⟩ := run_bind.1 hx
      obtain ⟨e, rfl⟩ := run_pure.1 hx
      simp only [Prod.mk.injEq, SplitEnd.returned.injEq] at e
      obtain ⟨rfl, rfl⟩ := e
      exact run_bind.2 ⟨d, s2, h2, rfl⟩
    | some r0 =>
      obtain ⟨x, s2, h2, hx⟩ := run_bind.1 hx
      refine run_bind.2 ⟨x, s2, h2, ?_⟩
      split at hx
      · next hb =>
        rw [if_pos hb]
        obtain ⟨f, s3, h3, hx⟩ := run_bind.1 hx
        cases f with
        | none =>
          obtain ⟨d, s4, h4, hx⟩ := run_bind.1 hx
          obtain ⟨e, _⟩ := run_pure.1 hx
          simp at e
        | some f =>
          refine run_bind.2 ⟨(), s3, splitLoopU_run h3, ?_⟩
          obtain ⟨l, s4, h4, hx⟩ := run_bind.1 hx
          obtain ⟨r1, s5, h5, hx⟩ := run_bind.1 hx
          refine run_bind.2 ⟨l, s4, h4, run_bind.2 ⟨r1, s5, h5, ?_⟩⟩
          split at hx
          · next hlt =>
            rw [if_pos hlt]
            obtain ⟨n, s6, h6, hx⟩ := run_bind.1 hx
            obtain ⟨u, s7, h7, hx⟩ := run_bind.1 hx
            obtain ⟨e, rfl⟩ := run_pure.1 hx
            simp only [Prod.mk.injEq, SplitEnd.returned.injEq] at e
            obtain ⟨rfl, rfl⟩ := e
            exact run_bind.2 ⟨n, s6, h6, run_bind.2 ⟨u, s7, h7, rfl⟩⟩
          · next hlt =>
            rw [if_neg hlt]
            obtain ⟨n, s6, h6, hx⟩ := run_bind.1 hx
            obtain ⟨u, s7, h7, hx⟩ := run_bind.1 hx
            obtain ⟨e, rfl⟩ := run_pure.1 hx
            simp only [Prod.mk.injEq, SplitEnd.returned.injEq] at e
            obtain ⟨rfl, rfl⟩ := e
            exact run_bind.2 ⟨n, s6, h6, run_bind.2 ⟨u, s7, h7, rfl⟩⟩
      · next hb =>
        rw [if_neg hb]
        obtain ⟨d, s3, h3, hx⟩ := run_bind.1 hx
        obtain ⟨e, rfl⟩ := run_pure.1 hx
        simp only [Prod.mk.injEq, SplitEnd.returned.injEq] at e
        obtain ⟨rfl, rfl⟩ := e
        exact run_bind.2 ⟨d, s3, h3, rfl⟩

end Verif.Heap
