import Verif.Heap.Proofs.SplitOff
/-
`split_off` in memory, continued: counting, the new right tree, the whole operation.
-/
namespace Verif.Heap
open Verif
open Verif.BTree (B MIN_LEN CAPACITY Tree Handle setE sliceInsert sliceRemove Map emptyLeaf emptySpine)

variable {K V Q α β : Type} {E : String → Prop}

theorem at_one {t c : ATree K V} {X Y : List (ATree K V)} {i : Nat} (e : t.edges = X ++ c :: Y) (hi : X.length = i) : t.at [i] = some c := by
  rw [ATree.at, e, ← hi]; simp [ATree.at]

theorem dfsLoop_ref {h : Nat} {l : Link} {t : ATree K V}
    (hrec : ∀ {l : Link} {c : ATree K V} {n : Nat}, BTree.dfsLen h c.erase = .ok n →
      Triple E (tree l h c) (dfsLen h c.addr) (fun r => fact (r = n) ∗ tree l h c)) :
    ∀ (cs X : List (ATree K V)) (acc fuel n : Nat), cs ≠ [] → t.edges = X ++ cs → t.edges.length = t.kvs.length + 1 → cs.length ≤ fuel →
      (cs.map ATree.erase).foldlM (fun acc c => do
        let n ← BTree.dfsLen h c
        Exec.ok (acc + n)) acc = .ok n →
      Triple E (tree l (h + 1) t) (loopN (dfsStep (dfsLen h) ⟨h + 1, t.addr⟩) fuel (X.length, acc)) (fun r => fact (r = .inr n) ∗ tree l (h + 1) t)
  | [], _, _, _, _, hne, _, _, _, _ => absurd rfl hne
  | c :: cs, X, acc, 0, n, _, _, _, hf, _ => by simp at hf
  | c :: cs, X, acc, fuel + 1, n, _, he, hs, hf, hx => by
    rw [List.map_cons, List.foldlM_cons] at hx
    obtain ⟨acc', hacc, hx⟩ := Exec.bind_eq_ok.1 hx
    obtain ⟨k, hk, hacc⟩ := Exec.bind_eq_ok.1 hacc
    simp only [Exec.ok.injEq] at hacc
    subst hacc
    have hlen : X.length + cs.length = t.kvs.length := by rw [he] at hs; simp at hs; omega
    rw [loopN_succ]
    unfold dfsStep
    dsimp only
    refine Triple.assoc ?_
    refine Triple.callEq (P₀ := tree l (h + 1) t) (descend_tree (i := X.length) (c := c) (by rw [he]; simp)) ?_
    simp only [sep_emp]
    refine Triple.assoc ?_
    refine Triple.callEq (P₀ := tree l (h + 1) t) (Triple.readPath (at_one he rfl) (by simp) fun l' => hrec hk) ?_
    simp only [sep_emp]
    refine Triple.assoc ?_
    refine Triple.callEq (P₀ := tree l (h + 1) t) lenOf_tree ?_
    simp only [sep_emp]
    cases cs with
    | nil =>
      rw [if_neg (by simp at hlen; omega)]
      show Triple E _ (pure _) _
      refine Triple.ofPure (Ent.fact_right ?_ (Ent.refl _))
      simp only [List.map_nil, List.foldlM_nil] at hx
      have : acc + k = n := by
        have := hx
        simpa [pure] using this
      rw [this]
    | cons d ds =>
      rw [if_pos (by simp at hlen; omega)]
      refine Triple.assoc ?_
      refine Triple.callEq (P₀ := tree l (h + 1) t) (newEdge_tree (by simp at hlen; omega)) ?_
      simp only [sep_emp]
      show Triple E _ (loopN _ fuel (X.length + 1, acc + k)) _
      have := dfsLoop_ref (l := l) (t := t) hrec (d :: ds) (X ++ [c]) (acc + k) fuel n (by simp) (by rw [he]; simp) hs (by simpa using hf) hx
      rw [List.length_append, List.length_singleton] at this
      exact this

theorem dfsLen_ref : ∀ {h : Nat} {l : Link} {t : ATree K V} {n : Nat}, BTree.dfsLen h t.erase = .ok n →
    Triple E (tree l h t) (dfsLen h t.addr) (fun r => fact (r = n) ∗ tree l h t)
  | 0, l, t, n, hx => by
    simp only [BTree.dfsLen, Exec.ok.injEq, ATree.erase_len] at hx
    subst hx
    exact lenOf_tree
  | h + 1, l, t, n, hx => by
    simp only [BTree.dfsLen, ATree.erase_len] at hx
    obtain ⟨_, hq, hx⟩ := Exec.bind_eq_ok.1 hx
    have hs := require_ok hq
    simp only [ATree.erase_edges, List.length_map, decide_eq_true_eq] at hs hx
    refine Triple.pre ?_ tree_cap
    refine Triple.getFact fun hcap => ?_
    unfold dfsLen
    refine Triple.callEq (P₀ := tree l (h + 1) t) lenOf_tree ?_
    refine Triple.callEq (P₀ := tree l (h + 1) t) (newEdge_tree (Nat.zero_le _)) ?_
    simp only [sep_emp]
    refine Triple.callEq (P₀ := tree l (h + 1) t)
      (dfsLoop_ref (fun hk => dfsLen_ref hk) t.edges [] t.kvs.length (CAPACITY + 1) n (by intro hc; rw [hc] at hs; simp at hs) rfl hs (by omega) hx) ?_
    simp only [sep_emp]
    exact Triple.ofPure (Ent.fact_right rfl (Ent.refl _))

/-! ### new trees -/

theorem newLeaf_spec {al : Alloc} : Triple E (sched al) (newLeaf : HM K V (Option NRef)) (fun o => sched al.request.2 ∗
    match o with
    | none => fact (al.request.1 = false)
    | some r => fact (al.request.1 = true) ∗ rooted r 0 (emptySpine 0)) := by
  unfold newLeaf
  refine Triple.pre (P := sched al ∗ emp) ?_ (Ent.of_eq (sep_emp _).symm)
  refine Triple.bindAlloc (fun hno => ?_) fun hyes a => ?_
  · refine Triple.ofPure ?_
    dsimp only [Option.map]
    rw [fact_of hno]
    exact Ent.refl _
  · refine Triple.ofPure ?_
    dsimp only [Option.map]
    refine Ent.putFact hyes ?_
    unfold rooted
    rw [sep_hex]
    refine Ent.hex_right (⟨a, [], []⟩, none) ?_
    refine Ent.putFact ⟨by rw [ATree.erase_mk]; rfl, rfl⟩ ?_
    rw [tree_leaf, new_eq]
    refine Ent.putFact (Nat.zero_le _) ?_
    ent_ac

theorem pushLevel_rooted {r : NRef} {h : Nat} {t : Tree K V} {al : Alloc} :
    Triple E (sched al ∗ rooted r h t) (pushLevel r) (fun o => sched al.request.2 ∗
      match o with
      | none => fact (al.request.1 = false) ∗ rooted r h t
      | some n => fact (al.request.1 = true) ∗ rooted n (h + 1) ⟨[], [t]⟩) := by
  rw [sep_comm]
  refine rooted_elim fun ta pi he hr => ?_
  subst he hr
  rw [sep_comm]
  refine pushLevel_spec.post fun o => ?_
  cases o with
  | none => exact Ent.sep (Ent.refl _) (Ent.sep (Ent.refl _) rooted_intro)
  | some n =>
    obtain ⟨nh, na⟩ := n
    dsimp only
    refine Ent.sep (Ent.refl _) ?_
    refine Ent.fact_left fun hf => ?_
    obtain ⟨h1, rfl⟩ := hf
    refine Ent.fact_right h1 ?_
    refine Ent.hex_right (⟨na, [], [ta]⟩, none) ?_
    refine Ent.fact_right ⟨by rw [ATree.erase_mk]; rfl, rfl⟩ ?_
    dsimp only
    rw [tree_internal, kids_cons, kids_nil, sep_emp]
    exact Ent.fact_right ⟨rfl, Nat.zero_le _⟩ (Ent.refl _)

theorem pushLevels_ref : ∀ {n : Nat} {r : NRef} {h : Nat} {al : Alloc},
    Triple E (sched al ∗ rooted r h (emptySpine h : Tree K V)) (pushLevels n r) (fun x => sched (BTree.Alloc.requests n al).2 ∗
      hex fun h' : Nat => fact (x.2 = (BTree.Alloc.requests n al).1 ∧ ((BTree.Alloc.requests n al).1 = true → h' = h + n)) ∗ rooted x.1 h' (emptySpine h'))
  | 0, r, h, al => by
    refine Triple.ofPure (Ent.sep (Ent.refl _) ?_)
    exact Ent.hex_right h (Ent.fact_right ⟨rfl, fun _ => rfl⟩ (Ent.refl _))
  | n + 1, r, h, al => by
    unfold pushLevels
    refine Triple.seq pushLevel_rooted fun o => ?_
    cases o with
    | none =>
      dsimp only
      refine Triple.getFact fun hno => ?_
      simp only [BTree.Alloc.requests, hno, Bool.false_eq_true, if_false]
      refine Triple.ofPure (Ent.sep (Ent.refl _) ?_)
      exact Ent.hex_right h (Ent.fact_right ⟨rfl, fun h => h.elim⟩ (Ent.refl _))
    | some r' =>
      dsimp only
      refine Triple.getFact fun hyes => ?_
      simp only [BTree.Alloc.requests, hyes, if_true]
      refine (pushLevels_ref (n := n) (r := r') (h := h + 1) (al := al.request.2)).post fun x => ?_
      refine Ent.sep (Ent.refl _) ?_
      intro w hw
      obtain ⟨h', hw⟩ := hw
      obtain ⟨⟨h1, h2⟩, hw⟩ := fact_sep.1 hw
      exact ⟨h', fact_sep.2 ⟨⟨h1, fun hh => by rw [h2 hh]; omega⟩, hw⟩⟩

/-! ### maps -/

theorem own_rooted {hm : HMap} {M : Map K V} (hs : M.shared = false) :
    rep hm M = (fact (hm.length = M.length) ∗ rooted hm.root M.height M.root) := by
  unfold rep rooted
  simp only [own_owned hs]
  funext w
  refine propext ⟨?_, ?_⟩
  · rintro ⟨ta, pi, hw0⟩
    obtain ⟨⟨h1, h2⟩, hw⟩ := fact_sep.1 hw0
    clear hw0
    subst h2
    exact fact_sep.2 ⟨rfl, ⟨(ta, pi), fact_sep.2 ⟨⟨h1, rfl⟩, hw⟩⟩⟩
  · intro hw
    obtain ⟨hl, ⟨⟨ta, pi⟩, hw⟩⟩ := fact_sep.1 hw
    obtain ⟨⟨h1, h2⟩, hw⟩ := fact_sep.1 hw
    refine ⟨ta, pi, fact_sep.2 ⟨⟨h1, ?_⟩, hw⟩⟩
    obtain ⟨hr, hl'⟩ := hm
    dsimp only at hl h2 ⊢
    rw [h2, hl]

theorem rep_shared {hm : HMap} {M : Map K V} (hs : M.shared = true) :
    rep hm M = fact (hm = ⟨⟨0, SHARED⟩, M.length⟩ ∧ M.height = 0 ∧ M.root = emptyLeaf) := by
  unfold rep
  simp only [own_shared hs]
  funext w
  refine propext ⟨?_, ?_⟩
  · rintro ⟨ta, h, rfl⟩
    exact ⟨⟨h.1, h.2.1, h.2.2.1⟩, rfl⟩
  · rintro ⟨h, rfl⟩
    exact ⟨_, ⟨h.1, h.2.1, h.2.2, rfl⟩, rfl⟩

theorem rep_new : (rep HMap.new (Map.new : Map K V)) = emp := by
  rw [rep_shared rfl]
  exact fact_of ⟨rfl, rfl, rfl⟩

/-- Dropping a map drops its entries in order and frees all its nodes. -/
theorem mapDrop_spec {hm : HMap} {M : Map K V} (hl : M.length = (BTree.toList M.height M.root).length) :
    Triple E (rep hm M) (hm.drop : HM K V _) (fun o => fact (o = BTree.toList M.height M.root)) := by
  unfold HMap.drop
  refine Triple.seq (intoIter_spec hl) fun it => ?_
  refine Triple.getFact fun hh => ?_
  rw [hh]
  refine Triple.pre ?_ consuming_length
  exact Triple.getFact fun hn => drop_spec hn

/-- What `split_off` leaves in memory: nothing but the two maps, and if it fails nothing but the old map. -/
def SplitPost (res : Res (Map K V)) (M' : Map K V) (o : Option HMap × HMap) : HProp K V :=
  match res with
  | .ok R => (hex fun hr : HMap => fact (o.1 = some hr) ∗ rep hr R) ∗ rep o.2 M'
  | .error _ => fact (o.1 = none) ∗ rep o.2 M'

theorem splitPost_error {e : TryReserveError} {M' : Map K V} {o : Option HMap × HMap} : SplitPost (.error e) M' o = (fact (o.1 = none) ∗ rep o.2 M') := rfl

theorem splitOff_ref [Ord Q] {bor : K → Q} {q : Q} {hm : HMap} {M M' : Map K V} {al al' : Alloc} {res : Res (Map K V)}
    (hsh : M.shared = true → M.length = 0) (hx : M.splitOff bor q al = .ok (res, M', al')) :
    Triple E (rep hm M ∗ sched al) (hm.splitOff bor q) (fun o => sched al' ∗ SplitPost res M' o) := by
  by_cases h0 : M.length = 0
  · have hemp : M.isEmpty = true := by simp [BTree.Map.isEmpty, BTree.Map.len, h0]
    simp only [BTree.Map.splitOff, hemp, if_true, Exec.ok.injEq, Prod.mk.injEq] at hx
    obtain ⟨rfl, rfl, rfl⟩ := hx
    have hlen : Ent (rep hm M ∗ sched al) (fact (hm.length = 0) ∗ rep hm M ∗ sched al) := by
      cases hs : M.shared with
      | true =>
        rw [rep_shared hs]
        refine Ent.getFact fun hf => ?_
        exact Ent.fact_right (by rw [hf.1, h0]) (Ent.fact_right hf (Ent.refl _))
      | false =>
        rw [own_rooted hs, sep_assoc]
        refine Ent.getFact fun hf => ?_
        exact Ent.fact_right (by rw [hf, h0]) (Ent.fact_right hf (Ent.refl _))
    refine Triple.pre ?_ hlen
    refine Triple.getFact fun hl => ?_
    unfold HMap.splitOff
    rw [if_pos hl]
    refine Triple.ofPure ?_
    simp only [SplitPost, hex_sep, sep_hex]
    refine Ent.hex_right HMap.new ?_
    rw [rep_new, sep_emp]
    refine Ent.putFact rfl ?_
    ent_ac
  · have hs : M.shared = false := by
      cases h : M.shared with
      | false => rfl
      | true => exact absurd (hsh h) h0
    have hemp : M.isEmpty = false := by simp [BTree.Map.isEmpty, BTree.Map.len, h0]
    simp only [BTree.Map.splitOff, hemp, Bool.false_eq_true, if_false, BTree.Alloc.requests] at hx
    rw [own_rooted hs]
    refine Triple.pre (P := fact (hm.length = M.length) ∗ rooted hm.root M.height M.root ∗ sched al) ?_ (Ent.of_eq (sep_assoc ..))
    refine Triple.getFact fun hlen => ?_
    obtain ⟨hroot, hl⟩ := hm
    dsimp only at hlen ⊢
    subst hlen
    unfold HMap.splitOff
    dsimp only
    rw [if_neg h0]
    refine Triple.call (P₀ := sched al) newLeaf_spec fun o => ?_
    cases o with
    | none =>
      dsimp only
      simp only [sep_assoc]
      refine Triple.getFact fun hno => ?_
      simp only [hno, Bool.false_eq_true, if_false, Exec.ok.injEq, Prod.mk.injEq] at hx
      obtain ⟨rfl, rfl, rfl⟩ := hx
      refine Triple.pre (P := (rep HMap.new (Map.new : Map K V)) ∗ sched al.request.2 ∗ rooted hroot M.height M.root) ?_
        (by rw [rep_new, emp_sep]; simp only [sep_emp]; exact Ent.refl _)
      refine Triple.call (P₀ := rep HMap.new (Map.new : Map K V)) (mapDrop_spec rfl) fun _ => ?_
      refine Triple.getFact fun _ => ?_
      refine Triple.ofPure ?_
      rw [splitPost_error, own_rooted hs]
      refine Ent.putFact rfl ?_
      refine Ent.putFact rfl ?_
      ent_ac
    | some r =>
      dsimp only
      simp only [sep_assoc]
      refine Triple.getFact fun hyes => ?_
      simp only [hyes, if_true] at hx
      refine Triple.pre (P := rooted hroot M.height M.root ∗ sched al.request.2 ∗ rooted r 0 (emptySpine 0)) ?_ (by ent_ac)
      refine rooted_elim fun ta pi he hr => ?_
      subst hr
      dsimp only
      refine Triple.call (P₀ := sched al.request.2 ∗ rooted r 0 (emptySpine 0 : Tree K V)) pushLevels_ref fun x => ?_
      simp only [hex_sep, sep_hex]
      refine Triple.ofHex fun h' => ?_
      simp only [sep_assoc]
      refine Triple.getFact fun hf => ?_
      obtain ⟨hf1, hf2⟩ := hf
      rw [hf1]
      cases hb : (BTree.Alloc.requests M.height al.request.2).1 with
      | false =>
        simp only [hb, Bool.false_eq_true, if_false, Exec.ok.injEq, Prod.mk.injEq] at hx ⊢
        obtain ⟨rfl, rfl, rfl⟩ := hx
        refine Triple.pre (P := (rep ⟨x.1, 0⟩ (⟨h', emptySpine h', false, 0⟩ : Map K V)) ∗ sched (BTree.Alloc.requests M.height al.request.2).2 ∗
          tree (none, pi) M.height ta) ?_
          (by rw [own_rooted rfl, fact_of rfl, emp_sep]; ent_ac)
        refine Triple.call (P₀ := rep ⟨x.1, 0⟩ (⟨h', emptySpine h', false, 0⟩ : Map K V)) (mapDrop_spec (by simp)) fun _ => ?_
        refine Triple.getFact fun _ => ?_
        refine Triple.ofPure ?_
        rw [splitPost_error, own_rooted hs]
        refine Ent.putFact rfl ?_
        refine Ent.putFact rfl ?_
        refine Ent.sep (Ent.refl _) ?_
        dsimp only
        rw [← he]
        exact rooted_intro
      | true =>
        simp only [hb, if_true] at hx ⊢
        obtain rfl : h' = M.height := by have := hf2 hb; omega
        obtain ⟨⟨l1, r1⟩, hsplit, hx⟩ := Exec.bind_eq_ok.1 hx
        obtain ⟨⟨lh, lt⟩, hfr, hx⟩ := Exec.bind_eq_ok.1 hx
        obtain ⟨⟨rh, rt⟩, hfl, hx⟩ := Exec.bind_eq_ok.1 hx
        dsimp only at hx
        refine Triple.pre (P := rooted x.1 M.height (emptySpine M.height : Tree K V) ∗ sched (BTree.Alloc.requests M.height al.request.2).2 ∗
          tree (none, pi) M.height ta) ?_ (by ent_ac)
        refine rooted_elim fun tr pr her hrr => ?_
        rw [hrr]
        dsimp only
        rw [← he, ← her] at hsplit
        refine Triple.call (P₀ := tree (none, pi) M.height ta ∗ tree (none, pr) M.height tr) (splitLoop_ref hsplit) fun _ => ?_
        dsimp only
        rw [sep_assoc]
        refine holds_elim fun tl' hel hal => ?_
        rw [← hal]
        rw [← hel] at hfr
        refine Triple.call (P₀ := tree (none, pi) M.height tl') (fixRightBorder_ref hfr) fun lr => ?_
        rw [sep_comm]
        simp only [sep_assoc]
        refine holds_elim fun tr' her' har => ?_
        rw [← har]
        rw [← her'] at hfl
        refine Triple.call (P₀ := tree (none, pr) M.height tr') (fixLeftBorder_ref hfl) fun rr => ?_
        refine Triple.pre (P := rooted lr lh lt ∗ rooted rr rh rt ∗ sched (BTree.Alloc.requests M.height al.request.2).2) ?_ (by ent_ac)
        refine rooted_elim fun tl2 pl2 hl2 hlr2 => ?_
        refine Triple.pre (P := rooted rr rh rt ∗ tree (none, pl2) lh tl2 ∗ sched (BTree.Alloc.requests M.height al.request.2).2) ?_ (by ent_ac)
        refine rooted_elim fun tr2 pr2 hr2 hrr2 => ?_
        rw [hlr2, hrr2]
        dsimp only
        split at hx
        · next hlt =>
          rw [if_pos hlt]
          obtain ⟨ll, hd, hx⟩ := Exec.bind_eq_ok.1 hx
          obtain ⟨_, hq, hx⟩ := Exec.bind_eq_ok.1 hx
          have hq' := require_ok hq
          simp only [Exec.ok.injEq, Prod.mk.injEq] at hx
          obtain ⟨rfl, rfl, rfl⟩ := hx
          rw [← hl2] at hd
          refine Triple.callEq (P₀ := tree (none, pl2) lh tl2) (dfsLen_ref hd) ?_
          refine Triple.bindReq hq' ?_
          refine Triple.ofPure ?_
          simp only [SplitPost, hex_sep, sep_hex]
          refine Ent.hex_right ⟨⟨rh, tr2.addr⟩, M.length - ll⟩ ?_
          rw [own_rooted rfl, own_rooted (M := ⟨lh, lt, M.shared, _⟩) hs]
          dsimp only
          simp only [sep_assoc]
          refine Ent.putFact trivial (Ent.putFact trivial (Ent.putFact trivial ?_))
          rw [← hl2, ← hr2]
          refine Ent.trans ?_ (Ent.sep (Ent.refl _) (Ent.sep (rooted_intro (pi := pr2)) (rooted_intro (pi := pl2))))
          ent_ac
        · next hlt =>
          rw [if_neg hlt]
          obtain ⟨rl, hd, hx⟩ := Exec.bind_eq_ok.1 hx
          obtain ⟨_, hq, hx⟩ := Exec.bind_eq_ok.1 hx
          have hq' := require_ok hq
          simp only [Exec.ok.injEq, Prod.mk.injEq] at hx
          obtain ⟨rfl, rfl, rfl⟩ := hx
          rw [← hr2] at hd
          refine Triple.callEq (P₀ := tree (none, pr2) rh tr2) (dfsLen_ref hd) ?_
          refine Triple.bindReq hq' ?_
          refine Triple.ofPure ?_
          simp only [SplitPost, hex_sep, sep_hex]
          refine Ent.hex_right ⟨⟨rh, tr2.addr⟩, rl⟩ ?_
          rw [own_rooted rfl, own_rooted (M := ⟨lh, lt, M.shared, _⟩) hs]
          dsimp only
          simp only [sep_assoc]
          refine Ent.putFact trivial (Ent.putFact trivial (Ent.putFact trivial ?_))
          rw [← hl2, ← hr2]
          refine Ent.trans ?_ (Ent.sep (Ent.refl _) (Ent.sep (rooted_intro (pi := pr2)) (rooted_intro (pi := pl2))))
          ent_ac

end Verif.Heap
