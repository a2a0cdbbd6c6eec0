import Verif.Heap.Proofs.MapOps
/-
Lookup in memory does what the level-1 model says.
-/
namespace Verif.Heap
open Verif
open Verif.BTree (B MIN_LEN CAPACITY Tree Handle setE sliceInsert sliceRemove InsertRes Map emptyLeaf SearchResult)

variable {K V Q α β : Type} {E : String → Prop}

theorem tree_cap {l : Link} {h : Nat} {t : ATree K V} : Ent (tree l h t) (fact (t.kvs.length ≤ CAPACITY) ∗ tree l h t) := by
  cases h with
  | zero =>
    rw [tree_zero]
    exact Ent.getFact fun hf => Ent.putFact hf.2 (Ent.putFact hf (Ent.refl _))
  | succ h =>
    rw [tree_succ]
    exact Ent.getFact fun hf => Ent.putFact hf.2 (Ent.putFact hf (Ent.refl _))

theorem searchKeys_spec [Ord Q] {bor : K → Q} {q : Q} {a : Addr} {lay : Layout} {l : Link} {as : List Addr} :
    ∀ {C A : List (K × V)}, A.length + C.length ≤ CAPACITY →
    Triple E (pts a (nd lay l (A ++ C) as)) (searchKeys bor q a A.length C.length)
      (fun r => fact (r = BTree.searchFrom bor q A.length C) ∗ pts a (nd lay l (A ++ C) as))
  | [], A, _ => by
    show Triple E _ (pure _) _
    exact Triple.ofPure (Ent.putFact rfl (Ent.refl _))
  | kv :: C, A, hc => by
    simp only [List.length_cons] at hc
    show Triple E _ (getNode a >>= _) _
    refine Triple.bindGet ?_
    refine Triple.bindLift (a := kv.1) ?_ ?_
    · show ((Slots.ofList (A ++ kv :: C)).map _).peek CAPACITY A.length = _
      exact Slots.peek_map (f := fun x : K × V => x.1) (Slots.peek_ofList (a := A) (b := C) (x := kv) rfl (by omega))
    simp only [BTree.searchFrom]
    cases compare q (bor kv.1) with
    | gt =>
      dsimp only
      have := searchKeys_spec (bor := bor) (q := q) (a := a) (lay := lay) (l := l) (as := as) (C := C) (A := A ++ [kv])
        (by simp only [List.length_append, List.length_cons, List.length_nil]; omega)
      simpa only [List.length_append, List.length_cons, List.length_nil, Nat.zero_add, List.append_assoc, List.singleton_append] using this
    | eq => exact Triple.ofPure (Ent.putFact rfl (Ent.refl _))
    | lt => exact Triple.ofPure (Ent.putFact rfl (Ent.refl _))

theorem searchLinear_spec [Ord Q] {bor : K → Q} {q : Q} {a : Addr} {lay : Layout} {l : Link} {as : List Addr} {kvs : List (K × V)}
    (hc : kvs.length ≤ CAPACITY) :
    Triple E (pts a (nd lay l kvs as)) (searchLinear bor q a)
      (fun r => fact (r = BTree.searchLinear bor q kvs) ∗ pts a (nd lay l kvs as)) := by
  unfold searchLinear
  refine Triple.bindLenEq kvs.length rfl ?_
  exact searchKeys_spec (A := []) (by simpa using hc)

/-- The level-1 result `r` of a search and the result `o` in memory designate the same place; `up` is how the level-1
search got to `t`. -/
def FoundAt (h : Nat) (t : ATree K V) (up : List Nat) (r : SearchResult) (o : Found) : Prop :=
  match r, o with
  | .found hd, .found hr => ∃ hd0 : Handle, hd = ⟨hd0.up ++ up, hd0.idx⟩ ∧ HandleAt h t hd0 hr
  | .goDown hd, .goDown hr => ∃ hd0 : Handle, hd = ⟨hd0.up ++ up, hd0.idx⟩ ∧ HandleAt h t hd0 hr
  | _, _ => False

theorem FoundAt.found0 {h : Nat} {t : ATree K V} {up : List Nat} {i : Nat} : FoundAt h t up (.found ⟨up, i⟩) (.found ⟨h, t.addr, i⟩) :=
  ⟨⟨[], i⟩, by simp, HandleAt.nil⟩
theorem FoundAt.goDown0 {h : Nat} {t : ATree K V} {up : List Nat} {i : Nat} : FoundAt h t up (.goDown ⟨up, i⟩) (.goDown ⟨h, t.addr, i⟩) :=
  ⟨⟨[], i⟩, by simp, HandleAt.nil⟩

theorem FoundAt.under {h : Nat} {a : Addr} {kvs : List (K × V)} {X Y : List (ATree K V)} {c : ATree K V} {i : Nat} {up : List Nat}
    {r : SearchResult} {o : Found} (hf : FoundAt h c (i :: up) r o) (hi : X.length = i) :
    FoundAt (h + 1) ⟨a, kvs, X ++ c :: Y⟩ up r o := by
  cases r with
  | found hd =>
    cases o with
    | found hr =>
      obtain ⟨hd0, rfl, hh⟩ := hf
      exact ⟨hd0.under i, by simp [Handle.under], hh.under hi⟩
    | goDown hr => exact hf.elim
  | goDown hd =>
    cases o with
    | found hr => exact hf.elim
    | goDown hr =>
      obtain ⟨hd0, rfl, hh⟩ := hf
      exact ⟨hd0.under i, by simp [Handle.under], hh.under hi⟩

theorem searchTree_spec [Ord Q] {bor : K → Q} {q : Q} : ∀ {h : Nat} {l : Link} {t : ATree K V} {up : List Nat} {r : SearchResult},
    BTree.searchTree bor q h t.erase up = .ok r →
    Triple E (tree l h t) (searchTree bor q h t.addr) (fun o => fact (FoundAt h t up r o) ∗ tree l h t)
  | 0, l, ⟨a, kvs, es⟩, up, r, hr => by
    rw [tree_zero]
    refine Triple.getFact fun hf => ?_
    obtain ⟨he, hcap⟩ := hf
    dsimp only at he hcap
    subst he
    simp only [ATree.node, layOf, addrs, List.map_nil]
    show Triple E _ (searchLinear bor q a >>= _) _
    refine Triple.callEq (searchLinear_spec (lay := .leaf) (l := l) (as := []) hcap) ?_
    simp only [BTree.searchTree, ATree.erase_kvs] at hr
    cases hs : BTree.searchLinear bor q kvs with
    | mk i b =>
      rw [hs] at hr
      dsimp only
      refine Triple.ofPure ?_
      cases b with
      | false =>
        simp only [Exec.ok.injEq] at hr; subst hr
        refine Ent.putFact FoundAt.goDown0 ?_
        refine Ent.putFact ⟨trivial, hcap⟩ ?_
        ent_ac
      | true =>
        simp only [Exec.ok.injEq] at hr; subst hr
        refine Ent.putFact FoundAt.found0 ?_
        refine Ent.putFact ⟨trivial, hcap⟩ ?_
        ent_ac
  | h + 1, l, ⟨a, kvs, es⟩, up, r, hr => by
    rw [tree_internal]
    refine Triple.getFact fun hf => ?_
    obtain ⟨he, hcap⟩ := hf
    show Triple E _ (searchLinear bor q a >>= _) _
    refine Triple.callEq (P₀ := pts a (nd .internal l kvs (addrs es))) (searchLinear_spec (lay := .internal) hcap) ?_
    simp only [BTree.searchTree, ATree.erase_kvs] at hr
    cases hs : BTree.searchLinear bor q kvs with
    | mk i b =>
      rw [hs] at hr
      cases b with
      | true =>
        simp only [Exec.ok.injEq] at hr; subst hr
        simp only [if_true]
        refine Triple.ofPure ?_
        refine Ent.putFact FoundAt.found0 ?_
        refine Ent.putFact ⟨he, hcap⟩ ?_
        ent_ac
      | false =>
        simp only at hr
        obtain ⟨c', hc, hr2⟩ := Exec.bind_eq_ok.1 hr
        rw [ATree.erase_edges] at hc
        obtain ⟨X, c, Y, e, hi, rfl⟩ := getE_map_ok hc
        dsimp only at e; subst e
        simp only [Bool.false_eq_true, if_false]
        simp only [List.length_append, List.length_cons] at he
        refine Triple.bindDescend (c := c.addr) (by subst hi; simp) (by len_omega) ?_
        have e2 := tree_internal' l h a kvs X Y c
        rw [tree_internal] at e2
        refine Triple.callLast (P₀ := tree (some a, some X.length) h c) (R := fact (X.length + Y.length + 1 = kvs.length + 1 ∧ kvs.length ≤ CAPACITY) ∗
            pts a (nd .internal l kvs (addrs X ++ c.addr :: addrs Y)) ∗ kids h a 0 X ∗ kids h a (X.length + 1) Y) (h := ⟨?_⟩) (searchTree_spec hr2) fun o => ?_
        · rw [kids_append, kids_cons, Nat.zero_add]
          rw [fact_of (show X.length + Y.length + 1 = kvs.length + 1 ∧ kvs.length ≤ CAPACITY from ⟨by omega, hcap⟩), emp_sep]
          simp only [addrs, List.map_append, List.map_cons]
          ac_rfl
        · simp only [sep_assoc]
          refine Ent.getFact fun hfo => ?_
          refine Ent.putFact (hfo.under (a := a) (kvs := kvs) (Y := Y) hi) ?_
          refine Ent.getFact fun hf2 => ?_
          rw [kids_append, kids_cons, Nat.zero_add]
          refine Ent.putFact ⟨by simp only [List.length_append, List.length_cons]; omega, hcap⟩ ?_
          simp only [addrs, List.map_append, List.map_cons]
          ent_ac

theorem own_shared {hm : HMap} {M : Map K V} {ta : ATree K V} (h : M.shared = true) :
    own hm M ta = fact (hm = ⟨⟨0, SHARED⟩, M.length⟩ ∧ M.height = 0 ∧ M.root = emptyLeaf ∧ ta = ⟨SHARED, [], []⟩) := by
  rw [own, h]; rfl

theorem search_spec [Ord Q] {bor : K → Q} {q : Q} {hm : HMap} {M : Map K V} {ta : ATree K V} {r : SearchResult} (hr : M.search bor q = .ok r) :
    Triple E (own hm M ta) (hm.search bor q) (fun o => fact (FoundAt M.height ta [] r o) ∗ own hm M ta) := by
  obtain ⟨H, root, shared, len⟩ := M
  cases shared with
  | false =>
    rw [own_owned rfl]
    refine Triple.ofHex fun pi => ?_
    refine Triple.getFact fun hf => ?_
    obtain ⟨rfl, rfl⟩ := hf
    refine (searchTree_spec hr).post fun o => ?_
    refine Ent.getFact fun hf => ?_
    refine Ent.putFact hf ?_
    refine Ent.hex_right pi ?_
    exact Ent.putFact ⟨rfl, rfl⟩ (Ent.refl _)
  | true =>
    rw [own_shared rfl]
    refine Triple.getFact fun hf => ?_
    obtain ⟨rfl, rfl, rfl, rfl⟩ := hf
    simp only [BTree.Map.search, BTree.searchTree, emptyLeaf, BTree.searchLinear, BTree.searchFrom, Exec.ok.injEq] at hr
    subst hr
    show Triple E emp (pure (Found.goDown ⟨0, SHARED, 0⟩)) _
    refine Triple.ofPure ?_
    refine Ent.putFact (FoundAt.goDown0 (t := ⟨SHARED, [], []⟩)) ?_
    exact Ent.putFact ⟨rfl, rfl, rfl, rfl⟩ (Ent.refl _)

/-- The whole tree around a node that a handle designates. -/
theorem focus_self {p : List Nat} {h : Nat} {t n : ATree K V} (l : Link) (hp : t.at p = some n) (hl : p.length ≤ h) :
    ∃ l' F, tree l h t = (tree l' (h - p.length) n ∗ F) ∧
      ∀ n', n'.addr = n.addr → tree l h (t.put p n') = (tree l' (h - p.length) n' ∗ F) := by
  obtain ⟨l', F, hF⟩ := focus l hp hl
  refine ⟨l', F, ?_, hF⟩
  have := hF n rfl
  rwa [ATree.put_self hp] at this

theorem kvOf_node {l : Link} {h : Nat} {t : ATree K V} {i ht : Nat} {kv : K × V} (hk : getE t.kvs i = .ok kv) :
    Triple E (tree l h t) (kvOf ⟨ht, t.addr, i⟩) (fun r => fact (r = kv) ∗ tree l h t) := by
  refine Triple.pre ?_ tree_cap
  refine Triple.getFact fun hc => ?_
  obtain ⟨A, C, e, hi⟩ := getE_ok hk
  obtain ⟨a, kvs, es⟩ := t
  dsimp only at e hc ⊢
  subst e
  simp only [tree, ATree.node]
  unfold kvOf
  refine Triple.bindGet ?_
  refine Triple.ofLift (cell_peekKv (Slots.peek_ofList hi.symm (by len_omega))) ?_
  refine Ent.putFact rfl ?_
  ent_ac

theorem kvOf_spec {l : Link} {h : Nat} {t : ATree K V} {hd : Handle} {hr : HRef} {kv : K × V} (hat : HandleAt h t hd hr)
    (hk : BTree.kvAt h t.erase hd = .ok kv) :
    Triple E (tree l h t) (kvOf hr) (fun r => fact (r = kv) ∗ tree l h t) := by
  obtain ⟨n, hn, hle, rfl⟩ := hat
  simp only [BTree.kvAt] at hk
  obtain ⟨x, hx, hk⟩ := Exec.bind_eq_ok.1 hk
  obtain ⟨n', hn', hl, rfl⟩ := nodeAt_erase hx
  rw [hn] at hn'
  simp only [Option.some.injEq] at hn'
  subst hn'
  rw [ATree.erase_kvs] at hk
  obtain ⟨l', F, e, _⟩ := focus_self l hn hl
  rw [e]
  refine Triple.callLast (P₀ := tree l' (h - hd.up.reverse.length) n) (kvOf_node hk) fun r => ?_
  exact Ent.of_eq (sep_assoc ..)

theorem getKeyValue_spec [Ord Q] {bor : K → Q} {q : Q} {hm : HMap} {M : Map K V} {ta : ATree K V} {r : Option (K × V)}
    (hr : M.getKeyValue bor q = .ok r) :
    Triple E (own hm M ta) (hm.getKeyValue bor q) (fun o => fact (o = r) ∗ own hm M ta) := by
  simp only [BTree.Map.getKeyValue] at hr
  obtain ⟨sr, hs, hr⟩ := Exec.bind_eq_ok.1 hr
  unfold HMap.getKeyValue
  refine Triple.seq (search_spec hs) fun o => ?_
  refine Triple.getFact fun hf => ?_
  cases sr with
  | goDown hd =>
    simp only [Exec.ok.injEq] at hr
    subst hr
    cases o with
    | found hr => exact hf.elim
    | goDown hr => exact Triple.ofPure (Ent.putFact rfl (Ent.refl _))
  | found hd =>
    cases o with
    | goDown hr => exact hf.elim
    | found hx =>
      obtain ⟨hd0, rfl, hat⟩ := hf
      simp only [List.append_nil] at hr
      obtain ⟨kv, hk, hr⟩ := Exec.bind_eq_ok.1 hr
      simp only [Exec.ok.injEq] at hr
      subst hr
      obtain ⟨H, root, shared, len⟩ := M
      cases shared with
      | false =>
        rw [own_owned rfl]
        refine Triple.ofHex fun pi => ?_
        refine Triple.getFact fun hf => ?_
        obtain ⟨rfl, rfl⟩ := hf
        refine Triple.seq (kvOf_spec hat hk) fun o => ?_
        refine Triple.getFact fun e => ?_
        subst e
        refine Triple.ofPure (Ent.putFact rfl ?_)
        exact Ent.hex_right pi (Ent.putFact ⟨rfl, rfl⟩ (Ent.refl _))
      | true =>
        rw [own_shared rfl]
        refine Triple.getFact fun hf => ?_
        obtain ⟨rfl, rfl, rfl, rfl⟩ := hf
        simp only [BTree.Map.search, BTree.searchTree, emptyLeaf, BTree.searchLinear, BTree.searchFrom, Exec.ok.injEq] at hs
        cases hs

theorem setVal_node {l : Link} {h : Nat} {t : ATree K V} {i ht : Nat} {k : K} {v v' : V} {A C : List (K × V)} (e : t.kvs = A ++ (k, v) :: C) (hi : A.length = i) :
    Triple E (tree l h t) (setVal ⟨ht, t.addr, i⟩ v') (fun r => fact (r = v) ∗ tree l h { t with kvs := A ++ (k, v') :: C }) := by
  refine Triple.pre ?_ tree_cap
  refine Triple.getFact fun hc => ?_
  obtain ⟨a, kvs, es⟩ := t
  dsimp only at e hc ⊢
  subst e
  have hlen : (A ++ (k, v) :: C).length = (A ++ (k, v') :: C).length := by simp
  have hb : below h ⟨a, A ++ (k, v) :: C, es⟩ = below h ⟨a, A ++ (k, v') :: C, es⟩ := by
    cases h with
    | zero => simp only [below_zero, hlen]
    | succ h => simp only [below_succ, hlen]
  simp only [tree, ATree.node, hb]
  unfold setVal
  refine Triple.at (a := a) (x := v) (n' := nd (layOf h) l (A ++ (k, v') :: C) (addrs es)) ?_ ?_
  · have h1 : i < (A ++ (k, v) :: C).length := by simp; omega
    have h2 := Slots.take_map (f := fun x : K × V => x.2) (Slots.take_ofList (a := A) (b := C) (x := (k, v)) (cap := CAPACITY) hi.symm (by omega))
    have h3 : (Slots.hole A C).map (fun x : K × V => x.2) = (Slots.hole A C).map (fun x : K × V => x.2) := rfl
    have h4 := Slots.put_map (f := fun x : K × V => x.2) (Slots.put_hole (a := A) (b := C) (x := (k, v')) (cap := CAPACITY) hi.symm (by omega))
    simp only [nd, cell, require, decide_eq_true_eq, h1, if_true, Exec.ok_bind]
    dsimp only at h2 h4
    rw [h2]
    simp only [Exec.ok_bind]
    rw [h4]
    simp only [Exec.ok_bind, hlen, Slots.map_ofList, List.map_append, List.map_cons]
  · refine Ent.putFact rfl ?_
    ent_ac

theorem get_cons_ne {x y : α} {l : List α} {i : Nat} (h : i ≠ 0) : (x :: l)[i]? = (y :: l)[i]? := by
  cases i <;> simp_all

theorem ATree.at_put_kvs {n : ATree K V} {kvs : List (K × V)} : ∀ {p : List Nat} {t m : ATree K V} {q : List Nat}, t.at p = some n → t.at q = some m →
    ∃ m', (t.put p { n with kvs := kvs }).at q = some m' ∧ m'.addr = m.addr
  | p, t, m, [], hp, hq => by
    simp only [ATree.at, Option.some.injEq] at hq ⊢
    subst hq
    exact ⟨_, rfl, ATree.put_addr hp rfl⟩
  | [], t, m, j :: q, hp, hq => by
    simp only [ATree.at, Option.some.injEq] at hp
    subst hp
    exact ⟨m, hq, rfl⟩
  | i :: p, ⟨a, ks, es⟩, m, j :: q, hp, hq => by
    obtain ⟨X, c, Y, e, hi, hc⟩ := ATree.at_split hp
    dsimp only at e; subst e
    rw [ATree.put_cons hi]
    by_cases hij : i = j
    · subst hij
      rw [ATree.at_cons hi] at hq ⊢
      exact ATree.at_put_kvs hc hq
    · refine ⟨m, ?_, rfl⟩
      rw [← hq]
      simp only [ATree.at]
      have : (X ++ c.put p { n with kvs := kvs } :: Y)[j]? = (X ++ c :: Y)[j]? := by
        rw [List.getElem?_append, List.getElem?_append]
        split
        · rfl
        · exact get_cons_ne (by omega)
      rw [this]

theorem setVal_spec {hm : HMap} {M M' : Map K V} {ta : ATree K V} {hd : Handle} {hr : HRef} {v old : V}
    (hs : M.shared = false) (hat : HandleAt M.height ta hd hr) (hx : M.setVal hd v = .ok (M', old)) :
    Triple E (own hm M ta) (setVal hr v) (fun r => hex fun ta' =>
      fact (r = old ∧ M'.height = M.height ∧ M'.shared = false ∧ ∀ hd hr, HandleAt M.height ta hd hr → HandleAt M.height ta' hd hr) ∗ own hm M' ta') := by
  obtain ⟨H, root, shared, len⟩ := M
  dsimp only at hs hat
  subst hs
  rw [own_owned rfl]
  refine Triple.ofHex fun pi => ?_
  refine Triple.getFact fun hf => ?_
  obtain ⟨rfl, rfl⟩ := hf
  dsimp only
  simp only [BTree.Map.setVal, BTree.Map.kvAt, BTree.kvAt] at hx
  obtain ⟨⟨k, v1⟩, hk, hx⟩ := Exec.bind_eq_ok.1 hx
  obtain ⟨y, hy, hk⟩ := Exec.bind_eq_ok.1 hk
  obtain ⟨⟨t', old'⟩, hrep, hx⟩ := Exec.bind_eq_ok.1 hx
  simp only [Exec.ok.injEq, Prod.mk.injEq] at hx
  obtain ⟨rfl, rfl⟩ := hx
  obtain ⟨n, hn, hle, rfl⟩ := hat
  obtain ⟨n', hn', _, rfl⟩ := nodeAt_erase hy
  rw [hn] at hn'
  simp only [Option.some.injEq] at hn'
  subst hn'
  dsimp only at hk
  rw [ATree.erase_kvs] at hk
  simp only [BTree.replaceKv] at hrep
  obtain ⟨n', nt, hn', hl, hf, hput⟩ := modifyAt_erase hrep
  rw [hn] at hn'
  simp only [Option.some.injEq] at hn'
  subst hn'
  obtain ⟨A, C, e, hi⟩ := getE_ok hk
  obtain ⟨old2, ho, hf⟩ := Exec.bind_eq_ok.1 hf
  rw [ATree.erase_kvs, hk] at ho
  simp only [Exec.ok.injEq] at ho
  subst ho
  obtain ⟨kvs', hs, hf⟩ := Exec.bind_eq_ok.1 hf
  rw [ATree.erase_kvs, e, setE_mid hi] at hs
  simp only [Exec.ok.injEq] at hs
  subst hs
  simp only [Exec.ok.injEq, Prod.mk.injEq] at hf
  obtain ⟨hnt, rfl⟩ := hf
  obtain ⟨l', F, e1, e2⟩ := focus_self (none, pi) hn hl
  rw [e1]
  refine Triple.callLast (P₀ := tree l' (H - hd.up.reverse.length) n) (setVal_node e hi) fun r => ?_
  simp only [sep_assoc]
  refine Ent.getFact fun hr => ?_
  subst hr
  refine Ent.hex_right (ta.put hd.up.reverse { n with kvs := A ++ (k, v) :: C }) ?_
  have hall : ∀ hd2 hr2, HandleAt H ta hd2 hr2 → HandleAt H (ta.put hd.up.reverse { n with kvs := A ++ (k, v) :: C }) hd2 hr2 := by
    intro hd2 hr2 h2
    obtain ⟨m, hm, hle, rfl⟩ := h2
    obtain ⟨m', hm', ha⟩ := ATree.at_put_kvs (kvs := A ++ (k, v) :: C) hn hm
    exact ⟨m', hm', hle, by rw [ha]⟩
  refine Ent.putFact ⟨rfl, trivial, trivial, hall⟩ ?_
  rw [own_owned rfl]
  refine Ent.hex_right pi ?_
  have h1 := hput { n with kvs := A ++ (k, v) :: C } (by rw [← hnt, ATree.erase_mk]; simp only [ATree.erase_edges])
  refine Ent.putFact ⟨h1, by rw [ATree.put_addr (n' := { n with kvs := A ++ (k, v) :: C }) hn rfl]⟩ ?_
  · exact Ent.of_eq (e2 { n with kvs := A ++ (k, v) :: C } rfl).symm

theorem setKey_node {l : Link} {h : Nat} {t : ATree K V} {i ht : Nat} {k k' : K} {v : V} {A C : List (K × V)} (e : t.kvs = A ++ (k, v) :: C) (hi : A.length = i) :
    Triple E (tree l h t) (setKey ⟨ht, t.addr, i⟩ k') (fun r => fact (r = k) ∗ tree l h { t with kvs := A ++ (k', v) :: C }) := by
  refine Triple.pre ?_ tree_cap
  refine Triple.getFact fun hc => ?_
  obtain ⟨a, kvs, es⟩ := t
  dsimp only at e hc ⊢
  subst e
  have hlen : (A ++ (k, v) :: C).length = (A ++ (k', v) :: C).length := by simp
  have hb : below h ⟨a, A ++ (k, v) :: C, es⟩ = below h ⟨a, A ++ (k', v) :: C, es⟩ := by
    cases h with
    | zero => simp only [below_zero, hlen]
    | succ h => simp only [below_succ, hlen]
  simp only [tree, ATree.node, hb]
  unfold setKey
  refine Triple.at (a := a) (x := k) (n' := nd (layOf h) l (A ++ (k', v) :: C) (addrs es)) ?_ ?_
  · have h1 : i < (A ++ (k, v) :: C).length := by simp; omega
    have h2 := Slots.take_map (f := fun x : K × V => x.1) (Slots.take_ofList (a := A) (b := C) (x := (k, v)) (cap := CAPACITY) hi.symm (by omega))
    have h3 : (Slots.hole A C).map (fun x : K × V => x.1) = (Slots.hole A C).map (fun x : K × V => x.1) := rfl
    have h4 := Slots.put_map (f := fun x : K × V => x.1) (Slots.put_hole (a := A) (b := C) (x := (k', v)) (cap := CAPACITY) hi.symm (by omega))
    simp only [nd, cell, require, decide_eq_true_eq, h1, if_true, Exec.ok_bind]
    dsimp only at h2 h4
    rw [h2]
    simp only [Exec.ok_bind]
    rw [h4]
    simp only [Exec.ok_bind, hlen, Slots.map_ofList, List.map_append, List.map_cons]
  · refine Ent.putFact rfl ?_
    ent_ac

theorem setKey_spec {hm : HMap} {M M' : Map K V} {ta : ATree K V} {hd : Handle} {hr : HRef} {k0 old : K}
    (hs : M.shared = false) (hat : HandleAt M.height ta hd hr) (hx : M.setKey hd k0 = .ok (M', old)) :
    Triple E (own hm M ta) (setKey hr k0) (fun r => hex fun ta' =>
      fact (r = old ∧ M'.height = M.height ∧ M'.shared = false ∧ ∀ hd hr, HandleAt M.height ta hd hr → HandleAt M.height ta' hd hr) ∗ own hm M' ta') := by
  obtain ⟨H, root, shared, len⟩ := M
  dsimp only at hs hat
  subst hs
  rw [own_owned rfl]
  refine Triple.ofHex fun pi => ?_
  refine Triple.getFact fun hf => ?_
  obtain ⟨rfl, rfl⟩ := hf
  dsimp only
  simp only [BTree.Map.setKey, BTree.Map.kvAt, BTree.kvAt] at hx
  obtain ⟨⟨k, v1⟩, hk, hx⟩ := Exec.bind_eq_ok.1 hx
  obtain ⟨y, hy, hk⟩ := Exec.bind_eq_ok.1 hk
  obtain ⟨⟨t', old'⟩, hrep, hx⟩ := Exec.bind_eq_ok.1 hx
  simp only [Exec.ok.injEq, Prod.mk.injEq] at hx
  obtain ⟨rfl, rfl⟩ := hx
  obtain ⟨n, hn, hle, rfl⟩ := hat
  obtain ⟨n', hn', _, rfl⟩ := nodeAt_erase hy
  rw [hn] at hn'
  simp only [Option.some.injEq] at hn'
  subst hn'
  dsimp only at hk
  rw [ATree.erase_kvs] at hk
  simp only [BTree.replaceKv] at hrep
  obtain ⟨n', nt, hn', hl, hf, hput⟩ := modifyAt_erase hrep
  rw [hn] at hn'
  simp only [Option.some.injEq] at hn'
  subst hn'
  obtain ⟨A, C, e, hi⟩ := getE_ok hk
  obtain ⟨old2, ho, hf⟩ := Exec.bind_eq_ok.1 hf
  rw [ATree.erase_kvs, hk] at ho
  simp only [Exec.ok.injEq] at ho
  subst ho
  obtain ⟨kvs', hs, hf⟩ := Exec.bind_eq_ok.1 hf
  rw [ATree.erase_kvs, e, setE_mid hi] at hs
  simp only [Exec.ok.injEq] at hs
  subst hs
  simp only [Exec.ok.injEq, Prod.mk.injEq] at hf
  obtain ⟨hnt, rfl⟩ := hf
  obtain ⟨l', F, e1, e2⟩ := focus_self (none, pi) hn hl
  rw [e1]
  refine Triple.callLast (P₀ := tree l' (H - hd.up.reverse.length) n) (setKey_node e hi) fun r => ?_
  simp only [sep_assoc]
  refine Ent.getFact fun hr => ?_
  subst hr
  refine Ent.hex_right (ta.put hd.up.reverse { n with kvs := A ++ (k0, v1) :: C }) ?_
  have hall : ∀ hd2 hr2, HandleAt H ta hd2 hr2 → HandleAt H (ta.put hd.up.reverse { n with kvs := A ++ (k0, v1) :: C }) hd2 hr2 := by
    intro hd2 hr2 h2
    obtain ⟨m, hm, hle, rfl⟩ := h2
    obtain ⟨m', hm', ha⟩ := ATree.at_put_kvs (kvs := A ++ (k0, v1) :: C) hn hm
    exact ⟨m', hm', hle, by rw [ha]⟩
  refine Ent.putFact ⟨rfl, trivial, trivial, hall⟩ ?_
  rw [own_owned rfl]
  refine Ent.hex_right pi ?_
  have h1 := hput { n with kvs := A ++ (k0, v1) :: C } (by rw [← hnt, ATree.erase_mk]; simp only [ATree.erase_edges])
  refine Ent.putFact ⟨h1, by rw [ATree.put_addr (n' := { n with kvs := A ++ (k0, v1) :: C }) hn rfl]⟩ ?_
  · exact Ent.of_eq (e2 { n with kvs := A ++ (k0, v1) :: C } rfl).symm

end Verif.Heap
