import Verif.Heap.Proofs.RemoveRaw
/-
`remove` in memory does what the level-1 model says.
-/
namespace Verif.Heap
open Verif
open Verif.BTree (B MIN_LEN CAPACITY Tree Handle setE sliceInsert sliceRemove Map emptyLeaf SearchResult Walk)

variable {K V Q α β : Type} {E : String → Prop}

theorem popLevel_spec {pi : Option Nat} {h : Nat} {a : Addr} {c : ATree K V} :
    Triple E (tree (none, pi) (h + 1) ⟨a, [], [c]⟩) (popLevel ⟨h + 1, a⟩)
      (fun r => fact (r = ⟨h, c.addr⟩) ∗ tree (none, some 0) h c) := by
  rw [tree_internal, kids_cons, kids_nil]
  simp only [sep_emp]
  refine Triple.getFact fun _ => ?_
  unfold popLevel
  refine Triple.bindReq rfl ?_
  refine Triple.bindNewEdge (Nat.zero_le _) ?_
  refine Triple.bindDescend (c := c.addr) (by simp) (by decide) ?_
  refine Triple.bindSetParentNull (e := c) (le := (some a, some 0)) (h := h) ?_
  refine Triple.bindFree rfl ?_
  refine Triple.ofPure ?_
  refine Ent.putFact rfl ?_
  ent_ac

/-- The answer of `handle_underfull_node` that makes the loop do what level 1 says. -/
def UnderRes (a : Addr) (h : Nat) (t' : Tree K V) (w : Walk) (u : Under) : Prop :=
  match w with
  | .done => u = .stole
  | .walking => u = .merged ⟨h + 1, a⟩ ∧ t'.len ≠ 0
  | .popRoot => u = .merged ⟨h + 1, a⟩ ∧ t'.len = 0

theorem ascend_child {l : Link} {h : Nat} {t c : ATree K V} {X Y : List (ATree K V)} {i : Nat} (e : t.edges = X ++ c :: Y) (hi : X.length = i) :
    Triple E (tree l (h + 1) t) (ascend ⟨h, c.addr⟩) (fun r => fact (r = some ⟨h + 1, t.addr, i⟩) ∗ tree l (h + 1) t) := by
  obtain ⟨a, kvs, es⟩ := t
  dsimp only at e ⊢
  subst e
  rw [tree_internal']
  refine Triple.getFact fun hf => ?_
  have hlink : tree (some a, some X.length) h c = (pts c.addr (c.node (some a, some X.length) h) ∗ below h c) := rfl
  rw [hlink]
  simp only [sep_assoc]
  refine Triple.last ?_
  refine Triple.bindAscend (a := c.addr) (p := a) (i := i) rfl (by rw [hi]; rfl) ?_
  refine Triple.ofPure (Ent.putFact rfl ?_)
  exact Ent.putFact hf (Ent.refl _)

theorem newKv_tree {l : Link} {h ht i : Nat} {t : ATree K V} (hi : i < t.kvs.length) :
    Triple E (tree l h t) (newKv ⟨ht, t.addr⟩ i) (fun r => fact (r = ⟨ht, t.addr, i⟩) ∗ tree l h t) := by
  unfold tree
  refine Triple.last ?_
  refine Triple.bindNewKv hi ?_
  exact Triple.ofPure (Ent.putFact rfl (Ent.refl _))

theorem handleUnderfull_spec {l : Link} {h i : Nat} {t c : ATree K V} {X Y : List (ATree K V)} {t' : Tree K V} {w : Walk}
    (e : t.edges = X ++ c :: Y) (hi : X.length = i) (hb : BTree.handleUnderfull h t.erase i = .ok (t', w)) :
    Triple E (tree l (h + 1) t) (handleUnderfull ⟨h, c.addr⟩) (fun u => fact (UnderRes t.addr h t' w u) ∗ holds l (h + 1) t.addr t') := by
  refine Triple.pre ?_ tree_shape
  refine Triple.getFact fun hs => ?_
  have hs2 : t.edges.length = t.kvs.length + 1 := hs.2
  have hle : i ≤ t.kvs.length := by rw [e] at hs2; simp at hs2; omega
  unfold handleUnderfull
  refine Triple.callEq (P₀ := tree l (h + 1) t) (ascend_child e hi) ?_
  simp only [sep_emp]
  refine Triple.callEq (P₀ := tree l (h + 1) t) lenOf_tree ?_
  simp only [sep_emp]
  simp only [BTree.handleUnderfull, ATree.erase_len] at hb
  by_cases h0 : 0 < i
  · simp only [h0, if_true] at hb ⊢
    obtain ⟨b, hcm, hb⟩ := Exec.bind_eq_ok.1 hb
    have hlt : i - 1 < t.kvs.length := by omega
    refine Triple.callEq (P₀ := tree l (h + 1) t) (newKv_tree hlt) ?_
    refine Triple.callEq (P₀ := tree l (h + 1) t) (canMerge_ref hlt hcm) ?_
    simp only [sep_emp]
    cases b with
    | true =>
      simp only [if_true] at hb ⊢
      obtain ⟨t1, hm, hb⟩ := Exec.bind_eq_ok.1 hb
      simp only [Exec.ok.injEq, Prod.mk.injEq] at hb
      obtain ⟨rfl, rfl⟩ := hb
      refine Triple.callEq (P₀ := tree l (h + 1) t) (merge_ref hlt hm) ?_
      simp only [sep_emp]
      refine Triple.ofPure (Ent.putFact ?_ (Ent.refl _))
      split
      · exact ⟨rfl, by assumption⟩
      · exact ⟨rfl, by assumption⟩
    | false =>
      simp only [Bool.false_eq_true, if_false] at hb ⊢
      obtain ⟨t1, hm, hb⟩ := Exec.bind_eq_ok.1 hb
      simp only [Exec.ok.injEq, Prod.mk.injEq] at hb
      obtain ⟨rfl, rfl⟩ := hb
      refine Triple.call (P₀ := tree l (h + 1) t) (stealLeft_ref hlt hm) fun _ => ?_
      simp only [sep_emp]
      exact Triple.ofPure (Ent.putFact rfl (Ent.refl _))
  · simp only [h0, if_false] at hb ⊢
    split at hb
    · next hlt =>
      rw [if_pos hlt]
      obtain ⟨b, hcm, hb⟩ := Exec.bind_eq_ok.1 hb
      refine Triple.callEq (P₀ := tree l (h + 1) t) (newKv_tree hlt) ?_
      refine Triple.callEq (P₀ := tree l (h + 1) t) (canMerge_ref hlt hcm) ?_
      simp only [sep_emp]
      cases b with
      | true =>
        simp only [if_true] at hb ⊢
        obtain ⟨t1, hm, hb⟩ := Exec.bind_eq_ok.1 hb
        simp only [Exec.ok.injEq, Prod.mk.injEq] at hb
        obtain ⟨rfl, rfl⟩ := hb
        refine Triple.callEq (P₀ := tree l (h + 1) t) (merge_ref hlt hm) ?_
        simp only [sep_emp]
        refine Triple.ofPure (Ent.putFact ?_ (Ent.refl _))
        split
        · exact ⟨rfl, by assumption⟩
        · exact ⟨rfl, by assumption⟩
      | false =>
        simp only [Bool.false_eq_true, if_false] at hb ⊢
        obtain ⟨t1, hm, hb⟩ := Exec.bind_eq_ok.1 hb
        simp only [Exec.ok.injEq, Prod.mk.injEq] at hb
        obtain ⟨rfl, rfl⟩ := hb
        refine Triple.call (P₀ := tree l (h + 1) t) (stealRight_ref hlt hm) fun _ => ?_
        simp only [sep_emp]
        exact Triple.ofPure (Ent.putFact rfl (Ent.refl _))
    · cases hb

/-- What some rounds of the underflow loop leave in memory. -/
def UPost (root : NRef) (l : Link) (h : Nat) (a : Addr) (t' : Tree K V) (w : Walk) (o : NRef ⊕ NRef) : HProp K V :=
  match w with
  | .walking => fact (o = .inl ⟨h, a⟩) ∗ holds l h a t'
  | .done => fact (o = .inr root) ∗ holds l h a t'
  | .popRoot => hex fun c' : ATree K V => fact (∃ h', h = h' + 1 ∧ o = .inr ⟨h', c'.addr⟩ ∧ t'.edges = [c'.erase]) ∗ tree (none, some 0) (h - 1) c'

theorem underflowStep_spec {root : NRef} {l : Link} {h i : Nat} {t c : ATree K V} {X Y : List (ATree K V)} {t' : Tree K V} {w : Walk}
    (e : t.edges = X ++ c :: Y) (hi : X.length = i)
    (hb : (if c.kvs.length < CAPACITY / 2 then BTree.handleUnderfull h t.erase i else .ok (t.erase, .done)) = .ok (t', w))
    (hroot : w = .popRoot → root = ⟨h + 1, t.addr⟩ ∧ l.1 = none) :
    Triple E (tree l (h + 1) t) (underflowStep root ⟨h, c.addr⟩) (UPost root l (h + 1) t.addr t' w) := by
  unfold underflowStep
  have hat : t.at [i] = some c := by rw [ATree.at, e, ← hi]; simp [ATree.at]
  refine Triple.callEq (P₀ := tree l (h + 1) t) (Triple.readPath hat (by simp) fun l' => lenOf_tree) ?_
  simp only [sep_emp]
  split at hb
  · next hlt =>
    rw [if_pos hlt]
    refine Triple.seq (handleUnderfull_spec e hi hb) fun u => ?_
    refine Triple.getFact fun hu => ?_
    cases w with
    | done =>
      simp only [UnderRes] at hu
      subst hu
      exact Triple.ofPure (Ent.fact_right rfl (Ent.refl _))
    | walking =>
      obtain ⟨rfl, hne⟩ := hu
      dsimp only
      simp only [holds]
      refine Triple.ofHex fun ta => ?_
      refine Triple.getFact fun hta => ?_
      obtain ⟨rfl, ha⟩ := hta
      rw [← ha]
      refine Triple.callEq (P₀ := tree l (h + 1) ta) lenOf_tree ?_
      rw [ATree.erase_len] at hne
      rw [if_neg hne]
      refine Triple.ofPure (Ent.fact_right rfl ?_)
      refine Ent.hex_right ta (Ent.putFact ⟨rfl, rfl⟩ ?_)
      ent_ac
    | popRoot =>
      obtain ⟨rfl, he0⟩ := hu
      obtain ⟨rfl, hl0⟩ := hroot rfl
      dsimp only
      simp only [holds]
      refine Triple.ofHex fun ta => ?_
      refine Triple.getFact fun hta => ?_
      obtain ⟨rfl, ha⟩ := hta
      rw [← ha]
      refine Triple.callEq (P₀ := tree l (h + 1) ta) lenOf_tree ?_
      rw [ATree.erase_len] at he0
      rw [if_pos he0]
      simp only [sep_emp]
      refine Triple.pre ?_ tree_shape
      refine Triple.getFact fun hs => ?_
      have hs2 : ta.edges.length = ta.kvs.length + 1 := hs.2
      obtain ⟨a, kvs, es⟩ := ta
      dsimp only at *
      have hk : kvs = [] := List.eq_nil_of_length_eq_zero he0
      subst hk
      match es, hs2 with
      | [c'], _ =>
        obtain ⟨l1, l2⟩ := l
        dsimp only at hl0
        subst hl0
        refine Triple.seq popLevel_spec fun r => ?_
        refine Triple.getFact fun hr => ?_
        subst hr
        refine Triple.ofPure ?_
        refine Ent.hex_right c' ?_
        exact Ent.putFact ⟨h, rfl, rfl, by simp⟩ (Ent.refl _)
  · next hge =>
    rw [if_neg hge]
    simp only [Exec.ok.injEq, Prod.mk.injEq] at hb
    obtain ⟨rfl, rfl⟩ := hb
    refine Triple.ofPure (Ent.fact_right rfl ?_)
    exact Ent.hex_right t (Ent.putFact ⟨rfl, rfl⟩ (Ent.refl _))

theorem underflow_length : ∀ {h : Nat} {t : Tree K V} {p : List Nat} {x : Tree K V × Walk}, BTree.underflow h t p = .ok x → p.length ≤ h
  | _, t, [], x, _ => by simp
  | 0, t, _ :: _, x, h => by simp [BTree.underflow] at h
  | h + 1, t, i :: p, x, hx => by
    simp only [BTree.underflow] at hx
    obtain ⟨c, _, hx⟩ := Exec.bind_eq_ok.1 hx
    obtain ⟨y, hy, _⟩ := Exec.bind_eq_ok.1 hx
    simpa using underflow_length hy

theorem underflow_spec {root : NRef} : ∀ {h : Nat} {l : Link} {t n : ATree K V} {p : List Nat} {t' : Tree K V} {w : Walk},
    t.at p = some n → p.length = h → BTree.underflow h t.erase p = .ok (t', w) → (w = .popRoot → root = ⟨h, t.addr⟩ ∧ l.1 = none) →
    Triple E (tree l h t) (loopN (underflowStep root) h ⟨0, n.addr⟩) (UPost root l h t.addr t' w)
  | 0, l, t, n, p, t', w, hp, hl, hx, hroot => by
    have : p = [] := List.eq_nil_of_length_eq_zero hl
    subst this
    simp only [ATree.at, Option.some.injEq] at hp
    subst hp
    simp only [BTree.underflow, Exec.ok.injEq, Prod.mk.injEq] at hx
    obtain ⟨rfl, rfl⟩ := hx
    refine Triple.ofPure (Ent.fact_right rfl ?_)
    exact Ent.hex_right t (Ent.putFact ⟨rfl, rfl⟩ (Ent.refl _))
  | h + 1, l, t, n, [], t', w, hp, hl, hx, hroot => by simp at hl
  | h + 1, l, ⟨a, kvs, es⟩, n, i :: p, t', w, hp, hl, hx, hroot => by
    simp only [BTree.underflow] at hx
    obtain ⟨c0, hc, hx⟩ := Exec.bind_eq_ok.1 hx
    obtain ⟨⟨c1, w1⟩, hu, hx⟩ := Exec.bind_eq_ok.1 hx
    obtain ⟨es', hs, hx⟩ := Exec.bind_eq_ok.1 hx
    rw [ATree.erase_edges] at hc hs
    obtain ⟨X, c, Y, e, hi, rfl⟩ := getE_map_ok hc
    dsimp only at e
    subst e
    rw [ATree.at_cons hi] at hp
    simp only [List.map_append, List.map_cons] at hs
    rw [setE_mid (by simpa using hi)] at hs
    simp only [Exec.ok.injEq] at hs
    subst hs
    simp only [ATree.erase_kvs] at hx
    rw [loopN_snoc, tree_internal']
    refine Triple.getFact fun hf => ?_
    have hw1 : w1 ≠ .popRoot := by
      rintro rfl; cases hx
    refine Triple.call (P₀ := tree (some a, some X.length) h c)
      (underflow_spec (root := root) hp (by simpa using hl) hu (fun hh => absurd hh hw1)) fun o => ?_
    have close : ∀ c' : ATree K V, c'.addr = c.addr →
        (tree (some a, some X.length) h c' ∗ pts a (nd .internal l kvs (addrs X ++ c.addr :: addrs Y)) ∗ kids h a 0 X ∗ kids h a (X.length + 1) Y) =
          tree l (h + 1) ⟨a, kvs, X ++ c' :: Y⟩ := by
      intro c' hc'
      rw [tree_internal', hc', fact_of hf, emp_sep]
      ac_rfl
    cases w1 with
    | popRoot => exact absurd rfl hw1
    | done =>
      simp only [Exec.ok.injEq, Prod.mk.injEq] at hx
      obtain ⟨rfl, rfl⟩ := hx
      simp only [UPost, holds, sep_assoc, hex_sep, sep_hex]
      refine Triple.ofHex fun c' => ?_
      refine Triple.getFact fun ho => ?_
      subst ho
      refine Triple.getFact fun hc' => ?_
      obtain ⟨rfl, hca⟩ := hc'
      rw [close c' hca]
      refine Triple.ofPure ?_
      refine Ent.fact_right rfl ?_
      refine Ent.hex_right (⟨a, kvs, X ++ c' :: Y⟩ : ATree K V) ?_
      exact Ent.putFact ⟨by rw [ATree.erase_mk]; simp, rfl⟩ (Ent.refl _)
    | walking =>
      simp only at hx
      simp only [UPost, holds, sep_assoc, hex_sep, sep_hex]
      refine Triple.ofHex fun c' => ?_
      refine Triple.getFact fun ho => ?_
      subst ho
      refine Triple.getFact fun hc' => ?_
      obtain ⟨rfl, hca⟩ := hc'
      rw [close c' hca, ← hca]
      have ht : (⟨kvs, X.map ATree.erase ++ c'.erase :: Y.map ATree.erase⟩ : Tree K V) = (⟨a, kvs, X ++ c' :: Y⟩ : ATree K V).erase := by
        rw [ATree.erase_mk]; simp
      rw [ht, ATree.erase_len] at hx
      exact underflowStep_spec (t := ⟨a, kvs, X ++ c' :: Y⟩) rfl hi hx hroot

theorem removeKv_spec {hm : HMap} {M M' : Map K V} {ta : ATree K V} {hd : Handle} {hr : HRef} {kv : K × V}
    (hs : M.shared = false) (hat : HandleAt M.height ta hd hr) (hx : M.removeKv hd = .ok (kv, M')) :
    Triple E (own hm M ta) (hm.removeKv hr) (fun o => fact (o.1 = kv) ∗ rep o.2 M') := by
  obtain ⟨H, root, shared, len⟩ := M
  dsimp only at hs hat
  subst hs
  rw [own_owned rfl]
  refine Triple.ofHex fun pi => ?_
  refine Triple.getFact fun hf => ?_
  obtain ⟨rfl, rfl⟩ := hf
  dsimp only
  simp only [BTree.Map.removeKv] at hx
  obtain ⟨_, hreq, hx⟩ := Exec.bind_eq_ok.1 hx
  have hpos := require_ok hreq
  obtain ⟨⟨t1, old, leaf⟩, hraw, hx⟩ := Exec.bind_eq_ok.1 hx
  obtain ⟨⟨t2, w⟩, hu, hx⟩ := Exec.bind_eq_ok.1 hx
  obtain ⟨M1, hpop, hx⟩ := Exec.bind_eq_ok.1 hx
  simp only [Exec.ok.injEq, Prod.mk.injEq] at hx
  obtain ⟨rfl, rfl⟩ := hx
  obtain ⟨n, hn, hle, rfl⟩ := hat
  unfold HMap.removeKv
  dsimp only at hpos ⊢
  refine Triple.bindReq hpos ?_
  have h1 := removeRaw_spec (E := E) (l := (none, pi)) hn hraw
  rw [List.length_reverse] at h1
  refine Triple.seq h1 fun o => ?_
  refine Triple.ofHex fun t1a => ?_
  refine Triple.getFact fun hf => ?_
  obtain ⟨rfl, haddr, rfl, hlen, n', hn', hleaf⟩ := hf
  obtain ⟨old, lf⟩ := o
  dsimp only at hleaf ⊢
  subst hleaf
  rw [loopN_snoc]
  refine Triple.assoc ?_
  refine Triple.seq (underflow_spec (root := ⟨H, ta.addr⟩) hn' hlen hu (fun _ => ⟨by rw [haddr], rfl⟩)) fun o => ?_
  cases w with
  | done =>
    simp only [UPost, holds]
    refine Triple.getFact fun ho => ?_
    subst ho
    refine Triple.ofHex fun t2a => ?_
    refine Triple.getFact fun hf => ?_
    obtain ⟨rfl, h2⟩ := hf
    simp only [BTree.popLevelIf, Exec.ok.injEq] at hpop
    subst hpop
    show Triple E _ (pure _) _
    refine Triple.ofPure (Ent.putFact rfl ?_)
    refine Ent.hex_right t2a ?_
    rw [own_owned rfl]
    refine Ent.hex_right pi ?_
    exact Ent.putFact ⟨rfl, by rw [h2, haddr]⟩ (Ent.refl _)
  | walking =>
    simp only [UPost, holds]
    refine Triple.getFact fun ho => ?_
    subst ho
    refine Triple.ofHex fun t2a => ?_
    refine Triple.getFact fun hf => ?_
    obtain ⟨rfl, h2⟩ := hf
    simp only [BTree.popLevelIf, Exec.ok.injEq] at hpop
    subst hpop
    show Triple E _ (underflowStep _ _ >>= _) _
    have hfin : Triple E (tree (none, pi) H t2a) (underflowStep ⟨H, ta.addr⟩ ⟨H, t1a.addr⟩)
        (fun o => fact (o = .inr ⟨H, ta.addr⟩) ∗ tree (none, pi) H t2a) := by
      unfold underflowStep
      rw [← h2]
      refine Triple.callEq (P₀ := tree (none, pi) H t2a) lenOf_tree ?_
      simp only [sep_emp]
      split
      · unfold handleUnderfull
        refine Triple.assoc ?_
        have hlink : tree (none, pi) H t2a = (pts t2a.addr (t2a.node (none, pi) H) ∗ below H t2a) := rfl
        rw [hlink]
        refine Triple.bindAscendNone (a := t2a.addr) rfl ?_
        show Triple E _ (pure _) _
        exact Triple.ofPure (Ent.putFact rfl (Ent.refl _))
      · exact Triple.ofPure (Ent.putFact rfl (Ent.refl _))
    refine Triple.callEq (P₀ := tree (none, pi) H t2a) hfin ?_
    show Triple E _ (pure _) _
    refine Triple.ofPure (Ent.putFact rfl ?_)
    refine Ent.hex_right t2a ?_
    rw [own_owned rfl]
    refine Ent.hex_right pi ?_
    refine Ent.putFact ⟨rfl, by rw [h2, haddr]⟩ ?_
    ent_ac
  | popRoot =>
    simp only [UPost]
    refine Triple.ofHex fun c' => ?_
    refine Triple.getFact fun hf => ?_
    obtain ⟨h', rfl, rfl, he⟩ := hf
    simp only [BTree.popLevelIf, he] at hpop
    obtain ⟨c2, hc2, hpop⟩ := Exec.bind_eq_ok.1 hpop
    simp only [getE, List.getElem?_cons_zero, Exec.ok.injEq] at hc2
    subst hc2
    simp only [Exec.ok.injEq] at hpop
    subst hpop
    show Triple E _ (pure _) _
    refine Triple.ofPure (Ent.putFact rfl ?_)
    refine Ent.hex_right c' ?_
    rw [own_owned rfl]
    refine Ent.hex_right (some 0) ?_
    exact Ent.putFact ⟨rfl, rfl⟩ (Ent.refl _)

theorem removeEntry_spec [Ord Q] {bor : K → Q} {q : Q} {hm : HMap} {M M' : Map K V} {ta : ATree K V} {r : Option (K × V)}
    (hx : M.removeEntry bor q = .ok (r, M')) :
    Triple E (own hm M ta) (hm.removeEntry bor q) (fun o => fact (o.1 = r) ∗ rep o.2 M') := by
  simp only [BTree.Map.removeEntry] at hx
  obtain ⟨sr, hs, hx⟩ := Exec.bind_eq_ok.1 hx
  unfold HMap.removeEntry
  refine Triple.seq (search_spec hs) fun o => ?_
  refine Triple.getFact fun hf => ?_
  cases sr with
  | goDown hd =>
    simp only [Exec.ok.injEq, Prod.mk.injEq] at hx
    obtain ⟨rfl, rfl⟩ := hx
    cases o with
    | found hr => exact hf.elim
    | goDown hr => exact Triple.ofPure (Ent.putFact rfl (Ent.hex_right ta (Ent.refl _)))
  | found hd =>
    cases o with
    | goDown hr => exact hf.elim
    | found hr =>
      obtain ⟨hd0, rfl, hat⟩ := hf
      simp only [List.append_nil] at hx
      obtain ⟨⟨kv, M1⟩, hk, hx⟩ := Exec.bind_eq_ok.1 hx
      simp only [Exec.ok.injEq, Prod.mk.injEq] at hx
      obtain ⟨rfl, rfl⟩ := hx
      cases hsh : M.shared with
      | false =>
        refine Triple.seq (removeKv_spec hsh hat hk) fun o => ?_
        refine Triple.getFact fun e => ?_
        exact Triple.ofPure (Ent.putFact (by rw [e]) (Ent.refl _))
      | true =>
        rw [own_shared hsh]
        refine Triple.getFact fun hf => ?_
        obtain ⟨rfl, h1, h2, rfl⟩ := hf
        simp only [BTree.Map.search, BTree.searchTree, h1, h2, emptyLeaf, BTree.searchLinear, BTree.searchFrom, Exec.ok.injEq] at hs
        cases hs

end Verif.Heap
