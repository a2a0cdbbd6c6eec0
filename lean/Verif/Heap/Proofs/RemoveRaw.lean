import Verif.Heap.Proofs.Refine
/-
Taking a pair out of a tree in memory: the first half of `remove_kv`.
-/
namespace Verif.Heap
open Verif
open Verif.BTree (B MIN_LEN CAPACITY Tree Handle setE sliceInsert sliceRemove)

variable {K V Q α β : Type} {E : String → Prop}

theorem sliceRemove_ok {l l' : List α} {i : Nat} {x : α} (h : sliceRemove l i = .ok (x, l')) :
    ∃ A C, l = A ++ x :: C ∧ l' = A ++ C ∧ A.length = i := by
  simp only [BTree.sliceRemove] at h
  obtain ⟨y, hy, h⟩ := Exec.bind_eq_ok.1 h
  simp only [Exec.ok.injEq, Prod.mk.injEq] at h
  obtain ⟨rfl, rfl⟩ := h
  obtain ⟨A, C, rfl, hA⟩ := getE_ok hy
  refine ⟨A, C, rfl, ?_, hA⟩
  subst hA
  simp

/-- An operation on the node at the end of a path that changes only that subtree. -/
theorem Triple.atPath {m : HM K V β} {l : Link} {p : List Nat} {h : Nat} {t n : ATree K V} {φ : β → ATree K V → Prop}
    (hp : t.at p = some n) (hl : p.length ≤ h)
    (hm : ∀ l', Triple E (tree l' (h - p.length) n) m (fun r => hex fun n' => fact (φ r n' ∧ n'.addr = n.addr) ∗ tree l' (h - p.length) n')) :
    Triple E (tree l h t) m (fun r => hex fun n' => fact (φ r n' ∧ n'.addr = n.addr) ∗ tree l h (t.put p n')) := by
  obtain ⟨l', F, e, hF⟩ := focus_self l hp hl
  rw [e]
  refine Triple.callLast (P₀ := tree l' (h - p.length) n) (hm l') fun r => ?_
  rw [hex_sep]
  intro w hw
  obtain ⟨n', hw⟩ := hw
  rw [sep_assoc] at hw
  have ⟨h1, h2⟩ := fact_sep.1 hw
  exact ⟨n', fact_sep.2 ⟨h1, by rw [hF n' h1.2]; exact h2⟩⟩

/-- An operation that only reads. -/
theorem Triple.readPath {m : HM K V β} {l : Link} {p : List Nat} {h : Nat} {t n : ATree K V} {φ : β → Prop}
    (hp : t.at p = some n) (hl : p.length ≤ h)
    (hm : ∀ l', Triple E (tree l' (h - p.length) n) m (fun r => fact (φ r) ∗ tree l' (h - p.length) n)) :
    Triple E (tree l h t) m (fun r => fact (φ r) ∗ tree l h t) := by
  obtain ⟨l', F, e, hF⟩ := focus_self l hp hl
  rw [e]
  refine Triple.callLast (P₀ := tree l' (h - p.length) n) (hm l') fun r => ?_
  exact Ent.of_eq (sep_assoc ..)

theorem lenOf_tree {l : Link} {h : Nat} {t : ATree K V} :
    Triple E (tree l h t) (lenOf t.addr) (fun r => fact (r = t.kvs.length) ∗ tree l h t) := by
  unfold tree
  refine Triple.last ?_
  refine Triple.bindLenEq t.kvs.length rfl ?_
  exact Triple.ofPure (Ent.putFact rfl (Ent.refl _))

theorem newEdge_tree {l : Link} {h ht i : Nat} {t : ATree K V} (hi : i ≤ t.kvs.length) :
    Triple E (tree l h t) (newEdge ⟨ht, t.addr⟩ i) (fun r => fact (r = ⟨ht, t.addr, i⟩) ∗ tree l h t) := by
  unfold tree
  refine Triple.last ?_
  refine Triple.bindNewEdge hi ?_
  exact Triple.ofPure (Ent.putFact rfl (Ent.refl _))

theorem descend_tree {l : Link} {h i : Nat} {t c : ATree K V} (hi : t.edges[i]? = some c) :
    Triple E (tree l (h + 1) t) (descend ⟨h + 1, t.addr, i⟩) (fun r => fact (r = ⟨h, c.addr⟩) ∗ tree l (h + 1) t) := by
  refine Triple.pre ?_ tree_shape
  refine Triple.getFact fun hs => ?_
  obtain ⟨h1, h2⟩ := hs
  dsimp only at h2
  have hlt : i < t.edges.length := by
    rcases List.getElem?_eq_some_iff.1 hi with ⟨h, _⟩; exact h
  unfold tree ATree.node
  refine Triple.last ?_
  refine Triple.bindDescend (c := c.addr) (by simp [hi]) (by len_omega) ?_
  exact Triple.ofPure (Ent.putFact rfl (Ent.refl _))

theorem firstLeafEdge_spec : ∀ {h : Nat} {l : Link} {t : ATree K V} {p : List Nat}, BTree.firstLeafPath h t.erase = .ok p →
    Triple E (tree l h t) (firstLeafEdge h t.addr) (fun r => fact (∃ n, t.at p = some n ∧ p.length = h ∧ r = ⟨0, n.addr, 0⟩) ∗ tree l h t)
  | 0, l, t, p, hp => by
    simp only [BTree.firstLeafPath, Exec.ok.injEq] at hp
    subst hp
    refine (newEdge_tree (Nat.zero_le _)).post fun r => ?_
    exact Ent.getFact fun e => Ent.putFact ⟨t, rfl, rfl, e⟩ (Ent.refl _)
  | h + 1, l, t, p, hp => by
    simp only [BTree.firstLeafPath] at hp
    obtain ⟨c0, hc, hp⟩ := Exec.bind_eq_ok.1 hp
    obtain ⟨q, hq, hp⟩ := Exec.bind_eq_ok.1 hp
    simp only [Exec.ok.injEq] at hp
    subst hp
    rw [ATree.erase_edges] at hc
    obtain ⟨X, c, Y, e, hi, rfl⟩ := getE_map_ok hc
    have hX : X = [] := List.eq_nil_of_length_eq_zero hi
    subst hX
    have hat : t.at [0] = some c := by simp [ATree.at, e]
    unfold firstLeafEdge
    refine Triple.callEq (P₀ := tree l (h + 1) t) (newEdge_tree (Nat.zero_le _)) ?_
    refine Triple.callEq (P₀ := tree l (h + 1) t) (descend_tree (c := c) (by simp [e])) ?_
    simp only [sep_emp]
    refine (Triple.readPath (p := [0]) hat (by simp) fun l' => firstLeafEdge_spec (h := h) hq).post fun r => ?_
    refine Ent.getFact fun hf => ?_
    obtain ⟨n, h1, h2, h3⟩ := hf
    refine Ent.putFact ⟨n, ?_, by simp [h2], h3⟩ (Ent.refl _)
    show t.at ([0] ++ q) = _
    rw [ATree.at_append hat, h1]

theorem lastLeafEdge_spec : ∀ {h : Nat} {l : Link} {t : ATree K V} {p : List Nat} {i : Nat}, BTree.lastLeafPath h t.erase = .ok (p, i) →
    Triple E (tree l h t) (lastLeafEdge h t.addr)
      (fun r => fact (∃ n, t.at p = some n ∧ p.length = h ∧ i = n.kvs.length ∧ r = ⟨0, n.addr, i⟩) ∗ tree l h t)
  | 0, l, t, p, i, hp => by
    simp only [BTree.lastLeafPath, Exec.ok.injEq, Prod.mk.injEq, ATree.erase_len] at hp
    obtain ⟨rfl, rfl⟩ := hp
    unfold lastLeafEdge
    refine Triple.callEq (P₀ := tree l 0 t) lenOf_tree ?_
    simp only [sep_emp]
    refine (newEdge_tree (Nat.le_refl _)).post fun r => ?_
    exact Ent.getFact fun e => Ent.putFact ⟨t, rfl, rfl, rfl, e⟩ (Ent.refl _)
  | h + 1, l, t, p, i, hp => by
    simp only [BTree.lastLeafPath, ATree.erase_len] at hp
    obtain ⟨c0, hc, hp⟩ := Exec.bind_eq_ok.1 hp
    obtain ⟨⟨q, j⟩, hq, hp⟩ := Exec.bind_eq_ok.1 hp
    simp only [Exec.ok.injEq, Prod.mk.injEq] at hp
    obtain ⟨rfl, rfl⟩ := hp
    rw [ATree.erase_edges] at hc
    obtain ⟨X, c, Y, e, hi, rfl⟩ := getE_map_ok hc
    have hg : t.edges[t.kvs.length]? = some c := by rw [e, ← hi]; simp
    have hat : t.at [t.kvs.length] = some c := by simp [ATree.at, hg]
    unfold lastLeafEdge
    refine Triple.callEq (P₀ := tree l (h + 1) t) lenOf_tree ?_
    refine Triple.callEq (P₀ := tree l (h + 1) t) (newEdge_tree (Nat.le_refl _)) ?_
    refine Triple.callEq (P₀ := tree l (h + 1) t) (descend_tree hg) ?_
    simp only [sep_emp]
    refine (Triple.readPath (p := [t.kvs.length]) hat (by simp) fun l' => lastLeafEdge_spec (h := h) hq).post fun r => ?_
    refine Ent.getFact fun hf => ?_
    obtain ⟨n, h1, h2, h3, h4⟩ := hf
    refine Ent.putFact ⟨n, ?_, by simp [h2], h3, h4⟩ (Ent.refl _)
    show t.at ([t.kvs.length] ++ q) = _
    rw [ATree.at_append hat, h1]

theorem removeLeaf_node {l : Link} {t : ATree K V} {i ht : Nat} {kv : K × V} {A C : List (K × V)} (e : t.kvs = A ++ kv :: C) (hi : A.length = i) :
    Triple E (tree l 0 t) (removeLeaf ⟨ht, t.addr, i⟩) (fun r => fact (r = kv) ∗ tree l 0 { t with kvs := A ++ C }) := by
  refine Triple.pre ?_ tree_shape
  refine Triple.getFact fun hs => ?_
  obtain ⟨hc, he⟩ := hs
  obtain ⟨a, kvs, es⟩ := t
  dsimp only at e he hc ⊢
  subst e he
  rw [tree_leaf, tree_leaf]
  refine Triple.getFact fun _ => ?_
  unfold removeLeaf
  refine Triple.at (a := a) (x := kv) (n' := nd .leaf l (A ++ C) []) ?_ ?_
  · have h1 : (Slots.ofList (A ++ kv :: C)).sliceRemove CAPACITY (A ++ kv :: C).length i = .ok (kv, .ofList (A ++ C)) :=
      Slots.sliceRemove_ofList (by len_omega) hi.symm (by len_omega)
    have h2 := cell_removeKv (lay := .leaf) (l := l) (es := Slots.ofList []) h1
    have h3 : 0 < (nd .leaf l (A ++ kv :: C) ([] : List Addr)).len := by show 0 < (A ++ kv :: C).length; len_omega
    dsimp only
    rw [h2]
    simp only [Exec.ok_bind, require, decide_eq_true_eq, h3, if_true, cell_setLen]
    have h4 : (nd .leaf l (A ++ kv :: C) ([] : List Addr)).len - 1 = (A ++ C).length := by
      show (A ++ kv :: C).length - 1 = _; len_omega
    rw [h4]
  · refine Ent.putFact rfl ?_
    refine Ent.putFact (by len_omega) ?_
    ent_ac

theorem replaceKv_node {l : Link} {h : Nat} {t : ATree K V} {i : Nat} {kv kv' : K × V} {A C : List (K × V)} (e : t.kvs = A ++ kv :: C) (hi : A.length = i) :
    Triple E (tree l h t) (atNode t.addr (fun n => n.replaceKv i kv')) (fun r => fact (r = kv) ∗ tree l h { t with kvs := A ++ kv' :: C }) := by
  refine Triple.pre ?_ tree_cap
  refine Triple.getFact fun hc => ?_
  obtain ⟨a, kvs, es⟩ := t
  dsimp only at e hc ⊢
  subst e
  have hlen : (A ++ kv :: C).length = (A ++ kv' :: C).length := by simp
  have hb : below h ⟨a, A ++ kv :: C, es⟩ = below h ⟨a, A ++ kv' :: C, es⟩ := by
    cases h with
    | zero => simp only [below_zero, hlen]
    | succ h => simp only [below_succ, hlen]
  simp only [tree, ATree.node, hb]
  refine Triple.at (a := a) (x := kv) (n' := nd (layOf h) l (A ++ kv' :: C) (addrs es)) ?_ ?_
  · have := cell_replaceKv (lay := layOf h) (l := l) (len := (A ++ kv :: C).length) (es := .ofList (addrs es)) (A := A) (C := C) (kv := kv) (kv' := kv') (i := i)
      hi.symm (by len_omega) (by len_omega)
    rw [this]
    simp only [nd, hlen]
  · refine Ent.putFact rfl ?_
    ent_ac

theorem removeLeafKv_spec {l : Link} {h : Nat} {t n : ATree K V} {t' : Tree K V} {p : List Nat} {idx ht : Nat} {old : K × V}
    (hp : t.at p = some n) (hx : BTree.removeLeafKv h t.erase p idx = .ok (t', old)) :
    p.length = h ∧ ∃ kvs', (t.put p { n with kvs := kvs' }).erase = t' ∧
    Triple E (tree l h t) (removeLeaf ⟨ht, n.addr, idx⟩) (fun r => fact (r = old) ∗ tree l h (t.put p { n with kvs := kvs' })) := by
  simp only [BTree.removeLeafKv] at hx
  obtain ⟨n1, n', hn1, hl, hf, hput⟩ := modifyAt_erase hx
  rw [hp] at hn1
  simp only [Option.some.injEq] at hn1
  subst hn1
  obtain ⟨_, hreq, hf⟩ := Exec.bind_eq_ok.1 hf
  have h0 := require_ok hreq
  simp only [decide_eq_true_eq] at h0
  refine ⟨by omega, ?_⟩
  simp only [BTree.Tree.removeKv] at hf
  obtain ⟨⟨kv, kvs'⟩, hs, hf⟩ := Exec.bind_eq_ok.1 hf
  simp only [Exec.ok.injEq, Prod.mk.injEq] at hf
  obtain ⟨rfl, rfl⟩ := hf
  rw [ATree.erase_kvs] at hs
  obtain ⟨A, C, e, rfl, hA⟩ := sliceRemove_ok hs
  refine ⟨A ++ C, hput _ (by rw [ATree.erase_mk]; simp), ?_⟩
  obtain ⟨l', F, e1, e2⟩ := focus_self l hp hl
  rw [e1, e2 { n with kvs := A ++ C } rfl, h0]
  refine Triple.callLast (P₀ := tree l' 0 n) (removeLeaf_node e hA) fun r => ?_
  exact Ent.of_eq (sep_assoc ..)

theorem replaceKv_spec {l : Link} {h : Nat} {t n : ATree K V} {t' : Tree K V} {p : List Nat} {idx : Nat} {kv old : K × V}
    (hp : t.at p = some n) (hx : BTree.replaceKv h t.erase p idx kv = .ok (t', old)) :
    ∃ kvs', (t.put p { n with kvs := kvs' }).erase = t' ∧
    Triple E (tree l h t) (atNode n.addr (fun n => n.replaceKv idx kv)) (fun r => fact (r = old) ∗ tree l h (t.put p { n with kvs := kvs' })) := by
  simp only [BTree.replaceKv] at hx
  obtain ⟨n1, n', hn1, hl, hf, hput⟩ := modifyAt_erase hx
  rw [hp] at hn1
  simp only [Option.some.injEq] at hn1
  subst hn1
  obtain ⟨old1, hg, hf⟩ := Exec.bind_eq_ok.1 hf
  obtain ⟨kvs1, hs, hf⟩ := Exec.bind_eq_ok.1 hf
  simp only [Exec.ok.injEq, Prod.mk.injEq] at hf
  obtain ⟨rfl, rfl⟩ := hf
  rw [ATree.erase_kvs] at hg hs
  obtain ⟨A, C, e, hA⟩ := getE_ok hg
  rw [e, setE_mid hA] at hs
  simp only [Exec.ok.injEq] at hs
  subst hs
  refine ⟨A ++ kv :: C, hput _ (by rw [ATree.erase_mk]; simp), ?_⟩
  obtain ⟨l', F, e1, e2⟩ := focus_self l hp hl
  rw [e1, e2 { n with kvs := A ++ kv :: C } rfl]
  refine Triple.callLast (P₀ := tree l' (h - p.length) n) (replaceKv_node e hA) fun r => ?_
  exact Ent.of_eq (sep_assoc ..)

theorem removeRaw_spec {l : Link} {h : Nat} {t n : ATree K V} {t' : Tree K V} {p leaf : List Nat} {idx : Nat} {old : K × V}
    (hp : t.at p = some n) (hx : BTree.removeRaw h t.erase p idx = .ok (t', old, leaf)) :
    Triple E (tree l h t) (removeRaw ⟨h - p.length, n.addr, idx⟩) (fun o => hex fun ta : ATree K V =>
      fact (ta.erase = t' ∧ ta.addr = t.addr ∧ o.1 = old ∧ leaf.length = h ∧ ∃ n', ta.at leaf = some n' ∧ o.2 = ⟨0, n'.addr⟩) ∗ tree l h ta) := by
  simp only [BTree.removeRaw] at hx
  obtain ⟨⟨hn, nn⟩, hnode, hx⟩ := Exec.bind_eq_ok.1 hx
  obtain ⟨n1, hn1, hl, hpair⟩ := nodeAt_erase hnode
  rw [hp] at hn1
  simp only [Option.some.injEq] at hn1
  subst hn1
  simp only [Prod.mk.injEq] at hpair
  obtain ⟨hh, rfl⟩ := hpair
  rw [← hh]
  cases hn with
  | zero =>
    simp only at hx
    obtain ⟨⟨t1, old1⟩, hr, hx⟩ := Exec.bind_eq_ok.1 hx
    simp only [Exec.ok.injEq, Prod.mk.injEq] at hx
    obtain ⟨rfl, rfl, rfl⟩ := hx
    obtain ⟨hlen, kvs', he, htr⟩ := removeLeafKv_spec (E := E) (l := l) (ht := 0) hp hr
    unfold removeRaw
    dsimp only
    rw [if_pos rfl]
    refine Triple.callEq (P₀ := tree l h t) htr ?_
    refine Triple.ofPure ?_
    simp only [sep_emp]
    refine Ent.hex_right (t.put p { n with kvs := kvs' }) ?_
    exact Ent.putFact ⟨he, ATree.put_addr (n' := { n with kvs := kvs' }) hp rfl, trivial, hlen, _, ATree.at_put hp, rfl⟩ (Ent.refl _)
  | succ hn =>
    simp only at hx
    obtain ⟨kv0, hk0, hx⟩ := Exec.bind_eq_ok.1 hx
    obtain ⟨c0, hc, hx⟩ := Exec.bind_eq_ok.1 hx
    obtain ⟨q, hq, hx⟩ := Exec.bind_eq_ok.1 hx
    obtain ⟨ln, hln, hx⟩ := Exec.bind_eq_ok.1 hx
    obtain ⟨_, hreq, hx⟩ := Exec.bind_eq_ok.1 hx
    obtain ⟨⟨t1, kv1⟩, hr, hx⟩ := Exec.bind_eq_ok.1 hx
    obtain ⟨⟨t2, old1⟩, hr2, hx⟩ := Exec.bind_eq_ok.1 hx
    simp only [Exec.ok.injEq, Prod.mk.injEq] at hx
    obtain ⟨rfl, rfl, rfl⟩ := hx
    rw [ATree.erase_kvs] at hk0
    rw [ATree.erase_edges] at hc
    obtain ⟨X, c, Y, e, hi, rfl⟩ := getE_map_ok hc
    have hg : n.edges[idx + 1]? = some c := by rw [e, ← hi]; simp
    obtain ⟨m, hm, hml, rfl⟩ := nodeAt_erase hln
    have hm0 := require_ok hreq
    simp only [ATree.erase_len, decide_eq_true_eq] at hm0
    have hatc : t.at (p ++ [idx + 1]) = some c := by rw [ATree.at_append hp]; simp [ATree.at, hg]
    have hatm : c.at q = some m := by
      have : t.at ((p ++ [idx + 1]) ++ q) = some m := by simpa using hm
      rwa [ATree.at_append hatc] at this
    obtain ⟨hlen, kvs', he, htr⟩ := removeLeafKv_spec (E := E) (l := l) (ht := 0) hm hr
    obtain ⟨n', hn', hna⟩ := ATree.at_put_kvs (kvs := kvs') hm hp
    rw [← he] at hr2
    obtain ⟨kvs2, he2, htr2⟩ := replaceKv_spec (E := E) (l := l) hn' hr2
    obtain ⟨m', hm', hma⟩ := ATree.at_put_kvs (kvs := kvs2) hn' (ATree.at_put (n' := { m with kvs := kvs' }) hm)
    unfold removeRaw
    dsimp only
    rw [if_neg (by simp)]
    refine Triple.callEq (P₀ := tree l h t) (Triple.readPath hp hl fun l' => kvOf_node hk0) ?_
    have hkl : idx < n.kvs.length := by
      obtain ⟨A, C, e, hA⟩ := getE_ok hk0
      rw [e]; simp; omega
    refine Triple.callEq (P₀ := tree l h t) (Triple.readPath hp hl fun l' => newEdge_tree (by omega)) ?_
    refine Triple.callEq (P₀ := tree l h t) (x := ⟨hn, c.addr⟩) (Triple.readPath hp hl fun l' => ?_) ?_
    · rw [← hh]; exact descend_tree hg
    have hlc : (p ++ [idx + 1]).length ≤ h := by simp; omega
    have hhc : hn = h - (p ++ [idx + 1]).length := by simp; omega
    dsimp only
    refine Triple.call (P₀ := tree l h t) (Triple.readPath hatc hlc fun l' => by rw [← hhc]; exact firstLeafEdge_spec hq) fun f => ?_
    simp only [sep_assoc]
    refine Triple.getFact fun hf => ?_
    obtain ⟨m2, hm2, hql, rfl⟩ := hf
    rw [hatm] at hm2
    simp only [Option.some.injEq] at hm2
    subst hm2
    dsimp only
    refine Triple.callEq (P₀ := tree l h t) (x := m.kvs.length) (Triple.readPath hm hml fun l' => lenOf_tree) ?_
    refine Triple.bindReq (by simpa using hm0) ?_
    refine Triple.callEq (P₀ := tree l h t) htr ?_
    rw [← hna]
    refine Triple.callEq (P₀ := tree l h (t.put _ { m with kvs := kvs' })) htr2 ?_
    refine Triple.ofPure ?_
    simp only [sep_emp]
    refine Ent.hex_right ((t.put (p ++ (idx + 1) :: q) { m with kvs := kvs' }).put p { n' with kvs := kvs2 }) ?_
    exact Ent.putFact ⟨he2, by rw [ATree.put_addr (n' := { n' with kvs := kvs2 }) hn' rfl, ATree.put_addr (n' := { m with kvs := kvs' }) hm rfl],
      trivial, hlen, m', hm', by rw [hma]; rfl⟩ (Ent.refl _)

end Verif.Heap
