import Verif.Heap.Proofs.ConsumeBack
/-
`IntoIter` over a map in memory: `next`, `next_back`, and dropping it in any state.
-/
namespace Verif.Heap
open Verif
open Verif.BTree (B MIN_LEN CAPACITY Tree Handle setE sliceInsert sliceRemove Map emptyLeaf inter)

variable {K V Q α β : Type} {E : String → Prop}

namespace PT

/-- A tree of which nothing has been consumed. -/
def ofA : Nat → ATree K V → PT K V
  | 0, t => ⟨t.addr, [], t.kvs, [], []⟩
  | h + 1, t => ⟨t.addr, [], t.kvs, t.edges.map (ofA h), []⟩

@[simp] theorem ofA_addr (h : Nat) (t : ATree K V) : (ofA h t).addr = t.addr := by cases h <;> rfl

theorem ofA_list : ∀ (h : Nat) (t : ATree K V), (ofA h t).list h = BTree.toList h t.erase
  | 0, t => by simp [ofA, list]
  | h + 1, t => by
    rw [BTree.toList_succ]
    simp only [ofA, list, ATree.erase_kvs, ATree.erase_edges, List.map_map]
    congr 1
    exact List.map_congr_left fun c _ => ofA_list h c

/-- Nothing is missing. -/
def Full (h : Nat) (p : PT K V) : Prop := p.Good h ∧ p.LeftFull h ∧ p.RightFull h

theorem tree_ofA : ∀ (h : Nat) (l : Link) (t : ATree K V), Ent (tree l h t) (fact ((ofA h t).Full h) ∗ (ofA h t).mem l h)
  | 0, l, t => by
    rw [tree_zero]
    refine Ent.getFact fun hf => ?_
    refine Ent.fact_right ⟨trivial, rfl, rfl⟩ ?_
    rw [mem_leaf]
    refine Ent.fact_right (by simpa [ofA, len] using hf.2) ?_
    refine Ent.of_eq ?_
    simp only [ATree.node, nd, ofA, len, layOf, hf.1, List.map_nil, List.length_nil, Nat.zero_add, Nat.add_zero, Slots.shifted_zero]
  | h + 1, l, t => by
    have hk : ∀ (cs : List (ATree K V)) (i : Nat), Ent (Heap.kids h t.addr i cs)
        (fact (∀ c ∈ cs, (ofA h c).Full h) ∗ sub h t.addr i (cs.map (ofA h))) := by
      intro cs
      induction cs with
      | nil => intro i; exact Ent.fact_right (by simp) (Ent.refl _)
      | cons c cs ih =>
        intro i
        rw [kids_cons]
        refine Ent.trans (Ent.sep (tree_ofA h _ c) (ih (i + 1))) ?_
        rw [sep_assoc]
        refine Ent.fact_left fun h1 => ?_
        refine Ent.getFact fun h2 => ?_
        refine Ent.fact_right (fun d hd => ?_) (Ent.of_eq rfl)
        rcases List.mem_cons.1 hd with rfl | hd
        · exact h1
        · exact h2 d hd
    rw [tree_succ]
    refine Ent.fact_left fun hf => ?_
    refine Ent.trans (Ent.sep (Ent.refl _) (hk _ _)) ?_
    refine Ent.getFact fun h1 => ?_
    have h2 : ∀ c ∈ t.edges.map (ofA h), c.Full h := fun c hc => by
      obtain ⟨d, hd, rfl⟩ := List.mem_map.1 hc
      exact h1 d hd
    refine Ent.fact_right ⟨⟨?_, fun c hc => (h2 c (List.mem_of_mem_tail hc)).2.1, fun c hc => (h2 c (List.dropLast_subset _ hc)).2.2,
      fun c hc => (h2 c hc).1⟩, ⟨rfl, fun c hc => (h2 c (List.mem_of_mem_head? hc)).2.1⟩,
      ⟨rfl, fun c hc => (h2 c (List.mem_of_getLast? hc)).2.2⟩⟩ ?_
    · simpa [ofA] using hf.1
    · rw [mem, under, sep_left_comm]
      refine Ent.fact_right (by simpa [ofA, len] using hf.2) ?_
      refine Ent.of_eq ?_
      have e1 : (ofA (h + 1) t).node l (h + 1) = t.node l (h + 1) := by
        have e2 : (ofA (h + 1) t).edges (h + 1) = addrs t.edges := by
          simp [edges, ofA, List.map_map, Function.comp_def]
        simp only [node, e2, ATree.node, nd]
        simp only [ofA, len, List.length_nil, Nat.zero_add, Nat.add_zero, Slots.shifted_zero]
      rw [e1]
      rfl

end PT

/-- The owning iterator `it` in memory has the items `l` left; `H` is the height the tree had.  Either the map had the shared
root, or what is left of the tree is still there: exactly the nodes on the way to and between the two ends. -/
def consuming (H : Nat) (it : HIntoIter) (l : List (K × V)) : HProp K V :=
  hex fun x : Option (PT K V × Option Nat) => match x with
    | some (p, pi) => fact (p.Good H ∧ it = ⟨p.first H, p.last H, l.length⟩ ∧ p.list H = l) ∗ p.mem (none, pi) H
    | none => fact (l = [] ∧ it = ⟨⟨0, SHARED, 0⟩, ⟨0, SHARED, 0⟩, 0⟩)

theorem consuming_elim {m : HM K V β} {Qb : β → HProp K V} {H : Nat} {it : HIntoIter} {l : List (K × V)}
    (h1 : ∀ (p : PT K V) pi, p.Good H → it = ⟨p.first H, p.last H, l.length⟩ → p.list H = l → Triple E (p.mem (none, pi) H) m Qb)
    (h2 : l = [] → it = ⟨⟨0, SHARED, 0⟩, ⟨0, SHARED, 0⟩, 0⟩ → Triple E emp m Qb) : Triple E (consuming H it l) m Qb := by
  unfold consuming
  refine Triple.ofHex fun x => ?_
  cases x with
  | none => exact Triple.getFact fun hf => h2 hf.1 hf.2
  | some x => exact Triple.getFact fun hf => h1 _ _ hf.1 hf.2.1 hf.2.2

theorem consuming_intro {H : Nat} {it : HIntoIter} {l : List (K × V)} {p : PT K V} {pi : Option Nat} (h1 : p.Good H)
    (h2 : it = ⟨p.first H, p.last H, l.length⟩) (h3 : p.list H = l) : Ent (p.mem (none, pi) H) (consuming H it l) :=
  Ent.hex_right (some (p, pi)) (Ent.fact_right ⟨h1, h2, h3⟩ (Ent.refl _))

theorem consuming_shared {H : Nat} : Ent emp (consuming H ⟨⟨0, SHARED, 0⟩, ⟨0, SHARED, 0⟩, 0⟩ ([] : List (K × V))) :=
  Ent.hex_right none (Ent.putFact ⟨rfl, rfl⟩ (Ent.refl _))

theorem intoIter_spec {hm : HMap} {M : Map K V} (hl : M.length = (BTree.toList M.height M.root).length) :
    Triple E (rep hm M) (hm.intoIter : HM K V HIntoIter) (fun it => fact (hm.root.height = M.height) ∗ consuming M.height it (BTree.toList M.height M.root)) := by
  refine Triple.ofHex fun ta => ?_
  obtain ⟨H, root, shared, len⟩ := M
  dsimp only at hl ⊢
  cases shared with
  | false =>
    rw [own_owned rfl]
    refine Triple.ofHex fun pi => ?_
    refine Triple.getFact fun hf => ?_
    obtain ⟨rfl, rfl⟩ := hf
    refine Triple.pre ?_ (PT.tree_ofA H _ ta)
    refine Triple.getFact fun hfull => ?_
    obtain ⟨h1, h2, h3⟩ := hfull
    unfold HMap.intoIter
    dsimp only
    have f1 := firstLeafEdge_pt (E := E) (l := (none, pi)) h2 h1
    have f2 := lastLeafEdge_pt (E := E) (l := (none, pi)) h3 h1
    rw [PT.ofA_addr] at f1 f2
    refine Triple.callEq f1 ?_
    refine Triple.callEq f2 ?_
    refine Triple.ofPure ?_
    refine Ent.fact_right rfl ?_
    simp only [sep_emp]
    exact consuming_intro h1 (by rw [hl]) (PT.ofA_list H ta)
  | true =>
    rw [own_shared rfl]
    refine Triple.getFact fun hf => ?_
    obtain ⟨rfl, h1, h2, rfl⟩ := hf
    dsimp only at h1 h2
    subst h1 h2
    simp only [BTree.toList_zero, emptyLeaf, List.length_nil] at hl
    subst hl
    unfold HMap.intoIter
    dsimp only
    show Triple E emp (pure (⟨⟨0, SHARED, 0⟩, ⟨0, SHARED, 0⟩, 0⟩ : HIntoIter)) _
    exact Triple.ofPure (Ent.fact_right rfl consuming_shared)

/-- `nextUp` and the loop in `next`. -/
theorem nextUp_loop : ∀ (h : Nat) (e : HRef), (nextUp h e : HM K V _) = (nextUp 0 e >>= goOn (loopN intoNextStep h))
  | 0, e => by
    rw [show goOn (loopN (K := K) (V := V) intoNextStep 0) = fun x => pure x from funext fun x => by cases x <;> rfl, bind_pure_right]
  | h + 1, e => by
    show (nextUp h e >>= goOn intoNextStep) = _
    rw [nextUp_loop h e, bind_assoc']
    congr 1
    funext x
    cases x with
    | inl s => exact (loopN_snoc _ _ _).symm
    | inr r => rfl

theorem backUp_loop : ∀ (h : Nat) (e : HRef), (backUp h e : HM K V _) = (backUp 0 e >>= goOn (loopN intoNextBackStep h))
  | 0, e => by
    rw [show goOn (loopN (K := K) (V := V) intoNextBackStep 0) = fun x => pure x from funext fun x => by cases x <;> rfl, bind_pure_right]
  | h + 1, e => by
    show (backUp h e >>= goOn intoNextBackStep) = _
    rw [backUp_loop h e, bind_assoc']
    congr 1
    funext x
    cases x with
    | inl s => exact (loopN_snoc _ _ _).symm
    | inr r => rfl

theorem next_eq {H : Nat} {it : HIntoIter} (h : it.length ≠ 0) :
    (it.next H : HM K V _) = (nextUp H it.front >>= fun r => (ended r >>= fun x => pure (some x.1, { it with front := x.2, length := it.length - 1 }))) := by
  rw [nextUp_loop, HIntoIter.next, if_neg h, nextUp, bind_assoc', bind_assoc']
  refine congrArg (fun f => lenOf it.front.node >>= f) (funext fun len => ?_)
  dsimp only
  split
  · simp only [bind_assoc']
    rfl
  · simp only [bind_assoc']
    refine congrArg (fun f => deallocateAndAscend it.front.ref >>= f) (funext fun p => ?_)
    cases p with
    | none => rfl
    | some p => rfl

theorem nextBack_eq {H : Nat} {it : HIntoIter} (h : it.length ≠ 0) :
    (it.nextBack H : HM K V _) = (backUp H it.back >>= fun r => (ended r >>= fun x => pure (some x.1, { it with back := x.2, length := it.length - 1 }))) := by
  rw [backUp_loop, HIntoIter.nextBack, if_neg h, backUp]
  dsimp only
  split
  · simp only [bind_assoc']
    rfl
  · rw [bind_assoc', bind_assoc']
    congr 1
    funext p
    cases p with
    | none => rfl
    | some p => rfl

theorem next_spec {H : Nat} {it : HIntoIter} {l : List (K × V)} :
    Triple E (consuming H it l) (it.next H : HM K V _) (fun o => fact (o.1 = l.head?) ∗ consuming H o.2 l.tail) := by
  refine consuming_elim (fun p pi hg hit hlist => ?_) fun hl hit => ?_
  · subst hit
    cases l with
    | nil =>
      refine Triple.ofPure (Ent.fact_right rfl ?_)
      exact consuming_intro hg rfl hlist
    | cons kv l =>
      rw [next_eq (by simp)]
      dsimp only
      cases hp : p.popFront H with
      | none => rw [PT.popFront_none hg hp] at hlist; cases hlist
      | some x =>
        obtain ⟨kv', p'⟩ := x
        have h1 := PT.popFront_list hg hp
        rw [hlist] at h1
        simp only [List.cons.injEq] at h1
        obtain ⟨rfl, h1⟩ := h1
        have h2 := nextUp_spec (E := E) (l := (none, pi)) hg (fun h => by rw [hp] at h; cases h)
        rw [nextPost_some hp] at h2
        refine Triple.callEq h2 ?_
        simp only [sep_emp]
        show Triple E _ (pure (_, _)) _
        refine Triple.ofPure (Ent.fact_right rfl ?_)
        refine consuming_intro (PT.popFront_good hg hp) ?_ h1.symm
        simp [PT.popFront_last hg hp]
  · subst hl hit
    exact Triple.ofPure (Ent.fact_right rfl consuming_shared)

theorem nextBack_spec {H : Nat} {it : HIntoIter} {l : List (K × V)} :
    Triple E (consuming H it l) (it.nextBack H : HM K V _) (fun o => fact (o.1 = l.getLast?) ∗ consuming H o.2 l.dropLast) := by
  refine consuming_elim (fun p pi hg hit hlist => ?_) fun hl hit => ?_
  · subst hit
    cases hl : l.getLast? with
    | none =>
      have := List.getLast?_eq_none_iff.1 hl
      subst this
      refine Triple.ofPure (Ent.fact_right rfl ?_)
      exact consuming_intro hg rfl hlist
    | some kv =>
      obtain ⟨l, rfl⟩ := List.getLast?_eq_some_iff.1 hl
      rw [nextBack_eq (by simp)]
      dsimp only
      cases hp : p.popBack H with
      | none => rw [PT.popBack_none hg hp] at hlist; simp at hlist
      | some x =>
        obtain ⟨kv', p'⟩ := x
        have h1 := PT.popBack_list hg hp
        rw [hlist] at h1
        obtain ⟨h4, h3⟩ := List.append_inj' h1 rfl
        simp only [List.cons.injEq, and_true] at h3
        subst h3
        have h2 := backUp_spec (E := E) (l := (none, pi)) hg (fun h => by rw [hp] at h; cases h)
        rw [backPost_some hp] at h2
        refine Triple.callEq h2 ?_
        simp only [sep_emp]
        show Triple E _ (pure (_, _)) _
        refine Triple.ofPure (Ent.fact_right rfl ?_)
        rw [List.dropLast_concat]
        refine consuming_intro (PT.popBack_good hg hp) ?_ h4.symm
        simp [PT.popBack_first hg hp]
  · subst hl hit
    exact Triple.ofPure (Ent.fact_right rfl consuming_shared)

theorem ask_spec {H : Nat} {it : HIntoIter} {l : List (K × V)} (e : Spec.End) :
    Triple E (consuming H it l) (it.ask H e : HM K V _) (fun o => fact (o.1 = (Spec.pop e l).1) ∗ consuming H o.2 (Spec.pop e l).2) := by
  cases e with
  | front =>
    have := next_spec (E := E) (H := H) (it := it) (l := l)
    cases l <;> exact this
  | back => exact nextBack_spec

theorem asks_spec {H : Nat} : ∀ (es : List Spec.End) {it : HIntoIter} {l : List (K × V)},
    Triple E (consuming H it l) (it.asks H es : HM K V _) (fun o => fact (o.1 = (Spec.pops es l).1) ∗ consuming H o.2 (Spec.pops es l).2)
  | [], it, l => Triple.ofPure (Ent.fact_right rfl (Ent.refl _))
  | e :: es, it, l => by
    unfold HIntoIter.asks
    refine Triple.seq (ask_spec e) fun x => ?_
    refine Triple.ofFact fun hx => ?_
    refine Triple.seq (asks_spec es) fun r => ?_
    refine Triple.ofFact fun hr => ?_
    refine Triple.ofPure (Ent.fact_right ?_ (Ent.refl _))
    rw [hx, hr]; rfl

/-! ### dropping -/

theorem drain_spec {H : Nat} : ∀ (n : Nat) {it : HIntoIter} {l : List (K × V)}, l.length < n →
    Triple E (consuming H it l) (it.drain H n : HM K V _) (fun o => fact (o.1 = l) ∗ consuming H o.2 ([] : List (K × V)))
  | 0, _, _, h => by omega
  | n + 1, it, l, h => by
    unfold HIntoIter.drain
    refine Triple.seq next_spec fun x => ?_
    obtain ⟨x, it'⟩ := x
    refine Triple.ofFact fun hx => ?_
    dsimp only at hx ⊢
    cases l with
    | nil =>
      subst hx
      exact Triple.ofPure (Ent.fact_right rfl (Ent.refl _))
    | cons kv l =>
      subst hx
      dsimp only [List.head?_cons]
      refine Triple.seq (drain_spec n (by simpa using h)) fun r => ?_
      obtain ⟨r, it''⟩ := r
      refine Triple.ofFact fun hr => ?_
      dsimp only at hr ⊢
      subst hr
      exact Triple.ofPure (Ent.fact_right rfl (Ent.refl _))

/-- What is left of a tree when everything has been consumed is one path, which is freed from the leaf up. -/
theorem freeUp_spec : ∀ {h : Nat} {l : Link} {p : PT K V}, p.Good h → p.list h = [] → (l.1 = none ∨ ∃ pa pi, l = (some pa, some pi)) →
    Triple E (p.mem l h) (loopN freeUpStep (h + 1) (p.first h).ref : HM K V _) (fun o => fact (o = match l.1 with
      | none => .inr ()
      | some pa => .inl ⟨h + 1, pa⟩))
  | 0, l, p, hg, he, hl => by
    obtain ⟨a, pre, kvs, ks, post⟩ := p
    rw [PT.mem_leaf]
    refine Triple.getFact fun hcap => ?_
    rw [loopN_succ]
    unfold freeUpStep
    refine Triple.assoc ?_
    rw [show (PT.first 0 (⟨a, pre, kvs, ks, post⟩ : PT K V)).ref = ⟨0, a⟩ from rfl]
    rcases hl with hl | ⟨pa, pi, hl⟩
    · obtain ⟨l1, l2⟩ := l
      dsimp only at hl
      subst hl
      refine Triple.bindDeallocNone (a := a) rfl rfl ?_
      exact Triple.ofPure (Ent.putFact rfl (Ent.refl _))
    · subst hl
      refine Triple.bindDealloc (a := a) rfl rfl rfl ?_
      exact Triple.ofPure (Ent.putFact rfl (Ent.refl _))
  | h + 1, l, p, hg, he, hl => by
    obtain ⟨c, cs, hk, hlen⟩ := hg.kids_cons
    obtain ⟨a, pre, kvs, ks, post⟩ := p
    dsimp only at hk hlen
    subst hk
    have hgc := hg.2.2.2 c (by simp)
    have hkv : kvs = [] := by
      cases kvs with
      | nil => rfl
      | cons kv kvs =>
        match cs, hlen with
        | c2 :: cs, _ => simp [PT.list, inter] at he
    subst hkv
    have hcs : cs = [] := List.eq_nil_of_length_eq_zero hlen
    subst hcs
    have hec : c.list h = [] := by simpa [PT.list, inter] using he
    rw [PT.mem_cons]
    refine Triple.getFact fun hcap => ?_
    rw [loopN_snoc]
    rw [show PT.first (h + 1) (⟨a, pre, [], [c], post⟩ : PT K V) = c.first h from rfl]
    refine Triple.call (P₀ := c.mem (some a, some pre.length) h) (freeUp_spec hgc hec (.inr ⟨_, _, rfl⟩)) fun o => ?_
    refine Triple.getFact fun ho => ?_
    subst ho
    simp only [goOn]
    unfold freeUpStep
    rw [show PT.sub h a (pre.length + 1) ([] : List (PT K V)) = emp from rfl, sep_emp]
    rcases hl with hl | ⟨pa, pi, hl⟩
    · obtain ⟨l1, l2⟩ := l
      dsimp only at hl
      subst hl
      refine Triple.bindDeallocNone (a := a) rfl rfl ?_
      exact Triple.ofPure (Ent.putFact rfl (Ent.refl _))
    · subst hl
      refine Triple.bindDealloc (a := a) rfl rfl rfl ?_
      exact Triple.ofPure (Ent.putFact rfl (Ent.refl _))

theorem mem_first_pos : ∀ {h : Nat} {l : Link} {p : PT K V}, p.Good h → Ent (p.mem l h) (fact ((p.first h).node ≠ SHARED) ∗ p.mem l h)
  | 0, l, p, _ => by
    unfold PT.mem
    rw [← sep_assoc]
    exact Ent.frame pts_pos _
  | h + 1, l, p, hg => by
    obtain ⟨c, cs, hk, hlen⟩ := hg.kids_cons
    obtain ⟨a, pre, kvs, ks, post⟩ := p
    dsimp only at hk hlen
    subst hk
    rw [PT.mem_cons]
    refine Ent.fact_left fun hcap => ?_
    refine Ent.trans (Ent.sep (Ent.refl _) (Ent.sep (mem_first_pos (hg.2.2.2 c (by simp))) (Ent.refl _))) ?_
    simp only [sep_assoc]
    refine Ent.getFact fun hne => ?_
    refine Ent.fact_right hne (Ent.fact_right hcap ?_)
    ent_ac

theorem drop_spec {H : Nat} {it : HIntoIter} {l : List (K × V)} (hn : it.length = l.length) :
    Triple E (consuming H it l) (it.drop H : HM K V _) (fun o => fact (o = l)) := by
  unfold HIntoIter.drop
  refine Triple.seq (drain_spec _ (by omega)) fun x => ?_
  obtain ⟨l', it'⟩ := x
  refine Triple.ofFact fun hx => ?_
  dsimp only at hx ⊢
  subst hx
  refine consuming_elim (fun p pi hg hit hlist => ?_) fun _ hit => ?_
  · subst hit
    refine Triple.pre ?_ (mem_first_pos hg)
    refine Triple.ofFact fun hne => ?_
    dsimp only
    rw [if_neg hne]
    refine Triple.callEq (Q₀ := emp) ((freeUp_spec (E := E) (l := (none, pi)) hg hlist (.inl rfl)).post fun o => Ent.of_eq (sep_emp _).symm) ?_
    exact Triple.ofPure (Ent.putFact rfl (Ent.of_eq (sep_emp _)))
  · subst hit
    exact Triple.ofPure (Ent.putFact rfl (Ent.refl _))

theorem consuming_length {H : Nat} {it : HIntoIter} {l : List (K × V)} :
    Ent (consuming H it l) (fact (it.length = l.length) ∗ consuming H it l) := by
  intro w hw
  obtain ⟨x, hw⟩ := hw
  refine fact_sep.2 ⟨?_, x, hw⟩
  match x, hw with
  | some (p, pi), hw => rw [(fact_sep.1 hw).1.2.1]
  | none, hw => rw [hw.1.2, hw.1.1]; rfl

end Verif.Heap
