import Verif.Heap.Append
import Verif.Heap.Proofs.CloneMap
import Verif.BTree.Proofs.Append
/-
`append` in memory: the two old trees are taken apart completely and freed, the new one holds the merged sequence.
-/
namespace Verif.Heap
open Verif
open Verif.BTree (B MIN_LEN CAPACITY Tree Handle Map emptyLeaf emptySpine setE mergeIter)

variable {K V Q α β : Type} {E : String → Prop}

/-! ### the merge -/

/-- A peekable consuming iterator that has the items `l` left to yield. -/
def peeking (p : Peek K V) (l : List (K × V)) : HProp K V :=
  match p.peeked with
  | none => consuming p.bnd p.it l
  | some x => fact (x = l.head?) ∗ consuming p.bnd p.it l.tail

theorem peeking_none {it : HIntoIter} {b : Nat} {l : List (K × V)} : peeking ⟨it, b, none⟩ l = consuming b it l := rfl
theorem peeking_some {it : HIntoIter} {b : Nat} {x : Option (K × V)} {l : List (K × V)} :
    peeking ⟨it, b, some x⟩ l = (fact (x = l.head?) ∗ consuming b it l.tail) := rfl

theorem peek_spec {p : Peek K V} {l : List (K × V)} :
    Triple E (peeking p l) p.peek (fun o => fact (o.1 = l.head?) ∗ peeking o.2 l) := by
  obtain ⟨it, b, pk⟩ := p
  cases pk with
  | none =>
    rw [peeking_none]
    unfold Peek.peek
    dsimp only
    refine Triple.seq next_spec fun x => ?_
    refine Triple.getFact fun hx => ?_
    refine Triple.ofPure ?_
    refine Ent.fact_right hx ?_
    dsimp only
    rw [peeking_some]
    exact Ent.fact_right hx (Ent.refl _)
  | some x =>
    rw [peeking_some]
    unfold Peek.peek
    dsimp only
    refine Triple.getFact fun hx => ?_
    refine Triple.ofPure ?_
    refine Ent.fact_right hx ?_
    dsimp only
    rw [peeking_some]
    exact Ent.fact_right hx (Ent.refl _)

theorem peekNext_spec {p : Peek K V} {l : List (K × V)} :
    Triple E (peeking p l) p.next (fun o => fact (o.1 = l.head?) ∗ peeking o.2 l.tail) := by
  obtain ⟨it, b, pk⟩ := p
  cases pk with
  | none =>
    rw [peeking_none]
    unfold Peek.next
    dsimp only
    refine Triple.seq next_spec fun x => ?_
    refine Triple.getFact fun hx => ?_
    refine Triple.ofPure ?_
    refine Ent.fact_right hx ?_
    dsimp only
    rw [peeking_none]
    exact Ent.refl _
  | some x =>
    rw [peeking_some]
    unfold Peek.next
    dsimp only
    refine Triple.getFact fun hx => ?_
    refine Triple.ofPure ?_
    refine Ent.fact_right hx ?_
    dsimp only
    rw [peeking_none]
    exact Ent.refl _

/-- Dropping it drops the items it has left and frees the whole tree. -/
theorem peekDrop_spec {p : Peek K V} : Triple E (peeking p []) p.drop (fun o => fact (o = [])) := by
  obtain ⟨it, b, pk⟩ := p
  unfold Peek.drop
  have hd : Triple E (consuming b it ([] : List (K × V))) (it.drop b : HM K V _) (fun o => fact (o = [])) := by
    refine Triple.pre ?_ consuming_length
    exact Triple.getFact fun hn => drop_spec hn
  cases pk with
  | none =>
    rw [peeking_none]
    refine Triple.seq hd fun l => ?_
    exact Triple.ofPure (Ent.refl _)
  | some x =>
    rw [peeking_some]
    refine Triple.getFact fun hx => ?_
    subst hx
    refine Triple.seq hd fun l => ?_
    exact Triple.ofPure (Ent.refl _)

theorem mergeNext_spec [Ord K] {m : HMerge K V} {l r : List (K × V)} :
    Triple E (peeking m.left l ∗ peeking m.right r) m.next
      (fun o => hex fun x : List (K × V) × List (K × V) =>
        fact (o.1 = (mergeIter l r).head? ∧ mergeIter x.1 x.2 = (mergeIter l r).tail ∧ (o.1 = none → x.1 = [] ∧ x.2 = []) ∧
          x.1.length + x.2.length ≤ l.length + r.length) ∗
        peeking o.2.left x.1 ∗ peeking o.2.right x.2) := by
  unfold HMerge.next
  refine Triple.call (P₀ := peeking m.left l) peek_spec fun a => ?_
  rw [sep_assoc]
  refine Triple.getFact fun ha => ?_
  refine Triple.call (P₀ := peeking m.right r) peek_spec fun b => ?_
  rw [sep_assoc]
  refine Triple.getFact fun hb => ?_
  rw [ha, hb]
  cases l with
  | nil =>
    cases r with
    | nil =>
      refine Triple.ofPure (Ent.hex_right ([], []) ?_)
      refine Ent.fact_right ⟨by simp [mergeIter], by simp [mergeIter], fun _ => ⟨rfl, rfl⟩, Nat.le_refl _⟩ ?_
      ent_ac
    | cons y r =>
      dsimp only [List.head?]
      refine Triple.call (P₀ := peeking b.2 (y :: r)) peekNext_spec fun o => ?_
      rw [sep_assoc]
      refine Triple.getFact fun ho => ?_
      refine Triple.ofPure (Ent.hex_right ([], r) ?_)
      refine Ent.fact_right ⟨by simp [mergeIter, ho], by simp [mergeIter], by simp [ho], by simp⟩ ?_
      dsimp only [List.tail]
      ent_ac
  | cons x l =>
    cases r with
    | nil =>
      dsimp only [List.head?]
      refine Triple.call (P₀ := peeking a.2 (x :: l)) peekNext_spec fun o => ?_
      rw [sep_assoc]
      refine Triple.getFact fun ho => ?_
      refine Triple.ofPure (Ent.hex_right (l, []) ?_)
      refine Ent.fact_right ⟨by simp [BTree.mergeIter_nil_right, ho], by simp [BTree.mergeIter_nil_right], by simp [ho], by simp⟩ ?_
      dsimp only [List.tail]
      ent_ac
    | cons y r =>
      dsimp only [List.head?]
      rw [show mergeIter (x :: l) (y :: r) = (match compare x.1 y.1 with
        | .lt => x :: mergeIter l (y :: r)
        | .gt => y :: mergeIter (x :: l) r
        | .eq => y :: mergeIter l r) by rw [mergeIter]; cases compare x.1 y.1 <;> rfl]
      cases hc : compare x.1 y.1 with
      | lt =>
        dsimp only
        refine Triple.call (P₀ := peeking a.2 (x :: l)) peekNext_spec fun o => ?_
        rw [sep_assoc]
        refine Triple.getFact fun ho => ?_
        refine Triple.ofPure (Ent.hex_right (l, y :: r) ?_)
        refine Ent.fact_right ⟨by simp [ho], by simp, by simp [ho], by simp⟩ ?_
        dsimp only [List.tail]
        ent_ac
      | gt =>
        dsimp only
        refine Triple.call (P₀ := peeking b.2 (y :: r)) peekNext_spec fun o => ?_
        rw [sep_assoc]
        refine Triple.getFact fun ho => ?_
        refine Triple.ofPure (Ent.hex_right (x :: l, r) ?_)
        refine Ent.fact_right ⟨by simp [ho], by simp, by simp [ho], by simp⟩ ?_
        dsimp only [List.tail]
        ent_ac
      | eq =>
        dsimp only
        refine Triple.call (P₀ := peeking a.2 (x :: l)) peekNext_spec fun o => ?_
        rw [sep_assoc]
        refine Triple.getFact fun ho => ?_
        refine Triple.call (P₀ := peeking b.2 (y :: r)) peekNext_spec fun o' => ?_
        rw [sep_assoc]
        refine Triple.getFact fun ho' => ?_
        refine Triple.ofPure (Ent.hex_right (l, r) ?_)
        refine Ent.fact_right ⟨by simp [ho'], by simp, by simp [ho'], by simp; omega⟩ ?_
        dsimp only [List.tail]
        ent_ac

/-! ### the right spine -/

/-- The last leaf. -/
def lastLeaf : Nat → ATree K V → ATree K V
  | 0, t => t
  | h + 1, t =>
    match t.edges.getLast? with
    | some c => lastLeaf h c
    | none => t

/-- Every node of the right spine is full. -/
def SpineFull : Nat → ATree K V → Prop
  | 0, t => ¬ t.kvs.length < CAPACITY
  | h + 1, t => ¬ t.kvs.length < CAPACITY ∧ ∃ X c, t.edges = X ++ [c] ∧ SpineFull h c

theorem lastLeaf_succ {h : Nat} {t c : ATree K V} {X : List (ATree K V)} (e : t.edges = X ++ [c]) : lastLeaf (h + 1) t = lastLeaf h c := by
  rw [lastLeaf, e]
  simp

theorem build_edges {h : Nat} {t : ATree K V} (hb : BTree.Build (h + 1) t.erase) :
    ∃ X c, t.edges = X ++ [c] ∧ X.length = t.kvs.length ∧ c.erase.len ≤ 11 ∧ BTree.Build h c.erase := by
  obtain ⟨a, kvs, es⟩ := t
  rw [ATree.erase_mk] at hb
  generalize e : es.map ATree.erase = es' at hb
  cases hb with
  | node ks X c hX hXi hlen hc =>
  rcases List.eq_nil_or_concat es with rfl | ⟨es, c', rfl⟩
  · simp at e
  · simp only [List.concat_eq_append, List.map_append, List.map_cons, List.map_nil] at e
    obtain ⟨e1, e2⟩ := List.append_inj' e rfl
    simp only [List.cons.injEq, and_true] at e2
    subst e1 e2
    exact ⟨es, c', by simp, by simpa using hX, hlen, hc⟩

theorem pushSorted_some {h : Nat} {ks : List (K × V)} {X : List (Tree K V)} {c c' : Tree K V} {kv : K × V} {a a' : Alloc} (hX : X.length = ks.length)
    (hc : BTree.pushSorted h c kv a = .ok (some c', a')) : BTree.pushSorted (h + 1) ⟨ks, X ++ [c]⟩ kv a = .ok (some ⟨ks, X ++ [c']⟩, a') := by
  have hg : getE (X ++ [c]) ks.length = .ok c := by rw [← hX]; simp
  have hs : setE (X ++ [c]) ks.length c' = .ok (X ++ [c']) := by rw [← hX]; simp
  simp [BTree.pushSorted, Tree.len, hg, hc, hs]

theorem pushSorted_panic {h : Nat} {ks : List (K × V)} {X : List (Tree K V)} {c : Tree K V} {kv : K × V} {a : Alloc} {msg : String} (hX : X.length = ks.length)
    (hc : BTree.pushSorted h c kv a = .panic msg) : BTree.pushSorted (h + 1) ⟨ks, X ++ [c]⟩ kv a = .panic msg := by
  have hg : getE (X ++ [c]) ks.length = .ok c := by rw [← hX]; simp
  simp [BTree.pushSorted, Tree.len, hg, hc]

theorem pushSorted_none {h : Nat} {ks : List (K × V)} {X : List (Tree K V)} {c : Tree K V} {kv : K × V} {a a' : Alloc} (hX : X.length = ks.length)
    (hc : BTree.pushSorted h c kv a = .ok (none, a')) : BTree.pushSorted (h + 1) ⟨ks, X ++ [c]⟩ kv a =
      if ks.length < CAPACITY then
        if (BTree.Alloc.requests (h + 1) a').1 then .ok (some ⟨ks ++ [kv], X ++ [c] ++ [emptySpine h]⟩, (BTree.Alloc.requests (h + 1) a').2)
        else .panic "Out of Mem"
      else .ok (none, a') := by
  have hg : getE (X ++ [c]) ks.length = .ok c := by rw [← hX]; simp
  by_cases hk : ks.length < CAPACITY
  · have hk' : ks.length < 11 := hk
    simp [BTree.pushSorted, Tree.len, hg, hc, hk', BTree.Tree.pushInternal]
  · have hk' : ¬ ks.length < 11 := hk
    simp [BTree.pushSorted, Tree.len, hg, hc, hk']

/-- One round of the building loop, seen from the right spine: it is full; or the last leaf has room; or
some node has room and the spine below it is full. -/
theorem spine_cases : ∀ {h : Nat} {t : ATree K V}, BTree.Build h t.erase → t.erase.len ≤ 11 →
    (SpineFull h t ∧ ∀ kv a, BTree.pushSorted h t.erase kv a = .ok (none, a)) ∨
    (∃ p n, t.at p = some n ∧ p.length = h ∧ lastLeaf h t = n ∧ n.kvs.length < CAPACITY ∧ (∀ n', lastLeaf h (t.put p n') = n') ∧
      ∀ kv a n', n'.erase = ⟨n.kvs ++ [kv], []⟩ → BTree.pushSorted h t.erase kv a = .ok (some (t.put p n').erase, a)) ∨
    (∃ p n j X c, t.at p = some n ∧ h = p.length + (j + 1) ∧ n.edges = X ++ [c] ∧ X.length = n.kvs.length ∧ SpineFull j c ∧ lastLeaf h t = lastLeaf j c ∧
      n.kvs.length < CAPACITY ∧ (∀ n', lastLeaf h (t.put p n') = lastLeaf (j + 1) n') ∧
      ∀ kv a n', n'.erase = ⟨n.erase.kvs ++ [kv], n.erase.edges ++ [emptySpine j]⟩ →
        BTree.pushSorted h t.erase kv a = if (BTree.Alloc.requests (j + 1) a).1 then .ok (some (t.put p n').erase, (BTree.Alloc.requests (j + 1) a).2)
          else .panic "Out of Mem")
  | 0, t, hb, hl => by
    obtain ⟨a, kvs, es⟩ := t
    by_cases hc : kvs.length < CAPACITY
    · refine .inr (.inl ⟨[], ⟨a, kvs, es⟩, rfl, rfl, rfl, hc, fun _ => rfl, fun kv a n' hn => ?_⟩)
      have : es.map ATree.erase = [] := by
        rw [ATree.erase_mk] at hb
        generalize e : es.map ATree.erase = es' at hb
        cases hb with | leaf ks => rfl
      have hc' : kvs.length < 11 := hc
      simp [ATree.put, hn, BTree.pushSorted, BTree.Tree.pushLeaf, ATree.erase_mk, this, BTree.Tree.len, hc']
    · refine .inl ⟨hc, fun kv a => ?_⟩
      simp only [BTree.pushSorted, ATree.erase_len, hc, if_false]
  | h + 1, t, hb, hl => by
    obtain ⟨X, c, e, hX, hcl, hcb⟩ := build_edges hb
    obtain ⟨a, kvs, es⟩ := t
    dsimp only at e hX
    subst e
    have hX' : (X.map ATree.erase).length = kvs.length := by simpa using hX
    have he : (⟨a, kvs, X ++ [c]⟩ : ATree K V).erase = ⟨kvs, X.map ATree.erase ++ [c.erase]⟩ := by rw [ATree.erase_mk]; simp
    have hput : ∀ p n', (⟨a, kvs, X ++ [c]⟩ : ATree K V).put (kvs.length :: p) n' = ⟨a, kvs, X ++ [c.put p n']⟩ := fun p n' => ATree.put_cons hX
    have heput : ∀ p n', ((⟨a, kvs, X ++ [c]⟩ : ATree K V).put (kvs.length :: p) n').erase = ⟨kvs, X.map ATree.erase ++ [(c.put p n').erase]⟩ := fun p n' => by
      rw [hput, ATree.erase_mk]; simp
    rcases spine_cases hcb hcl with ⟨h1, h2⟩ | ⟨p, n, h1, h2, h3, h4, h5, h6⟩ | ⟨p, n, j, Y, d, h1, h2, h3, h4, h5, h6, h7, h8, h9⟩
    · by_cases hc : kvs.length < CAPACITY
      · refine .inr (.inr ⟨[], ⟨a, kvs, X ++ [c]⟩, h, X, c, rfl, by simp, rfl, hX, h1, lastLeaf_succ rfl, hc, fun _ => rfl, fun kv al n' hn => ?_⟩)
        rw [he, pushSorted_none hX' (h2 kv al), if_pos hc, ATree.put, hn, he]
      · refine .inl ⟨⟨hc, X, c, rfl, h1⟩, fun kv al => ?_⟩
        rw [he, pushSorted_none hX' (h2 kv al), if_neg hc]
    · refine .inr (.inl ⟨kvs.length :: p, n, by rw [ATree.at_cons hX]; exact h1, by simp [h2], by rw [lastLeaf_succ rfl, h3], h4, fun n' => ?_, fun kv al n' hn => ?_⟩)
      · rw [hput, lastLeaf_succ rfl, h5]
      · rw [he, heput, pushSorted_some hX' (h6 kv al n' hn)]
    · refine .inr (.inr ⟨kvs.length :: p, n, j, Y, d, by rw [ATree.at_cons hX]; exact h1, by simp; omega, h3, h4, h5, by rw [lastLeaf_succ rfl, h6], h7,
        fun n' => ?_, fun kv al n' hn => ?_⟩)
      · rw [hput, lastLeaf_succ rfl, h8]
      · have := h9 kv al n' hn
        rw [he, heput]
        cases hr : (BTree.Alloc.requests (j + 1) al).1 with
        | true =>
          simp only [hr, if_true] at this ⊢
          exact pushSorted_some hX' this
        | false =>
          simp only [hr, Bool.false_eq_true, if_false] at this ⊢
          exact pushSorted_panic hX' this

theorem lastLeafEdge_last : ∀ {h : Nat} {l : Link} {t : ATree K V},
    Triple E (tree l h t) (lastLeafEdge h t.addr) (fun r => fact (r.ref = ⟨0, (lastLeaf h t).addr⟩) ∗ tree l h t)
  | 0, l, t => by
    unfold lastLeafEdge
    refine Triple.callEq (P₀ := tree l 0 t) lenOf_tree ?_
    simp only [sep_emp]
    refine (newEdge_tree (Nat.le_refl _)).post fun r => ?_
    exact Ent.getFact fun e => Ent.putFact (by rw [e]; rfl) (Ent.refl _)
  | h + 1, l, t => by
    refine Triple.pre ?_ tree_shape
    refine Triple.getFact fun hs => ?_
    have hs2 : t.edges.length = t.kvs.length + 1 := hs.2
    rcases List.eq_nil_or_concat t.edges with e | ⟨X, c, e⟩
    · rw [e] at hs2; simp at hs2
    rw [List.concat_eq_append] at e
    have hX : X.length = t.kvs.length := by rw [e] at hs2; simpa using hs2
    unfold lastLeafEdge
    refine Triple.callEq (P₀ := tree l (h + 1) t) lenOf_tree ?_
    refine Triple.callEq (P₀ := tree l (h + 1) t) (newEdge_tree (Nat.le_refl _)) ?_
    refine Triple.callEq (P₀ := tree l (h + 1) t) (descend_tree (c := c) (by rw [e, ← hX]; simp)) ?_
    simp only [sep_emp]
    rw [lastLeaf_succ e]
    exact Triple.readPath (at_one e rfl) (by simp) fun l' => lastLeafEdge_last

/-- Going up a full right spine ends at its top. -/
theorem climb_full {root : NRef} : ∀ {h : Nat} {l : Link} {t : ATree K V}, SpineFull h t →
    Triple E (tree l h t) (loopN (climbStep root) h ⟨0, (lastLeaf h t).addr⟩) (fun r => fact (r = .inl ⟨h, t.addr⟩) ∗ tree l h t)
  | 0, l, t, _ => Triple.ofPure (Ent.fact_right rfl (Ent.refl _))
  | h + 1, l, t, hf => by
    obtain ⟨hk, X, c, e, hc⟩ := hf
    rw [loopN_snoc, lastLeaf_succ e]
    refine Triple.callEq (P₀ := tree l (h + 1) t) (Triple.readPath (at_one e rfl) (by simp) fun l' => climb_full hc) ?_
    simp only [sep_emp]
    show Triple E _ (climbStep root ⟨h, c.addr⟩) _
    unfold climbStep
    refine Triple.callEq (P₀ := tree l (h + 1) t) (ascend_child e rfl) ?_
    dsimp only
    refine Triple.callEq (P₀ := tree l (h + 1) t) lenOf_tree ?_
    simp only [sep_emp]
    rw [if_neg hk]
    exact Triple.ofPure (Ent.fact_right rfl (Ent.refl _))

theorem loopN_add {σ ρ : Type} (step : σ → HM K V (σ ⊕ ρ)) : ∀ (a b : Nat) (s : σ), loopN step (a + b) s = (loopN step a s >>= goOn (loopN step b))
  | 0, b, s => by rw [Nat.zero_add]; rfl
  | a + 1, b, s => by
    rw [show a + 1 + b = (a + b) + 1 by omega, loopN_succ, loopN_succ, bind_assoc']
    refine congrArg (fun f => step s >>= f) (funext fun x => ?_)
    cases x with
    | inl s => exact loopN_add step a b s
    | inr r => rfl

/-- Going up a right spine that is full below the node `n`. -/
theorem climb_open {root : NRef} {l : Link} {j k : Nat} {n c : ATree K V} {X : List (ATree K V)} (e : n.edges = X ++ [c]) (hc : SpineFull j c)
    (hn : n.kvs.length < CAPACITY) :
    Triple E (tree l (j + 1) n) (loopN (climbStep root) (j + (k + 1)) ⟨0, (lastLeaf j c).addr⟩)
      (fun r => fact (r = .inr (⟨j + 1, n.addr⟩, root)) ∗ tree l (j + 1) n) := by
  rw [loopN_add]
  refine Triple.callEq (P₀ := tree l (j + 1) n) (Triple.readPath (at_one e rfl) (by simp) fun l' => climb_full hc) ?_
  simp only [sep_emp]
  show Triple E _ (loopN (climbStep root) (k + 1) ⟨j, c.addr⟩) _
  rw [loopN_succ]
  unfold climbStep
  refine Triple.assoc ?_
  refine Triple.callEq (P₀ := tree l (j + 1) n) (ascend_child e rfl) ?_
  dsimp only
  refine Triple.assoc ?_
  refine Triple.callEq (P₀ := tree l (j + 1) n) lenOf_tree ?_
  simp only [sep_emp]
  rw [if_pos hn]
  exact Triple.ofPure (Ent.fact_right rfl (Ent.refl _))

theorem pushInternal_tree {l le : Link} {h : Nat} {t s : ATree K V} {kv : K × V} (hc : t.kvs.length < CAPACITY) :
    Triple E (tree l (h + 1) t ∗ tree le h s) (pushInternal ⟨h + 1, t.addr⟩ kv ⟨h, s.addr⟩) (fun _ => tree l (h + 1) ⟨t.addr, t.kvs ++ [kv], t.edges ++ [s]⟩) := by
  obtain ⟨a, kvs, es⟩ := t
  dsimp only at hc ⊢
  rw [tree_internal]
  simp only [sep_assoc]
  refine Triple.ofFact fun hf => ?_
  refine Triple.callLast (P₀ := pts a (nd .internal l kvs (addrs es)) ∗ tree le h s) (pushInternal_spec hf.1 hc) fun _ => ?_
  rw [tree_internal']
  refine Ent.putFact ⟨by simp; omega, by len_omega⟩ ?_
  rw [kids_nil, hf.1]
  simp only [addrs, List.map_append, List.map_cons, List.map_nil]
  ent_ac

theorem growRight_spec {l : Link} {j : Nat} {n : ATree K V} {kv : K × V} {al : Alloc} (hn : n.kvs.length < CAPACITY)
    (hE : (BTree.Alloc.requests (j + 1) al).1 = false → E "Out of Mem") :
    Triple E (tree l (j + 1) n ∗ sched al) (growRight ⟨j + 1, n.addr⟩ kv) (fun c => hex fun n' : ATree K V =>
      fact ((BTree.Alloc.requests (j + 1) al).1 = true ∧ n'.addr = n.addr ∧ n'.erase = ⟨n.erase.kvs ++ [kv], n.erase.edges ++ [emptySpine j]⟩ ∧
        c = ⟨0, (lastLeaf (j + 1) n').addr⟩) ∗ tree l (j + 1) n' ∗ sched (BTree.Alloc.requests (j + 1) al).2) := by
  unfold growRight
  simp only [BTree.Alloc.requests] at hE ⊢
  refine Triple.call (P₀ := sched al) newLeaf_spec fun o => ?_
  cases o with
  | none =>
    dsimp only
    simp only [sep_assoc]
    refine Triple.getFact fun hno => ?_
    exact Triple.ofPanic (hE (by simp [hno]))
  | some r =>
    dsimp only
    simp only [sep_assoc]
    refine Triple.getFact fun hyes => ?_
    simp only [hyes, if_true] at hE ⊢
    simp only [Nat.add_sub_cancel]
    refine Triple.call (P₀ := sched al.request.2 ∗ rooted r 0 (emptySpine 0 : Tree K V)) pushLevels_ref fun x => ?_
    simp only [hex_sep, sep_hex]
    refine Triple.ofHex fun h' => ?_
    simp only [sep_assoc]
    refine Triple.getFact fun hf => ?_
    obtain ⟨hf1, hf2⟩ := hf
    rw [hf1]
    cases hb : (BTree.Alloc.requests j al.request.2).1 with
    | false =>
      simp only [Bool.false_eq_true, if_false]
      exact Triple.ofPanic (hE hb)
    | true =>
      obtain rfl : h' = j := by have := hf2 hb; omega
      simp only [if_true]
      refine Triple.pre (P := rooted x.1 h' (emptySpine h' : Tree K V) ∗ tree l (h' + 1) n ∗ sched (BTree.Alloc.requests h' al.request.2).2) ?_ (by ent_ac)
      refine rooted_elim fun ts pi hes hr => ?_
      rw [hr]
      refine Triple.call (P₀ := tree l (h' + 1) n ∗ tree (none, pi) h' ts) (pushInternal_tree hn) fun _ => ?_
      have hl := lastLeafEdge_last (E := E) (h := h' + 1) (l := l) (t := ⟨n.addr, n.kvs ++ [kv], n.edges ++ [ts]⟩)
      refine Triple.call (P₀ := tree l (h' + 1) ⟨n.addr, n.kvs ++ [kv], n.edges ++ [ts]⟩) hl fun e => ?_
      simp only [sep_assoc]
      refine Triple.getFact fun he => ?_
      refine Triple.ofPure (Ent.hex_right ⟨n.addr, n.kvs ++ [kv], n.edges ++ [ts]⟩ ?_)
      refine Ent.fact_right ⟨trivial, rfl, ?_, he⟩ (by ent_ac)
      rw [ATree.erase_mk]
      simp [hes]

/-! ### the building loop -/

theorem exec_bind_assoc {γ : Type} (x : Exec α) (f : α → Exec β) (g : β → Exec γ) : ((x >>= f) >>= g) = (x >>= fun a => f a >>= g) := by
  cases x <;> rfl

theorem Triple.ofFalse {m : HM K V β} {Qb : β → HProp K V} : Triple E (fact False) m Qb := by
  intro R s _ hp
  exact (fact_sep.1 hp).1.elim

theorem emptySpine_erase : ∀ j : Nat, ∃ t : ATree K V, t.erase = emptySpine j
  | 0 => ⟨⟨0, [], []⟩, by rw [ATree.erase_mk]; rfl⟩
  | j + 1 => by
    obtain ⟨t, h⟩ := emptySpine_erase j
    exact ⟨⟨0, [], [t]⟩, by rw [ATree.erase_mk]; simp [h, emptySpine]⟩

theorem spine_len : ∀ {h : Nat} {l : Link} {t : ATree K V}, SpineFull h t →
    Triple E (tree l h t) (lenOf (lastLeaf h t).addr) (fun r => fact (¬ r < CAPACITY) ∗ tree l h t)
  | 0, l, t, hf => lenOf_tree.post fun r => Ent.getFact fun e => Ent.putFact (by rw [e]; exact hf) (Ent.refl _)
  | h + 1, l, t, hf => by
    obtain ⟨hk, X, c, e, hc⟩ := hf
    rw [lastLeaf_succ e]
    exact Triple.readPath (at_one e rfl) (by simp) fun l' => spine_len hc

/-- One round of the building loop of the first model. -/
def pushRound (t : Nat × Tree K V) (kv : K × V) (a : Alloc) : Exec ((Nat × Tree K V) × Alloc) :=
  BTree.fromSortedLoop t [kv] a

theorem fromSortedLoop_cons (t : Nat × Tree K V) (kv : K × V) (rest : List (K × V)) (a : Alloc) :
    BTree.fromSortedLoop t (kv :: rest) a = (pushRound t kv a >>= fun x => BTree.fromSortedLoop x.1 rest x.2) := by
  unfold pushRound
  rw [BTree.fromSortedLoop, BTree.fromSortedLoop, exec_bind_assoc]
  refine congrArg (fun f => BTree.pushSorted t.1 t.2 kv a >>= f) (funext fun x => ?_)
  obtain ⟨r, a1⟩ := x
  cases r with
  | some t' => rfl
  | none =>
    dsimp only
    cases a1.request with
    | mk g a2 =>
    cases g with
    | false => rfl
    | true =>
      dsimp only
      simp only [if_true]
      cases BTree.Alloc.requests (t.1 + 1) a2 with
      | mk g a3 =>
      cases g with
      | false => rfl
      | true =>
        dsimp only
        simp only [if_true]
        rw [exec_bind_assoc]
        rfl

/-- A tree under construction: its root and its last leaf. -/
def built (r c : NRef) (H : Nat) (T : Tree K V) : HProp K V :=
  hex fun x : ATree K V × Option Nat => fact (x.1.erase = T ∧ r = ⟨H, x.1.addr⟩ ∧ c = ⟨0, (lastLeaf H x.1).addr⟩) ∗ tree (none, x.2) H x.1

theorem built_elim {m : HM K V β} {Qb : β → HProp K V} {r c : NRef} {h : Nat} {t : Tree K V} {R : HProp K V}
    (hm : ∀ (ta : ATree K V) pi, ta.erase = t → r = ⟨h, ta.addr⟩ → c = ⟨0, (lastLeaf h ta).addr⟩ → Triple E (tree (none, pi) h ta ∗ R) m Qb) :
    Triple E (built r c h t ∗ R) m Qb := by
  unfold built
  rw [hex_sep]
  refine Triple.ofHex fun ta => ?_
  rw [sep_assoc]
  exact Triple.getFact fun hf => hm ta.1 ta.2 hf.1 hf.2.1 hf.2.2

theorem sortedPush_ref {r c : NRef} {H : Nat} {T : Tree K V} {kv : K × V} {al : Alloc} (hb : BTree.Build H T) (hl : T.len ≤ 11)
    (hE : ∀ msg, pushRound (H, T) kv al = .panic msg → E msg) :
    Triple E (built r c H T ∗ sched al) (sortedPush r c kv) (fun o => hex fun x : (Nat × Tree K V) × Alloc =>
      fact (pushRound (H, T) kv al = .ok x) ∗ built o.2 o.1 x.1.1 x.1.2 ∗ sched x.2) := by
  refine built_elim fun ta pi he hr hc => ?_
  subst he hr hc
  unfold sortedPush
  dsimp only
  rcases spine_cases hb hl with ⟨h1, h2⟩ | ⟨p, n, h1, h2, h3, h4, h5, h6⟩ | ⟨p, n, j, Y, d, h1, h2, h3, h4, h5, h6, h7, h8, h9⟩
  · refine Triple.call (P₀ := tree (none, pi) H ta) (spine_len h1) fun len => ?_
    simp only [sep_assoc]
    refine Triple.getFact fun hlen => ?_
    rw [if_neg hlen, loopN_snoc]
    refine Triple.assoc ?_
    refine Triple.callEq (P₀ := tree (none, pi) H ta) (climb_full h1) ?_
    show Triple E _ (climbStep ⟨H, ta.addr⟩ ⟨H, ta.addr⟩ >>= _) _
    unfold climbStep
    refine Triple.assoc ?_
    have hpr : pushRound (H, ta.erase) kv al = if al.request.1 then
        (if (BTree.Alloc.requests (H + 1) al.request.2).1 then .ok ((H + 1, ⟨[kv], [ta.erase, emptySpine H]⟩), (BTree.Alloc.requests (H + 1) al.request.2).2)
        else .panic "Out of Mem") else .panic "Out of Mem" := by
      unfold pushRound
      simp [BTree.fromSortedLoop, h2 kv al, BTree.Tree.pushInternal, Tree.len]
    rw [hpr] at hE
    simp only [hpr]
    have hasc : Triple E (tree (none, pi) H ta) (ascend ⟨H, ta.addr⟩ : HM K V _) (fun r => fact (r = none) ∗ tree (none, pi) H ta) := by
      unfold tree
      refine Triple.last ?_
      refine Triple.bindAscendNone (by cases H <;> rfl) ?_
      exact Triple.ofPure (Ent.putFact rfl (Ent.refl _))
    refine Triple.callEq (P₀ := tree (none, pi) H ta) hasc ?_
    dsimp only
    refine Triple.assoc ?_
    refine Triple.call (P₀ := sched al ∗ tree (none, pi) H ta) pushLevel_spec fun o => ?_
    cases o with
    | none =>
      dsimp only
      simp only [sep_assoc]
      refine Triple.getFact fun hno => ?_
      refine Triple.seq (Q := fun _ => fact False) (Triple.ofPanic (hE _ (by simp [hno]))) fun _ => ?_
      exact Triple.ofFalse
    | some nr =>
      obtain ⟨nh, na⟩ := nr
      dsimp only
      simp only [sep_assoc]
      refine Triple.getFact fun hf => ?_
      obtain ⟨hyes, rfl⟩ := hf
      simp only [hyes, if_true] at hE ⊢
      refine Triple.bindPure (a := (Sum.inr ((⟨H + 1, na⟩ : NRef), (⟨H + 1, na⟩ : NRef)) : NRef ⊕ (NRef × NRef))) ?_
      refine Triple.bindPure (a := ((⟨H + 1, na⟩ : NRef), (⟨H + 1, na⟩ : NRef))) ?_
      dsimp only
      refine Triple.pre (P := tree (none, none) (H + 1) ⟨na, [], [ta]⟩ ∗ sched al.request.2) ?_ ?_
      · refine Triple.call (P₀ := tree (none, none) (H + 1) ⟨na, [], [ta]⟩ ∗ sched al.request.2)
          (growRight_spec (n := ⟨na, [], [ta]⟩) (Nat.zero_lt_succ 10) fun hno => hE _ (by simp [hno])) fun cr => ?_
        simp only [hex_sep]
        refine Triple.ofHex fun n' => ?_
        simp only [sep_assoc]
        refine Triple.getFact fun hf => ?_
        obtain ⟨g1, g2, g3, g4⟩ := hf
        refine Triple.ofPure (Ent.hex_right ((H + 1, n'.erase), (BTree.Alloc.requests (H + 1) al.request.2).2) ?_)
        refine Ent.fact_right ?_ ?_
        · rw [g1, g3, ATree.erase_mk]; rfl
        · unfold built
          rw [hex_sep]
          refine Ent.hex_right (n', none) ?_
          rw [sep_assoc]
          refine Ent.fact_right ⟨rfl, ?_, ?_⟩ (by simp only [sep_emp]; exact Ent.refl _)
          · rw [g2]
          · exact g4
      · rw [tree_internal, kids_cons, kids_nil, sep_emp]
        simp only [sep_assoc]
        refine Ent.fact_right ⟨rfl, Nat.zero_le _⟩ ?_
        ent_ac
  · have hrd : Triple E (tree (none, pi) H ta) (lenOf (lastLeaf H ta).addr) (fun r => fact (r = n.kvs.length) ∗ tree (none, pi) H ta) := by
      rw [h3]
      exact Triple.readPath h1 (by omega) fun l' => lenOf_tree
    refine Triple.callEq (P₀ := tree (none, pi) H ta) hrd ?_
    rw [if_pos h4, h3]
    have hpl : Triple E (tree (none, pi) H ta) (pushLeaf n.addr kv) (fun _ => hex fun n' : ATree K V =>
        fact (n'.erase = ⟨n.kvs ++ [kv], []⟩ ∧ n'.addr = n.addr) ∗ tree (none, pi) H (ta.put p n')) := by
      refine Triple.atPath h1 (by omega) fun l' => ?_
      rw [h2, Nat.sub_self]
      refine Triple.pre ?_ tree_shape
      refine Triple.getFact fun hs => ?_
      obtain ⟨a, kvs, es⟩ := n
      obtain ⟨_, hs⟩ := hs
      dsimp only at hs h4 ⊢
      subst hs
      rw [tree_leaf]
      refine Triple.ofFact fun _ => ?_
      refine (pushLeaf_spec h4).post fun _ => ?_
      refine Ent.hex_right ⟨a, kvs ++ [kv], []⟩ ?_
      refine Ent.fact_right ⟨by rw [ATree.erase_mk]; rfl, rfl⟩ ?_
      rw [tree_leaf]
      exact Ent.putFact (by len_omega) (Ent.refl _)
    refine Triple.call (P₀ := tree (none, pi) H ta) hpl fun _ => ?_
    rw [hex_sep]
    refine Triple.ofHex fun n' => ?_
    rw [sep_assoc]
    refine Triple.getFact fun hf => ?_
    refine Triple.ofPure (Ent.hex_right ((H, (ta.put p n').erase), al) ?_)
    refine Ent.fact_right ?_ ?_
    · unfold pushRound
      simp [BTree.fromSortedLoop, h6 kv al n' hf.1]
    · unfold built
      rw [hex_sep]
      refine Ent.hex_right (ta.put p n', pi) ?_
      rw [sep_assoc]
      refine Ent.fact_right ⟨rfl, ?_, ?_⟩ (Ent.refl _)
      · rw [ATree.put_addr h1 hf.2]
      · rw [h5, hf.2]
  · have hleaf : Triple E (tree (none, pi) H ta) (lenOf (lastLeaf H ta).addr) (fun r => fact (¬ r < CAPACITY) ∗ tree (none, pi) H ta) := by
      rw [h6]
      refine Triple.readPath h1 (by omega) fun l' => ?_
      rw [show H - p.length = j + 1 by omega]
      exact Triple.readPath (at_one h3 rfl) (by simp) fun l' => spine_len h5
    refine Triple.call (P₀ := tree (none, pi) H ta) hleaf fun len => ?_
    simp only [sep_assoc]
    refine Triple.getFact fun hlen => ?_
    rw [if_neg hlen]
    have hloop : Triple E (tree (none, pi) H ta) (loopN (climbStep ⟨H, ta.addr⟩) (H + 1) ⟨0, (lastLeaf H ta).addr⟩)
        (fun r => fact (r = .inr (⟨j + 1, n.addr⟩, ⟨H, ta.addr⟩)) ∗ tree (none, pi) H ta) := by
      rw [h6, show H + 1 = j + (H - j + 1) by omega]
      refine Triple.readPath h1 (by omega) fun l' => ?_
      rw [show H - p.length = j + 1 by omega]
      exact climb_open h3 h5 h7
    refine Triple.callEq (P₀ := tree (none, pi) H ta) hloop ?_
    refine Triple.bindPure (a := ((⟨j + 1, n.addr⟩ : NRef), (⟨H, ta.addr⟩ : NRef))) ?_
    dsimp only
    obtain ⟨l', F, e, hF⟩ := focus_self (none, pi) h1 (by omega : p.length ≤ H)
    rw [show H - p.length = j + 1 by omega] at e hF
    have hpr : ∀ n' : ATree K V, n'.erase = ⟨n.erase.kvs ++ [kv], n.erase.edges ++ [emptySpine j]⟩ → pushRound (H, ta.erase) kv al =
        if (BTree.Alloc.requests (j + 1) al).1 then .ok ((H, (ta.put p n').erase), (BTree.Alloc.requests (j + 1) al).2) else .panic "Out of Mem" := by
      intro n' hn'
      unfold pushRound
      rw [BTree.fromSortedLoop]
      dsimp only
      rw [h9 kv al n' hn']
      cases (BTree.Alloc.requests (j + 1) al).1 <;> rfl
    rw [e]
    simp only [sep_assoc]
    refine Triple.call (P₀ := tree l' (j + 1) n ∗ sched al) (growRight_spec h7 fun hno => hE _ ?_) fun cr => ?_
    · obtain ⟨ts, hts⟩ := emptySpine_erase (K := K) (V := V) j
      have := hpr ⟨n.addr, n.kvs ++ [kv], n.edges ++ [ts]⟩ (by rw [ATree.erase_mk]; simp [hts])
      rw [this, hno]; rfl
    simp only [hex_sep]
    refine Triple.ofHex fun n' => ?_
    simp only [sep_assoc]
    refine Triple.getFact fun hf => ?_
    obtain ⟨g1, g2, g3, g4⟩ := hf
    refine Triple.ofPure (Ent.hex_right ((H, (ta.put p n').erase), (BTree.Alloc.requests (j + 1) al).2) ?_)
    refine Ent.fact_right ?_ ?_
    · rw [hpr n' g3, g1]; rfl
    · unfold built
      rw [hex_sep]
      refine Ent.hex_right (ta.put p n', pi) ?_
      rw [sep_assoc]
      refine Ent.fact_right ⟨rfl, ?_, ?_⟩ ?_
      · dsimp only; rw [ATree.put_addr h1 g2]
      · dsimp only; rw [h8, g4]
      · rw [hF n' g2]
        ent_ac

theorem buildLoop_ref [Ord K] : ∀ (xs : List (K × V)) {l r : List (K × V)} {m : HMerge K V} {root cur : NRef} {H : Nat} {T : Tree K V} {len fuel : Nat} {al : Alloc},
    mergeIter l r = xs → xs.length < fuel → BTree.Build H T → T.len ≤ 11 → (0 < H → 1 ≤ T.len) →
    (∀ msg, BTree.fromSortedLoop (H, T) xs al = .panic msg → E msg) →
    Triple E (peeking m.left l ∗ peeking m.right r ∗ built root cur H T ∗ sched al) (loopN buildStep fuel ⟨m, root, cur, len⟩)
      (fun o => hex fun x : ((Nat × Tree K V) × Alloc) × Building K V =>
        fact (BTree.fromSortedLoop (H, T) xs al = .ok x.1 ∧ o = .inr x.2 ∧ x.2.length = len + xs.length) ∗
        peeking x.2.iter.left [] ∗ peeking x.2.iter.right [] ∗ built x.2.root x.2.cur x.1.1.1 x.1.1.2 ∗ sched x.1.2)
  | xs, l, r, m, root, cur, H, T, len, 0, al, _, hf, _, _, _, _ => by simp at hf
  | [], l, r, m, root, cur, H, T, len, fuel + 1, al, hx, hf, hb, hl, h1, hE => by
    rw [loopN_succ]
    unfold buildStep
    refine Triple.assoc ?_
    dsimp only
    refine Triple.call (P₀ := peeking m.left l ∗ peeking m.right r) mergeNext_spec fun o => ?_
    rw [hex_sep]
    refine Triple.ofHex fun lr => ?_
    obtain ⟨l', r'⟩ := lr
    dsimp only
    simp only [sep_assoc]
    refine Triple.getFact fun hf => ?_
    obtain ⟨g1, g2, g3, g4⟩ := hf
    rw [hx] at g1
    have g1' : o.1 = none := g1
    obtain ⟨rfl, rfl⟩ := g3 g1'
    rw [g1']
    show Triple E _ (pure _) _
    refine Triple.ofPure (Ent.hex_right (((H, T), al), ⟨o.2, root, cur, len⟩) ?_)
    refine Ent.fact_right ⟨rfl, rfl, rfl⟩ ?_
    dsimp only
    ent_ac
  | kv :: rest, l, r, m, root, cur, H, T, len, fuel + 1, al, hx, hf, hb, hl, h1, hE => by
    rw [loopN_succ]
    unfold buildStep
    refine Triple.assoc ?_
    dsimp only
    refine Triple.call (P₀ := peeking m.left l ∗ peeking m.right r) mergeNext_spec fun o => ?_
    rw [hex_sep]
    refine Triple.ofHex fun lr => ?_
    obtain ⟨l', r'⟩ := lr
    dsimp only
    simp only [sep_assoc]
    refine Triple.getFact fun hff => ?_
    obtain ⟨g1, g2, g3, g4⟩ := hff
    rw [hx] at g1 g2
    have g1' : o.1 = some kv := g1
    rw [g1']
    dsimp only
    refine Triple.assoc ?_
    rw [fromSortedLoop_cons] at hE
    refine Triple.call (P₀ := built root cur H T ∗ sched al) (sortedPush_ref hb hl fun msg hm => hE msg (by rw [hm]; rfl)) fun c => ?_
    rw [hex_sep]
    refine Triple.ofHex fun x => ?_
    obtain ⟨⟨H', T'⟩, al'⟩ := x
    dsimp only
    simp only [sep_assoc]
    refine Triple.getFact fun hp => ?_
    have hspec := BTree.fromSortedLoop_spec [kv] hb hl h1 al
    unfold pushRound at hp
    rw [hp] at hspec
    rcases hspec with ⟨h, _⟩ | ⟨h', t', a', q1, q2, q3, q4, q5, q6⟩
    · cases h
    simp only [Exec.ok.injEq, Prod.mk.injEq] at q1
    obtain ⟨⟨rfl, rfl⟩, rfl⟩ := q1
    show Triple E _ (loopN buildStep fuel ⟨o.2, c.2, c.1, len + 1⟩) _
    refine Triple.pre (P := peeking o.2.left l' ∗ peeking o.2.right r' ∗ built c.2 c.1 H' T' ∗ sched al') ?_ (by ent_ac)
    have hrest : (pushRound (H, T) kv al >>= fun x => BTree.fromSortedLoop x.1 rest x.2) = BTree.fromSortedLoop (H', T') rest al' := by
      unfold pushRound
      rw [hp]; rfl
    refine (buildLoop_ref rest (len := len + 1) g2 (by simpa using hf) q3 q4 q5 fun msg hm => hE msg (by rw [hrest]; exact hm)).post fun o2 => ?_
    intro w hw0
    obtain ⟨y, hw⟩ := hw0
    obtain ⟨⟨k1, k2, k3⟩, hw⟩ := fact_sep.1 hw
    refine ⟨y, fact_sep.2 ⟨⟨?_, k2, ?_⟩, hw⟩⟩
    · rw [fromSortedLoop_cons, hrest, k1]
    · rw [k3, List.length_cons]; omega

theorem bulkStealLeft_len {t t' : Tree K V} {i count : Nat} (h : BTree.bulkStealLeft t i count = .ok t') : t'.len = t.len := by
  simp only [BTree.bulkStealLeft] at h
  obtain ⟨_, _, h⟩ := Exec.bind_eq_ok.1 h
  obtain ⟨_, _, h⟩ := Exec.bind_eq_ok.1 h
  obtain ⟨_, _, h⟩ := Exec.bind_eq_ok.1 h
  obtain ⟨_, _, h⟩ := Exec.bind_eq_ok.1 h
  obtain ⟨_, _, h⟩ := Exec.bind_eq_ok.1 h
  obtain ⟨_, _, h⟩ := Exec.bind_eq_ok.1 h
  obtain ⟨_, _, h⟩ := Exec.bind_eq_ok.1 h
  obtain ⟨kvs, hk, h⟩ := Exec.bind_eq_ok.1 h
  obtain ⟨_, _, h⟩ := Exec.bind_eq_ok.1 h
  obtain ⟨_, _, h⟩ := Exec.bind_eq_ok.1 h
  simp only [Exec.ok.injEq] at h
  subst h
  simp only [setE] at hk
  split at hk
  · simp only [Exec.ok.injEq] at hk
    subst hk
    simp [Tree.len]
  · cases hk

theorem fixRightEdge_ref : ∀ {h : Nat} {l : Link} {t : ATree K V} {t' : Tree K V}, BTree.fixRightEdge h t.erase = .ok t' →
    Triple E (tree l h t) (fixRightEdge h t.addr) (fun _ => holds l h t.addr t')
  | 0, l, t, t', hx => by
    simp only [BTree.fixRightEdge, Exec.ok.injEq] at hx
    subst hx
    exact Triple.ofPure holds_intro
  | h + 1, l, t, t', hx => by
    simp only [BTree.fixRightEdge, ATree.erase_len] at hx
    obtain ⟨r, hr, hx⟩ := Exec.bind_eq_ok.1 hx
    obtain ⟨t1, hm, hx⟩ := Exec.bind_eq_ok.1 hx
    obtain ⟨c, hc, hx⟩ := Exec.bind_eq_ok.1 hx
    obtain ⟨c', hc', hx⟩ := Exec.bind_eq_ok.1 hx
    obtain ⟨es, hes, hx⟩ := Exec.bind_eq_ok.1 hx
    simp only [Exec.ok.injEq] at hx
    subst hx
    obtain ⟨rA, F, h1, h2, h3, h4⟩ := open_child (l := l) (h := h) hr
    unfold fixRightEdge
    refine Triple.callEq (P₀ := tree l (h + 1) t) lenOf_tree ?_
    refine Triple.callEq (P₀ := tree l (h + 1) t) (newEdge_tree (Nat.le_refl _)) ?_
    refine Triple.callEq (P₀ := tree l (h + 1) t) (descend_tree h1) ?_
    simp only [sep_emp]
    have hlen : Triple E (tree l (h + 1) t) (lenOf rA.addr) (fun r => fact (r = rA.kvs.length) ∗ tree l (h + 1) t) := by
      rw [h3]
      refine Triple.callLast (P₀ := tree (some t.addr, some t.kvs.length) h rA) lenOf_tree fun r => ?_
      exact Ent.of_eq (sep_assoc ..)
    refine Triple.callEq (P₀ := tree l (h + 1) t) hlen ?_
    simp only [sep_emp]
    subst h2
    rw [ATree.erase_len] at hm
    by_cases hlt2 : rA.kvs.length < MIN_LEN
    · rw [if_pos hlt2] at hm ⊢
      by_cases hpos : 0 < t.kvs.length
      · rw [if_pos hpos] at hm ⊢
        have hk := bulkStealLeft_len hm
        rw [ATree.erase_len] at hk
        refine Triple.seq (bulkStealLeft_ref (by omega) hm) fun _ => ?_
        refine holds_elim' fun ta he ha => ?_
        subst he
        rw [ATree.erase_len] at hk hc hes
        rw [← ha, show t.kvs.length - 1 + 1 = ta.kvs.length by omega]
        obtain ⟨cA, G, k1, k2, k3, k4⟩ := open_child (l := l) (h := h) hc
        refine Triple.callEq (P₀ := tree l (h + 1) ta) (newEdge_tree (Nat.le_refl _)) ?_
        refine Triple.callEq (P₀ := tree l (h + 1) ta) (descend_tree k1) ?_
        simp only [sep_emp]
        refine Triple.atChild hc hes fun cA' l' e1 e2 => ?_
        rw [k1, Option.some.injEq] at e1
        subst e1 e2
        exact fixRightEdge_ref hc'
      · rw [if_neg hpos] at hm
        cases hm
    · rw [if_neg hlt2] at hm ⊢
      simp only [Exec.ok.injEq] at hm
      subst hm
      refine Triple.callEq (P₀ := tree l (h + 1) t) (descend_tree h1) ?_
      simp only [sep_emp]
      rw [ATree.erase_len] at hc hes
      refine Triple.atChild hc hes fun cA' l' e1 e2 => ?_
      rw [h1, Option.some.injEq] at e1
      subst e1 e2
      exact fixRightEdge_ref hc'

theorem mergeIter_length [Ord K] (l r : List (K × V)) : (mergeIter l r).length ≤ l.length + r.length := by
  fun_induction mergeIter l r <;> simp_all <;> omega

theorem ofSorted_eq (l : List (K × V)) (al : Alloc) : Map.ofSorted l al =
    if al.request.1 then (do
      let x ← BTree.fromSortedLoop (0, emptyLeaf) l al.request.2
      let t' ← BTree.fixRightEdge x.1.1 x.1.2
      .ok (⟨x.1.1, t', false, 0 + l.length⟩, x.2))
    else .panic "Out Of Mem" := by
  unfold Map.ofSorted Map.ensureRootIsOwned
  rcases al.request with ⟨g, a⟩
  cases g <;> rfl

/-- `from_sorted_iter` on a new map, then `fix_right_edge`. -/
theorem fromSorted_ref [Ord K] {m : HMerge K V} {l r : List (K × V)} {al : Alloc} {bnd : Nat} (hbnd : l.length + r.length ≤ bnd)
    (hE : ∀ msg, Map.ofSorted (mergeIter l r) al = .panic msg → E msg) :
    Triple E (peeking m.left l ∗ peeking m.right r ∗ sched al)
      (HMap.new.fromSortedIter m bnd >>= fun n => (fixRightEdge n.root.height n.root.node >>= fun _ => (pure (n, HMap.new) : HM K V _)))
      (fun o => hex fun x : Map K V × Alloc => fact (Map.ofSorted (mergeIter l r) al = .ok x ∧ o.2 = HMap.new) ∗ rep o.1 x.1 ∗ sched x.2) := by
  unfold HMap.fromSortedIter HMap.ensureRootIsOwned
  rw [show HMap.new.root.node = SHARED from rfl, if_pos rfl]
  rw [ofSorted_eq] at hE
  simp only [ofSorted_eq]
  refine Triple.assoc ?_
  refine Triple.assoc ?_
  refine Triple.call (P₀ := sched al) newLeaf_spec fun o => ?_
  cases o with
  | none =>
    dsimp only
    simp only [sep_assoc]
    refine Triple.getFact fun hno => ?_
    refine Triple.bindPure (a := none) ?_
    refine Triple.seq (Q := fun _ => fact False) (Triple.ofPanic (hE "Out Of Mem" (by simp [hno]))) fun _ => Triple.ofFalse
  | some rt =>
    dsimp only
    simp only [sep_assoc]
    refine Triple.getFact fun hyes => ?_
    simp only [hyes, if_true] at hE ⊢
    refine Triple.bindPure (a := some (⟨rt, 0⟩ : HMap)) ?_
    dsimp only
    refine Triple.pre (P := rooted rt 0 (emptySpine 0 : Tree K V) ∗ sched al.request.2 ∗ peeking m.left l ∗ peeking m.right r) ?_ (by ent_ac)
    refine rooted_elim fun ta pi he hr => ?_
    subst hr
    refine Triple.assoc ?_
    refine Triple.call (P₀ := tree (none, pi) 0 ta) lastLeafEdge_last fun e => ?_
    simp only [sep_assoc]
    refine Triple.getFact fun hel => ?_
    rw [hel]
    refine Triple.pre (P := peeking m.left l ∗ peeking m.right r ∗ built ⟨0, ta.addr⟩ ⟨0, (lastLeaf 0 ta).addr⟩ 0 (emptyLeaf : Tree K V) ∗ sched al.request.2) ?_ ?_
    rotate_left
    · unfold built
      simp only [hex_sep, sep_hex]
      refine Ent.hex_right (ta, pi) ?_
      simp only [sep_assoc]
      refine Ent.putFact ⟨he, trivial, trivial⟩ ?_
      ent_ac
    have hb : BTree.Build 0 (emptyLeaf : Tree K V) := .leaf []
    have hlen := mergeIter_length l r
    refine Triple.assoc ?_
    refine Triple.call (P₀ := peeking m.left l ∗ peeking m.right r ∗ built ⟨0, ta.addr⟩ ⟨0, (lastLeaf 0 ta).addr⟩ 0 (emptyLeaf : Tree K V) ∗ sched al.request.2)
      (buildLoop_ref (mergeIter l r) (len := 0) (fuel := bnd + 1) rfl (by omega) hb (by simp [emptyLeaf]) (by simp) fun msg hm => hE msg (by rw [hm]; rfl)) fun o => ?_
    simp only [hex_sep]
    refine Triple.ofHex fun x => ?_
    obtain ⟨⟨⟨H, T⟩, al'⟩, s⟩ := x
    dsimp only
    simp only [sep_assoc]
    refine Triple.getFact fun hf => ?_
    obtain ⟨k1, rfl, k3⟩ := hf
    refine Triple.assoc ?_
    refine Triple.bindPure (a := s) ?_
    refine Triple.assoc ?_
    refine Triple.call (P₀ := peeking s.iter.left []) peekDrop_spec fun _ => ?_
    refine Triple.getFact fun _ => ?_
    refine Triple.assoc ?_
    refine Triple.call (P₀ := peeking s.iter.right []) peekDrop_spec fun _ => ?_
    refine Triple.getFact fun _ => ?_
    refine Triple.bindPure (a := (⟨s.root, s.length⟩ : HMap)) ?_
    dsimp only
    refine built_elim fun tb pj he' hr' _ => ?_
    rcases BTree.fromSortedLoop_spec (mergeIter l r) hb (by simp [emptyLeaf]) (by simp) al.request.2 with ⟨g1, _⟩ | ⟨h', t', a', g1, g2, g3, g4, g5, g6⟩
    · rw [k1] at g1; cases g1
    rw [k1] at g1
    simp only [Exec.ok.injEq, Prod.mk.injEq] at g1
    obtain ⟨⟨rfl, rfl⟩, rfl⟩ := g1
    obtain ⟨t2, q1, q2⟩ := BTree.fixRightEdge_spec g3 g5
    rw [hr']
    have q1' := q1
    rw [← he'] at q1'
    refine Triple.call (P₀ := tree (none, pj) H tb) (fixRightEdge_ref q1') fun _ => ?_
    refine Triple.ofPure (Ent.hex_right (⟨H, t2, false, 0 + (mergeIter l r).length⟩, al') ?_)
    refine Ent.fact_right ⟨?_, rfl⟩ ?_
    · rw [k1]
      simp only [Exec.ok_bind, q1]
    · dsimp only
      rw [own_rooted rfl, sep_assoc]
      refine Ent.putFact k3 ?_
      simp only [sep_emp]
      exact Ent.frame rooted_holds _

theorem append_ref [Ord K] {hm ho : HMap} {M O : Map K V} {al : Alloc} (hM : M.WF) (hO : O.WF) (hE : ∀ msg, M.append O al = .panic msg → E msg) :
    Triple E (rep hm M ∗ rep ho O ∗ sched al) (hm.append ho)
      (fun o => hex fun x : Map K V × Map K V × Alloc => fact (M.append O al = .ok x) ∗ rep o.1 x.1 ∗ rep o.2 x.2.1 ∗ sched x.2.2) := by
  refine Triple.pre ?_ (Ent.frame rep_length _)
  rw [sep_assoc]
  refine Triple.getFact fun hl => ?_
  refine Triple.pre (P := fact (ho.length = O.length) ∗ rep hm M ∗ rep ho O ∗ sched al) ?_ ?_
  rotate_left
  · refine Ent.trans (Ent.sep (Ent.refl _) (Ent.frame rep_length _)) ?_
    ent_ac
  refine Triple.getFact fun hol => ?_
  unfold HMap.append
  rw [hl, hol]
  unfold Map.append at hE ⊢
  simp only [Map.len] at hE ⊢
  by_cases h1 : O.length = 0
  · simp only [h1, if_true]
    exact Triple.ofPure (Ent.hex_right (M, O, al) (Ent.fact_right rfl (by dsimp only; ent_ac)))
  by_cases h2 : M.length = 0
  · simp only [h1, h2, if_true, if_false]
    exact Triple.ofPure (Ent.hex_right (O, M, al) (Ent.fact_right rfl (by dsimp only; ent_ac)))
  simp only [h1, h2, if_false, BTree.Map.toListE_spec hM, BTree.Map.toListE_spec hO, Exec.ok_bind] at hE ⊢
  refine Triple.call (P₀ := rep hm M) (intoIter_spec hM.len) fun li => ?_
  simp only [sep_assoc]
  refine Triple.getFact fun hh1 => ?_
  refine Triple.call (P₀ := rep ho O) (intoIter_spec hO.len) fun ri => ?_
  simp only [sep_assoc]
  refine Triple.getFact fun hh2 => ?_
  rw [hh1, hh2]
  refine Triple.pre (P := (peeking (⟨li, M.height, none⟩ : Peek K V) M.toList ∗ peeking (⟨ri, O.height, none⟩ : Peek K V) O.toList ∗ sched al)) ?_ (by
    rw [peeking_none, peeking_none]; unfold Map.toList; ent_ac)
  refine (fromSorted_ref (E := E) (m := ⟨⟨li, M.height, none⟩, ⟨ri, O.height, none⟩⟩) (by rw [hM.len, hO.len]; exact Nat.le_refl _)
    fun msg hm => hE msg (by rw [hm]; rfl)).post fun o => ?_
  intro w hw0
  obtain ⟨x, hw⟩ := hw0
  obtain ⟨⟨k1, k2⟩, hw⟩ := fact_sep.1 hw
  refine ⟨(x.1, Map.new, x.2), fact_sep.2 ⟨?_, ?_⟩⟩
  · rw [k1]; rfl
  · rw [k2, rep_new, emp_sep]; exact hw

end Verif.Heap
