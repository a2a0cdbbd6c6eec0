import Verif.Heap.Proofs.Inject
/-
`iter`, `iter_mut`, `range` in memory do what the level-1 model says.
-/
namespace Verif.Heap
open Verif
open Verif.BTree (B MIN_LEN CAPACITY Tree Handle Map emptyLeaf Iter Range)
open Verif.Spec (Bound End MutAct)

variable {K V Q α β : Type} {E : String → Prop}

/-- Reading a map, shared root or not. -/
theorem Triple.readOwn {hm : HMap} {M : Map K V} {ta : ATree K V} {m : HM K V β} {φ : β → Prop}
    (hsh : M.shared = true → hm = ⟨⟨0, SHARED⟩, M.length⟩ → M.height = 0 → M.root = emptyLeaf → ta = ⟨SHARED, [], []⟩ →
      Triple E emp m (fun r => fact (φ r)))
    (hown : M.shared = false → M.root = ta.erase → hm = ⟨⟨M.height, ta.addr⟩, M.length⟩ → ∀ l,
      Triple E (tree l M.height ta) m (fun r => fact (φ r) ∗ tree l M.height ta)) :
    Triple E (own hm M ta) m (fun r => fact (φ r) ∗ own hm M ta) := by
  cases hs : M.shared with
  | true =>
    rw [own_shared hs]
    intro R s hg hp
    have ⟨⟨h1, h2, h3, h4⟩, hp⟩ := fact_sep.1 hp
    have := hsh hs h1 h2 h3 h4 R s hg (by rw [emp_sep]; exact hp)
    cases hm2 : m s with
    | ok x =>
      rw [hm2] at this
      refine ⟨this.1, ?_⟩
      rw [sep_assoc]
      have ⟨t1, t2⟩ := fact_sep.1 this.2
      exact fact_sep.2 ⟨t1, fact_sep.2 ⟨⟨h1, h2, h3, h4⟩, t2⟩⟩
    | ub => rw [hm2] at this; exact this
    | panic msg => rw [hm2] at this; exact this
  | false =>
    rw [own_owned hs]
    refine Triple.ofHex fun pi => ?_
    refine Triple.getFact fun hf => ?_
    refine (hown hs hf.1.symm hf.2 _).post fun r => ?_
    refine Ent.getFact fun h => ?_
    exact Ent.putFact h (Ent.hex_right pi (Ent.putFact hf (Ent.refl _)))

/-- `lenOf`, `newEdge` on the shared root. -/
theorem lenOf_shared : Triple E emp (lenOf SHARED : HM K V Nat) (fun r => fact (r = 0)) := by
  show Triple E emp (pure 0) _
  exact Triple.ofPure (Ent.of_eq (fact_of rfl).symm)

theorem newEdge_shared {h : Nat} : Triple E emp (newEdge ⟨h, SHARED⟩ 0 : HM K V HRef) (fun r => fact (r = ⟨h, SHARED, 0⟩)) := by
  show Triple E emp (pure _) _
  exact Triple.ofPure (Ent.of_eq (fact_of rfl).symm)

theorem firstEdge_own {hm : HMap} {M : Map K V} {ta : ATree K V} {f : Handle} (hf : BTree.firstLeafEdge M.height M.root = .ok f) :
    Triple E (own hm M ta) (firstLeafEdge hm.root.height hm.root.node) (fun r => fact (HandleAt M.height ta f r) ∗ own hm M ta) := by
  simp only [BTree.firstLeafEdge] at hf
  obtain ⟨p, hp, hf⟩ := Exec.bind_eq_ok.1 hf
  simp only [Exec.ok.injEq] at hf
  subst hf
  refine Triple.readOwn (fun hs h1 h2 h3 h4 => ?_) fun hs h1 h2 l => ?_
  · subst h1 h4
    rw [h2] at hp ⊢
    simp only [BTree.firstLeafPath, Exec.ok.injEq] at hp
    subst hp
    refine newEdge_shared.post fun r => ?_
    intro w hw
    obtain ⟨h1, h2⟩ := hw
    refine ⟨?_, h2⟩
    subst h1
    exact HandleAt.nil
  · subst h2
    rw [h1] at hp
    refine (firstLeafEdge_spec hp).post fun r => ?_
    refine Ent.getFact fun hf => ?_
    obtain ⟨n, h3, h4, h5⟩ := hf
    refine Ent.putFact ⟨n, by simpa using h3, by simp [h4], ?_⟩ (Ent.refl _)
    simp only [List.length_reverse, h4, Nat.sub_self]; exact h5

theorem lastEdge_own {hm : HMap} {M : Map K V} {ta : ATree K V} {f : Handle} (hf : BTree.lastLeafEdge M.height M.root = .ok f) :
    Triple E (own hm M ta) (lastLeafEdge hm.root.height hm.root.node) (fun r => fact (HandleAt M.height ta f r) ∗ own hm M ta) := by
  simp only [BTree.lastLeafEdge] at hf
  obtain ⟨⟨p, i⟩, hp, hf⟩ := Exec.bind_eq_ok.1 hf
  simp only [Exec.ok.injEq] at hf
  subst hf
  refine Triple.readOwn (fun hs h1 h2 h3 h4 => ?_) fun hs h1 h2 l => ?_
  · subst h1 h4
    rw [h3, h2] at hp
    rw [h2]
    simp only [BTree.lastLeafPath, emptyLeaf, BTree.Tree.len, List.length_nil, Exec.ok.injEq, Prod.mk.injEq] at hp
    obtain ⟨rfl, rfl⟩ := hp
    show Triple E emp (pure _) _
    exact Triple.ofPure (Ent.of_eq (fact_of (HandleAt.nil (t := ⟨SHARED, [], []⟩))).symm)
  · subst h2
    rw [h1] at hp
    refine (lastLeafEdge_spec hp).post fun r => ?_
    refine Ent.getFact fun hf => ?_
    obtain ⟨n, h3, h4, _, h5⟩ := hf
    refine Ent.putFact ⟨n, by simpa using h3, by simp [h4], ?_⟩ (Ent.refl _)
    simp only [List.length_reverse, h4, Nat.sub_self]; exact h5

/-- The level-1 range and the range in memory are at the same places. -/
def RangeAt (h : Nat) (t : ATree K V) (r : Range) (o : HRange) : Prop := HandleAt h t r.front o.front ∧ HandleAt h t r.back o.back

/-- The same for `Iter`. -/
def IterAt (h : Nat) (t : ATree K V) (r : Iter) (o : HIter) : Prop := RangeAt h t r.range o.range ∧ o.length = r.length

/-- The same for the optional handle of a pair. -/
def OptAt (h : Nat) (t : ATree K V) : Option Handle → Option HRef → Prop
  | none, none => True
  | some a, some b => HandleAt h t a b
  | _, _ => False

theorem own_length {hm : HMap} {M : Map K V} {ta : ATree K V} : Ent (own hm M ta) (fact (hm.length = M.length ∧ hm.root.height = M.height) ∗ own hm M ta) := by
  cases hs : M.shared with
  | true =>
    rw [own_shared hs]
    intro w hw
    exact fact_sep.2 ⟨by obtain ⟨⟨rfl, h2, _⟩, _⟩ := hw; exact ⟨rfl, h2.symm⟩, hw⟩
  | false =>
    rw [own_owned hs]
    intro w hw
    obtain ⟨pi, hw⟩ := hw
    have ⟨h1, h2⟩ := fact_sep.1 hw
    exact fact_sep.2 ⟨by rw [h1.2]; exact ⟨rfl, rfl⟩, pi, hw⟩

theorem iter_own {hm : HMap} {M : Map K V} {ta : ATree K V} {it : Iter} (hi : M.iter = .ok it) :
    Triple E (own hm M ta) hm.iter (fun r => fact (IterAt M.height ta it r) ∗ own hm M ta) := by
  simp only [BTree.Map.iter] at hi
  obtain ⟨f, hf, hi⟩ := Exec.bind_eq_ok.1 hi
  obtain ⟨b, hb, hi⟩ := Exec.bind_eq_ok.1 hi
  simp only [Exec.ok.injEq] at hi
  subst hi
  refine Triple.pre ?_ own_length
  refine Triple.getFact fun hl => ?_
  unfold HMap.iter
  refine Triple.seq (firstEdge_own hf) fun rf => ?_
  refine Triple.getFact fun h1 => ?_
  refine Triple.seq (lastEdge_own hb) fun rb => ?_
  refine Triple.getFact fun h2 => ?_
  exact Triple.ofPure (Ent.putFact ⟨⟨h1, h2⟩, hl.1⟩ (Ent.refl _))

theorem next_own {hm : HMap} {M : Map K V} {ta : ATree K V} {a kv f : Handle} {r : HRef} {bnd : Nat}
    (hx : BTree.nextUnchecked M.height M.root a = .ok (kv, f)) (hat : HandleAt M.height ta a r) (hb : M.height ≤ bnd) :
    Triple E (own hm M ta) (nextUnchecked bnd r) (fun o => fact (NextRes M.height ta kv f o) ∗ own hm M ta) := by
  refine Triple.readOwn (fun hs h1 h2 h3 h4 => ?_) fun hs h1 h2 l => ?_
  · exfalso
    rw [h2, h3] at hx
    obtain ⟨n, hn, hl, _⟩ := hat
    rw [h2] at hl
    have : a.up = [] := List.eq_nil_of_length_eq_zero (by omega)
    simp [BTree.nextUnchecked, this, BTree.nodeAt, emptyLeaf, BTree.Tree.len, BTree.nextLoop] at hx
  · rw [h1] at hx
    exact nextUnchecked_spec hx hat hb

theorem nextBack_own {hm : HMap} {M : Map K V} {ta : ATree K V} {a kv f : Handle} {r : HRef} {bnd : Nat} {x : K × V}
    (hx : BTree.nextBackUnchecked M.height M.root a = .ok (kv, f)) (hk : M.kvAt kv = .ok x) (hat : HandleAt M.height ta a r) (hb : M.height ≤ bnd) :
    Triple E (own hm M ta) (nextBackUnchecked bnd r) (fun o => fact (NextRes M.height ta kv f o) ∗ own hm M ta) := by
  simp only [BTree.Map.kvAt] at hk
  refine Triple.readOwn (fun hs h1 h2 h3 h4 => ?_) fun hs h1 h2 l => ?_
  · exfalso
    rw [h2, h3] at hk
    simp only [BTree.kvAt] at hk
    obtain ⟨y, hy, hk⟩ := Exec.bind_eq_ok.1 hk
    cases hu : kv.up.reverse with
    | nil =>
      rw [hu] at hy
      simp only [BTree.nodeAt, Exec.ok.injEq] at hy
      subst hy
      simp [emptyLeaf, Verif.getE] at hk
    | cons i p => rw [hu] at hy; simp [BTree.nodeAt] at hy
  · rw [h1] at hx hk
    exact nextBackUnchecked_spec hx hk hat hb

theorem kvOf_own {hm : HMap} {M : Map K V} {ta : ATree K V} {hd : Handle} {r : HRef} {x : K × V} (hk : M.kvAt hd = .ok x)
    (hat : HandleAt M.height ta hd r) : Triple E (own hm M ta) (kvOf r) (fun o => fact (o = x) ∗ own hm M ta) := by
  simp only [BTree.Map.kvAt] at hk
  refine Triple.readOwn (fun hs h1 h2 h3 h4 => ?_) fun hs h1 h2 l => ?_
  · exfalso
    rw [h2, h3] at hk
    simp only [BTree.kvAt] at hk
    obtain ⟨y, hy, hk⟩ := Exec.bind_eq_ok.1 hk
    cases hu : hd.up.reverse with
    | nil =>
      rw [hu] at hy
      simp only [BTree.nodeAt, Exec.ok.injEq] at hy
      subst hy
      simp [emptyLeaf, Verif.getE] at hk
    | cons i p => rw [hu] at hy; simp [BTree.nodeAt] at hy
  · rw [h1] at hk
    exact kvOf_spec hat hk

theorem readOpt_own {hm : HMap} {M : Map K V} {ta : ATree K V} {hd : Option Handle} {r : Option HRef} {x : Option (K × V)} (hk : M.readOpt hd = .ok x)
    (hat : OptAt M.height ta hd r) : Triple E (own hm M ta) (readOpt r) (fun o => fact (o = x) ∗ own hm M ta) := by
  cases hd with
  | none =>
    cases r with
    | some r => exact hat.elim
    | none =>
      simp only [BTree.Map.readOpt, Exec.ok.injEq] at hk
      subst hk
      exact Triple.ofPure (Ent.putFact rfl (Ent.refl _))
  | some hd =>
    cases r with
    | none => exact hat.elim
    | some r =>
      simp only [BTree.Map.readOpt] at hk
      obtain ⟨y, hy, hk⟩ := Exec.bind_eq_ok.1 hk
      simp only [Exec.ok.injEq] at hk
      subst hk
      refine Triple.seq (kvOf_own hy hat) fun o => ?_
      refine Triple.getFact fun e => ?_
      subst e
      exact Triple.ofPure (Ent.putFact rfl (Ent.refl _))

/-- One step of an iterator over `own`, on handles. -/
def StepsOk (bnd : Nat) {S HS : Type} (At : Nat → ATree K V → S → HS → Prop) (step : Map K V → End → S → Exec (Option Handle × S))
    (hstep : End → HS → HM K V (Option HRef × HS)) : Prop :=
  ∀ {E : String → Prop} {hm : HMap} {M : Map K V} {ta : ATree K V} {e : End} {s s' : S} {hs : HS} {hd : Option Handle} {x : Option (K × V)},
    M.height ≤ bnd → step M e s = .ok (hd, s') → M.readOpt hd = .ok x → At M.height ta s hs →
    Triple E (own hm M ta) (hstep e hs) (fun o => fact (OptAt M.height ta hd o.1 ∧ At M.height ta s' o.2) ∗ own hm M ta)

theorem iter_stepH {bnd : Nat} : StepsOk (K := K) (V := V) bnd IterAt (Iter.stepH (K := K) (V := V)) (HIter.stepH bnd) := by
  intro E hm M ta e s s' hs hd x hb hx hk hat
  obtain ⟨⟨h1, h2⟩, h3⟩ := hat
  unfold HIter.stepH
  cases e with
  | front =>
    simp only [BTree.Iter.stepH, BTree.Iter.nextH] at hx
    split at hx
    · next h0 =>
      simp only [Exec.ok.injEq, Prod.mk.injEq] at hx
      obtain ⟨rfl, rfl⟩ := hx
      rw [if_pos (by rw [h3]; exact h0)]
      exact Triple.ofPure (Ent.putFact ⟨trivial, ⟨h1, h2⟩, h3⟩ (Ent.refl _))
    · next h0 =>
      rw [if_neg (by rw [h3]; exact h0)]
      obtain ⟨⟨kv, f⟩, hn, hx⟩ := Exec.bind_eq_ok.1 hx
      simp only [Exec.ok.injEq, Prod.mk.injEq] at hx
      obtain ⟨rfl, rfl⟩ := hx
      dsimp only
      refine Triple.seq (next_own hn h1 hb) fun o => ?_
      refine Triple.getFact fun ho => ?_
      exact Triple.ofPure (Ent.putFact ⟨ho.1, ⟨ho.2, h2⟩, by dsimp only; rw [h3]⟩ (Ent.refl _))
  | back =>
    simp only [BTree.Iter.stepH, BTree.Iter.nextBackH] at hx
    split at hx
    · next h0 =>
      simp only [Exec.ok.injEq, Prod.mk.injEq] at hx
      obtain ⟨rfl, rfl⟩ := hx
      rw [if_pos (by rw [h3]; exact h0)]
      exact Triple.ofPure (Ent.putFact ⟨trivial, ⟨h1, h2⟩, h3⟩ (Ent.refl _))
    · next h0 =>
      rw [if_neg (by rw [h3]; exact h0)]
      obtain ⟨⟨kv, f⟩, hn, hx⟩ := Exec.bind_eq_ok.1 hx
      simp only [Exec.ok.injEq, Prod.mk.injEq] at hx
      obtain ⟨rfl, rfl⟩ := hx
      simp only [BTree.Map.readOpt] at hk
      obtain ⟨y, hy, hk⟩ := Exec.bind_eq_ok.1 hk
      dsimp only
      refine Triple.seq (nextBack_own hn hy h2 hb) fun o => ?_
      refine Triple.getFact fun ho => ?_
      exact Triple.ofPure (Ent.putFact ⟨ho.1, ⟨h1, ho.2⟩, by dsimp only; rw [h3]⟩ (Ent.refl _))

theorem own_handles {hm : HMap} {M : Map K V} {ta : ATree K V} {a b : Handle} {ra rb : HRef} (ha : HandleAt M.height ta a ra) (hb : HandleAt M.height ta b rb) :
    Ent (own hm M ta) (fact (a = b ↔ ra.node = rb.node ∧ ra.idx = rb.idx) ∗ own hm M ta) := by
  cases hs : M.shared with
  | true =>
    rw [own_shared hs]
    intro w hw
    refine fact_sep.2 ⟨?_, hw⟩
    obtain ⟨⟨_, h0, _, _⟩, _⟩ := hw
    obtain ⟨n, hn, hl, rfl⟩ := ha
    obtain ⟨m, hm, hl', rfl⟩ := hb
    obtain ⟨u, i⟩ := a
    obtain ⟨v, j⟩ := b
    rw [h0] at hl hl'
    dsimp only at hl hl' hn hm ⊢
    have hu : u = [] := List.eq_nil_of_length_eq_zero (by omega)
    have hv : v = [] := List.eq_nil_of_length_eq_zero (by omega)
    subst hu hv
    rw [hn] at hm
    simp only [Option.some.injEq] at hm
    subst hm
    constructor
    · intro h; simp only [Handle.mk.injEq, true_and] at h; exact ⟨rfl, h⟩
    · rintro ⟨_, h⟩; rw [h]
  | false =>
    rw [own_owned hs]
    intro w hw
    obtain ⟨pi, hw⟩ := hw
    have ⟨h1, h2⟩ := fact_sep.1 hw
    have := (fact_sep.1 (tree_handles ha hb w h2)).1
    exact fact_sep.2 ⟨this, pi, hw⟩

theorem HRange.done_iff {r : HRange} : r.done = true ↔ r.front.node = r.back.node ∧ r.front.idx = r.back.idx := by
  simp [HRange.done]

theorem range_stepH {bnd : Nat} : StepsOk (K := K) (V := V) bnd RangeAt (Range.stepH (K := K) (V := V)) (HRange.stepH bnd) := by
  intro E hm M ta e s s' hs hd x hb hx hk hat
  obtain ⟨h1, h2⟩ := hat
  refine Triple.pre ?_ (own_handles h1 h2)
  refine Triple.getFact fun heq => ?_
  unfold HRange.stepH
  cases e with
  | front =>
    simp only [BTree.Range.stepH, BTree.Range.nextH] at hx
    split at hx
    · next h0 =>
      simp only [Exec.ok.injEq, Prod.mk.injEq] at hx
      obtain ⟨rfl, rfl⟩ := hx
      rw [if_pos (HRange.done_iff.2 (heq.1 h0))]
      exact Triple.ofPure (Ent.putFact ⟨trivial, h1, h2⟩ (Ent.refl _))
    · next h0 =>
      rw [if_neg (fun h => h0 (heq.2 (HRange.done_iff.1 h)))]
      obtain ⟨⟨kv, f⟩, hn, hx⟩ := Exec.bind_eq_ok.1 hx
      simp only [Exec.ok.injEq, Prod.mk.injEq] at hx
      obtain ⟨rfl, rfl⟩ := hx
      dsimp only
      refine Triple.seq (next_own hn h1 hb) fun o => ?_
      refine Triple.getFact fun ho => ?_
      exact Triple.ofPure (Ent.putFact ⟨ho.1, ho.2, h2⟩ (Ent.refl _))
  | back =>
    simp only [BTree.Range.stepH, BTree.Range.nextBackH] at hx
    split at hx
    · next h0 =>
      simp only [Exec.ok.injEq, Prod.mk.injEq] at hx
      obtain ⟨rfl, rfl⟩ := hx
      rw [if_pos (HRange.done_iff.2 (heq.1 h0))]
      exact Triple.ofPure (Ent.putFact ⟨trivial, h1, h2⟩ (Ent.refl _))
    · next h0 =>
      rw [if_neg (fun h => h0 (heq.2 (HRange.done_iff.1 h)))]
      obtain ⟨⟨kv, f⟩, hn, hx⟩ := Exec.bind_eq_ok.1 hx
      simp only [Exec.ok.injEq, Prod.mk.injEq] at hx
      obtain ⟨rfl, rfl⟩ := hx
      simp only [BTree.Map.readOpt] at hk
      obtain ⟨y, hy, hk⟩ := Exec.bind_eq_ok.1 hk
      dsimp only
      refine Triple.seq (nextBack_own hn hy h2 hb) fun o => ?_
      refine Triple.getFact fun ho => ?_
      exact Triple.ofPure (Ent.putFact ⟨ho.1, h1, ho.2⟩ (Ent.refl _))

end Verif.Heap
