import Verif.Heap.SetAlg
import Verif.Heap.Proofs.Reading
import Verif.Heap.Proofs.UnwindMap
import Verif.BTree.Proofs.AlgViews
/-
The set algebra in memory does what the level-1 model says, and only reads.
-/
namespace Verif.Heap
open Verif
open Verif.BTree (Map BSet SetIter Peekable Difference Intersection TwoIters AlgView cmpOpt)
open Verif.Spec (End AlgKind AlgAct AlgSeen Shown)

variable {T α β γ δ : Type}

section
variable (Kn : HProp T Unit → Prop)

/-- `m` is the set `b` in memory. -/
abbrev SetAt (b : BSet T) (m : HMap) : Prop := MapAt Kn b.map m

/-- The iterator in memory stands where that of the level-1 model stands. -/
def SetIterAt (i : HSetIter) (j : SetIter T) : Prop :=
  i.set.root.height = j.set.map.height ∧ ∃ ta, Kn (own i.set j.set.map ta) ∧ IterAt j.set.map.height ta j.it i.it

/-- The same with a peeked item. -/
def PeekAt (i : HPeekable T) (j : Peekable T) : Prop := SetIterAt Kn i.iter j.iter ∧ i.peeked = j.peeked

def DiffAt : HDifference T → Difference T → Prop
  | .stitch i j, .stitch i' j' => SetIterAt Kn i i' ∧ PeekAt Kn j j'
  | .search i m, .search i' o => SetIterAt Kn i i' ∧ SetAt Kn o m
  | _, _ => False

def TwoAt (t : HTwoIters T) (u : TwoIters T) : Prop := PeekAt Kn t.a u.a ∧ PeekAt Kn t.b u.b

def InterAt : HIntersection → BTree.Intersection T → Prop
  | .stitch i j, .stitch i' j' => SetIterAt Kn i i' ∧ SetIterAt Kn j j'
  | .search i m, .search i' o => SetIterAt Kn i i' ∧ SetAt Kn o m
  | _, _ => False

def AlgAt : HAlgView T → AlgView T → Prop
  | .difference d, .difference d' => DiffAt Kn d d'
  | .symmetricDifference t, .symmetricDifference t' => TwoAt Kn t t'
  | .intersection d, .intersection d' => InterAt Kn d d'
  | .union t, .union t' => TwoAt Kn t t'
  | _, _ => False

end

variable {s : Heap T Unit} {Kn : HProp T Unit → Prop}

/-! ### the sets and their iterators -/

theorem SetAt.len {b : BSet T} {m : HMap} (h : SetAt Kn b m) : m.length = b.len := h.2.1

theorem setIter_ref (hg : Knows s Kn) {b : BSet T} {m : HMap} (h : SetAt Kn b m) : Refines s m.setIter b.iter (SetIterAt Kn) := by
  obtain ⟨_, _, hh, ta, hk⟩ := h
  obtain ⟨F, hw⟩ := hg.2 _ hk
  unfold HMap.setIter BSet.iter
  refine Refines.seq (Refines.ofTriple hg.1 hw (Rel := fun a c => IterAt b.map.height ta c a) fun c e => iter_own e) fun a c hac => ?_
  exact Refines.ret ⟨hh, ta, hk, hac⟩

theorem SetIterAt.len {i : HSetIter} {j : SetIter T} (h : SetIterAt Kn i j) : i.len = j.len := by
  obtain ⟨_, ta, _, h⟩ := h
  exact h.2

theorem SetIterAt.clone {i : HSetIter} {j : SetIter T} (h : SetIterAt Kn i j) : SetIterAt Kn i.clone j.clone := h

theorem setNext_ref (hg : Knows s Kn) {i : HSetIter} {j : SetIter T} (h : SetIterAt Kn i j) : Refines s i.next j.next (ItemAt (SetIterAt Kn)) := by
  obtain ⟨hh, ta, hk, hat⟩ := h
  obtain ⟨F, hw⟩ := hg.2 _ hk
  unfold HSetIter.next SetIter.next SetIter.step
  refine Refines.seq (Refines.ofTriple hg.1 hw (Rel := fun a c => a.1.map (·.1) = c.1 ∧ IterAt j.set.map.height ta c.2 a.2) fun c e => ?_) fun a c hac => ?_
  · obtain ⟨y, h1, h2⟩ := stepMap_split (x := c.1) (it' := c.2) e
    refine Triple.post (iter_step_own (by rw [hh]; exact Nat.le_refl _) h1 hat) fun a => ?_
    rw [h2]
    exact Ent.fact_left fun h => Ent.fact_right ⟨by rw [h.1], h.2⟩ (Ent.refl _)
  · exact Refines.ret ⟨hac.1, hh, ta, hk, hac.2⟩

theorem contains_ref [Ord T] (hg : Knows s Kn) {b : BSet T} {m : HMap} (h : SetAt Kn b m) (x : T) : Refines s (m.setContains x) (b.contains id x) Eq := by
  obtain ⟨hb, _, _, ta, hk⟩ := h
  obtain ⟨F, hw⟩ := hg.2 _ hk
  obtain ⟨r, h1, h2⟩ := BTree.getKeyValue_wf hb id x
  have e : b.contains id x = (b.map.getKeyValue id x >>= fun r => .ok r.isSome) := by
    simp only [BSet.contains, BTree.Map.containsKey, h1, h2, Exec.ok_bind, Option.isSome_map]
  rw [e]
  unfold HMap.setContains
  refine Refines.seq (Refines.ofTriple hg.1 hw (Rel := Eq) fun c e => getKeyValue_spec e) fun a c hac => ?_
  subst hac
  exact Refines.ret rfl

/-! ### `Peekable` -/

theorem PeekAt.len {i : HPeekable T} {j : Peekable T} (h : PeekAt Kn i j) : i.len = j.len := by
  obtain ⟨i, pk⟩ := i
  obtain ⟨j, pk'⟩ := j
  obtain ⟨h, e⟩ := h
  dsimp only at h e
  subst e
  have := h.len
  rcases pk with _ | _ | _ <;> simp only [HPeekable.len, Peekable.len, this]

theorem PeekAt.clone {i : HPeekable T} {j : Peekable T} (h : PeekAt Kn i j) : PeekAt Kn i.clone j.clone := ⟨h.1.clone, h.2⟩

theorem SetIterAt.peekable {i : HSetIter} {j : SetIter T} (h : SetIterAt Kn i j) : PeekAt Kn i.peekable j.peekable := ⟨h, rfl⟩

theorem peekNext_ref (hg : Knows s Kn) {i : HPeekable T} {j : Peekable T} (h : PeekAt Kn i j) : Refines s i.next j.next (ItemAt (PeekAt Kn)) := by
  obtain ⟨i, pk⟩ := i
  obtain ⟨j, pk'⟩ := j
  obtain ⟨h, e⟩ := h
  dsimp only at h e
  subst e
  cases pk with
  | some v => exact Refines.ret ⟨rfl, h, rfl⟩
  | none => exact Refines.seq (setNext_ref hg h) fun a b hab => Refines.ret ⟨hab.1, hab.2, rfl⟩

theorem peek_ref (hg : Knows s Kn) {i : HPeekable T} {j : Peekable T} (h : PeekAt Kn i j) : Refines s i.peek j.peek (ItemAt (PeekAt Kn)) := by
  obtain ⟨i, pk⟩ := i
  obtain ⟨j, pk'⟩ := j
  obtain ⟨h, e⟩ := h
  dsimp only at h e
  subst e
  cases pk with
  | some v => exact Refines.ret ⟨rfl, h, rfl⟩
  | none => exact Refines.seq (setNext_ref hg h) fun a b hab => Refines.ret ⟨hab.1, hab.2, by dsimp only; rw [hab.1]⟩

/-! ### difference -/

theorem difference_ref (hg : Knows s Kn) {b o : BSet T} {m n : HMap} (h : SetAt Kn b m) (h' : SetAt Kn o n) : Refines s (m.difference n) (b.difference o) (DiffAt Kn) := by
  unfold HMap.difference BSet.difference
  rw [h.len, h'.len]
  by_cases hc : o.len / BTree.TIPPING < b.len
  · rw [if_pos hc, if_pos hc]
    exact Refines.seq (setIter_ref hg h) fun _ _ h1 => Refines.seq (setIter_ref hg h') fun _ _ h2 => Refines.ret ⟨h1, h2.peekable⟩
  · rw [if_neg hc, if_neg hc]
    exact Refines.seq (setIter_ref hg h) fun _ _ h1 => Refines.ret ⟨h1, h'⟩

theorem differenceStitch_ref [Ord T] (hg : Knows s Kn) : ∀ (fuel : Nat) (x : T) {i : HSetIter} {i' : SetIter T} {j : HPeekable T} {j' : Peekable T}, SetIterAt Kn i i' → PeekAt Kn j j' →
    Refines s (hdifferenceStitch fuel x i j) (BTree.differenceStitch fuel x i' j') (ItemAt (DiffAt Kn))
  | 0, _, _, _, _, _, _, _ => Refines.panics
  | fuel + 1, x, i, i', j, j', h, h' => by
    unfold hdifferenceStitch BTree.differenceStitch
    refine Refines.seq (peek_ref hg h') fun p p' hp => ?_
    rw [hp.1]
    cases p'.1.elim Ordering.lt (fun y => compare x y) with
    | lt => exact Refines.ret ⟨rfl, h, hp.2⟩
    | eq =>
      refine Refines.seq (setNext_ref hg h) fun n n' hn => ?_
      rw [hn.1]
      cases n'.1 with
      | none => exact Refines.ret ⟨rfl, hn.2, hp.2⟩
      | some x' => exact Refines.seq (peekNext_ref hg hp.2) fun q q' hq => differenceStitch_ref hg fuel x' hn.2 hq.2
    | gt => exact Refines.seq (peekNext_ref hg hp.2) fun q q' hq => differenceStitch_ref hg fuel x h hq.2

theorem differenceSearch_ref [Ord T] (hg : Knows s Kn) {o : BSet T} {n : HMap} (ho : SetAt Kn o n) : ∀ (fuel : Nat) {i : HSetIter} {i' : SetIter T}, SetIterAt Kn i i' →
    Refines s (hdifferenceSearch n fuel i) (BTree.differenceSearch o fuel i') (ItemAt (DiffAt Kn))
  | 0, _, _, _ => Refines.panics
  | fuel + 1, i, i', h => by
    unfold hdifferenceSearch BTree.differenceSearch
    refine Refines.seq (setNext_ref hg h) fun p p' hp => ?_
    rw [hp.1]
    cases p'.1 with
    | none => exact Refines.ret ⟨rfl, hp.2, ho⟩
    | some x =>
      refine Refines.seq (contains_ref hg ho x) fun c c' hc => ?_
      subst hc
      cases c with
      | true => exact differenceSearch_ref hg ho fuel hp.2
      | false => exact Refines.ret ⟨rfl, hp.2, ho⟩

theorem differenceNext_ref [Ord T] (hg : Knows s Kn) {d : HDifference T} {d' : Difference T} (h : DiffAt Kn d d') : Refines s d.next d'.next (ItemAt (DiffAt Kn)) := by
  cases d <;> cases d' <;> first | exact h.elim | skip
  · obtain ⟨h1, h2⟩ := h
    unfold HDifference.next Difference.next
    refine Refines.seq (setNext_ref hg h1) fun n n' hn => ?_
    rw [hn.1]
    cases n'.1 with
    | none => exact Refines.ret ⟨rfl, hn.2, h2⟩
    | some x =>
      dsimp only
      rw [h2.len]
      exact differenceStitch_ref hg _ x hn.2 h2
  · obtain ⟨h1, h2⟩ := h
    unfold HDifference.next Difference.next
    dsimp only
    rw [h1.len]
    exact differenceSearch_ref hg h2 _ h1

/-! ### symmetric difference and union -/

theorem twoIters_ref (hg : Knows s Kn) {b o : BSet T} {m n : HMap} (h : SetAt Kn b m) (h' : SetAt Kn o n) : Refines s (m.twoIters n) (b.twoIters o) (TwoAt Kn) := by
  unfold HMap.twoIters BSet.twoIters
  exact Refines.seq (setIter_ref hg h) fun _ _ h1 => Refines.seq (setIter_ref hg h') fun _ _ h2 => Refines.ret ⟨h1.peekable, h2.peekable⟩

theorem symDiffLoop_ref [Ord T] (hg : Knows s Kn) : ∀ (fuel : Nat) {t : HTwoIters T} {u : TwoIters T}, TwoAt Kn t u →
    Refines s (hsymDiffLoop fuel t) (BTree.symDiffLoop fuel u) (ItemAt (TwoAt Kn))
  | 0, _, _, _ => Refines.panics
  | fuel + 1, t, u, h => by
    unfold hsymDiffLoop BTree.symDiffLoop
    refine Refines.seq (peek_ref hg h.1) fun p p' hp => ?_
    refine Refines.seq (peek_ref hg h.2) fun q q' hq => ?_
    rw [hp.1, hq.1]
    cases cmpOpt p'.1 q'.1 .gt .lt with
    | lt => exact Refines.seq (peekNext_ref hg hp.2) fun _ _ hn => Refines.ret ⟨hn.1, hn.2, hq.2⟩
    | eq => exact Refines.seq (peekNext_ref hg hp.2) fun _ _ hn => Refines.seq (peekNext_ref hg hq.2) fun _ _ hn' => symDiffLoop_ref hg fuel ⟨hn.2, hn'.2⟩
    | gt => exact Refines.seq (peekNext_ref hg hq.2) fun _ _ hn => Refines.ret ⟨hn.1, hp.2, hn.2⟩

theorem symDiffNext_ref [Ord T] (hg : Knows s Kn) {t : HTwoIters T} {u : TwoIters T} (h : TwoAt Kn t u) : Refines s t.symDiffNext u.symDiffNext (ItemAt (TwoAt Kn)) := by
  unfold HTwoIters.symDiffNext TwoIters.symDiffNext
  rw [h.1.len, h.2.len]
  exact symDiffLoop_ref hg _ h

theorem unionNext_ref [Ord T] (hg : Knows s Kn) {t : HTwoIters T} {u : TwoIters T} (h : TwoAt Kn t u) : Refines s t.unionNext u.unionNext (ItemAt (TwoAt Kn)) := by
  unfold HTwoIters.unionNext TwoIters.unionNext
  refine Refines.seq (peek_ref hg h.1) fun p p' hp => ?_
  refine Refines.seq (peek_ref hg h.2) fun q q' hq => ?_
  rw [hp.1, hq.1]
  cases cmpOpt p'.1 q'.1 .gt .lt with
  | lt => exact Refines.seq (peekNext_ref hg hp.2) fun _ _ hn => Refines.ret ⟨hn.1, hn.2, hq.2⟩
  | eq => exact Refines.seq (peekNext_ref hg hq.2) fun _ _ hn' => Refines.seq (peekNext_ref hg hp.2) fun _ _ hn => Refines.ret ⟨hn.1, hn.2, hn'.2⟩
  | gt => exact Refines.seq (peekNext_ref hg hq.2) fun _ _ hn => Refines.ret ⟨hn.1, hp.2, hn.2⟩

/-! ### intersection -/

theorem intersectionOf_ref (hg : Knows s Kn) {b o : BSet T} {m n : HMap} (h : SetAt Kn b m) (h' : SetAt Kn o n) :
    Refines s (m.intersectionOf n) (if o.len / BTree.TIPPING < b.len then (do let i ← b.iter; let j ← o.iter; .ok (.stitch i j)) else (do let i ← b.iter; .ok (.search i o)))
      (InterAt Kn) := by
  unfold HMap.intersectionOf
  rw [h.len, h'.len]
  by_cases hc : o.len / BTree.TIPPING < b.len
  · rw [if_pos hc, if_pos hc]
    exact Refines.seq (setIter_ref hg h) fun _ _ h1 => Refines.seq (setIter_ref hg h') fun _ _ h2 => Refines.ret ⟨h1, h2⟩
  · rw [if_neg hc, if_neg hc]
    exact Refines.seq (setIter_ref hg h) fun _ _ h1 => Refines.ret ⟨h1, h'⟩

theorem intersection_ref (hg : Knows s Kn) {b o : BSet T} {m n : HMap} (h : SetAt Kn b m) (h' : SetAt Kn o n) : Refines s (m.intersection n) (b.intersection o) (InterAt Kn) := by
  unfold HMap.intersection BSet.intersection
  rw [h.len, h'.len]
  by_cases hc : b.len ≤ o.len
  · rw [if_pos hc, if_pos hc]
    exact intersectionOf_ref hg h h'
  · rw [if_neg hc, if_neg hc]
    exact intersectionOf_ref hg h' h

theorem intersectionStitch_ref [Ord T] (hg : Knows s Kn) : ∀ (fuel : Nat) (x y : T) {i j : HSetIter} {i' j' : SetIter T}, SetIterAt Kn i i' → SetIterAt Kn j j' →
    Refines s (hintersectionStitch fuel x y i j) (BTree.intersectionStitch fuel x y i' j') (ItemAt (InterAt Kn))
  | 0, _, _, _, _, _, _, _, _ => Refines.panics
  | fuel + 1, x, y, i, j, i', j', h, h' => by
    unfold hintersectionStitch BTree.intersectionStitch
    cases compare x y with
    | lt =>
      refine Refines.seq (setNext_ref hg h) fun n n' hn => ?_
      rw [hn.1]
      cases n'.1 with
      | none => exact Refines.ret ⟨rfl, hn.2, h'⟩
      | some x' => exact intersectionStitch_ref hg fuel x' y hn.2 h'
    | gt =>
      refine Refines.seq (setNext_ref hg h') fun n n' hn => ?_
      rw [hn.1]
      cases n'.1 with
      | none => exact Refines.ret ⟨rfl, h, hn.2⟩
      | some y' => exact intersectionStitch_ref hg fuel x y' h hn.2
    | eq => exact Refines.ret ⟨rfl, h, h'⟩

theorem intersectionSearch_ref [Ord T] (hg : Knows s Kn) {o : BSet T} {n : HMap} (ho : SetAt Kn o n) : ∀ (fuel : Nat) {i : HSetIter} {i' : SetIter T}, SetIterAt Kn i i' →
    Refines s (hintersectionSearch n fuel i) (BTree.intersectionSearch o fuel i') (ItemAt (InterAt Kn))
  | 0, _, _, _ => Refines.panics
  | fuel + 1, i, i', h => by
    unfold hintersectionSearch BTree.intersectionSearch
    refine Refines.seq (setNext_ref hg h) fun p p' hp => ?_
    rw [hp.1]
    cases p'.1 with
    | none => exact Refines.ret ⟨rfl, hp.2, ho⟩
    | some x =>
      refine Refines.seq (contains_ref hg ho x) fun c c' hc => ?_
      subst hc
      cases c with
      | true => exact Refines.ret ⟨rfl, hp.2, ho⟩
      | false => exact intersectionSearch_ref hg ho fuel hp.2

theorem intersectionNext_ref [Ord T] (hg : Knows s Kn) {d : HIntersection} {d' : BTree.Intersection T} (h : InterAt Kn d d') : Refines s d.next d'.next (ItemAt (InterAt Kn)) := by
  cases d <;> cases d' <;> first | exact h.elim | skip
  · obtain ⟨h1, h2⟩ := h
    unfold HIntersection.next BTree.Intersection.next
    refine Refines.seq (setNext_ref hg h1) fun n n' hn => ?_
    rw [hn.1]
    cases n'.1 with
    | none => exact Refines.ret ⟨rfl, hn.2, h2⟩
    | some x =>
      refine Refines.seq (setNext_ref hg h2) fun k k' hk => ?_
      rw [hk.1]
      cases k'.1 with
      | none => exact Refines.ret ⟨rfl, hn.2, hk.2⟩
      | some y =>
        dsimp only
        rw [hn.2.len, hk.2.len]
        exact intersectionStitch_ref hg _ x y hn.2 hk.2
  · obtain ⟨h1, h2⟩ := h
    unfold HIntersection.next BTree.Intersection.next
    dsimp only
    rw [h1.len]
    exact intersectionSearch_ref hg h2 _ h1

/-! ### predicates -/

theorem isDisjoint_ref [Ord T] (hg : Knows s Kn) {b o : BSet T} {m n : HMap} (h : SetAt Kn b m) (h' : SetAt Kn o n) : Refines s (m.isDisjoint n) (b.isDisjoint o) Eq := by
  unfold HMap.isDisjoint BSet.isDisjoint
  exact Refines.seq (intersection_ref hg h h') fun _ _ h1 => Refines.seq (intersectionNext_ref hg h1) fun _ _ h2 => Refines.ret (by rw [h2.1])

theorem subsetStitch_ref [Ord T] (hg : Knows s Kn) : ∀ (fuel : Nat) (a b : Option T) {i j : HSetIter} {i' j' : SetIter T}, SetIterAt Kn i i' → SetIterAt Kn j j' →
    Refines s (hsubsetStitch fuel a b i j) (BTree.subsetStitch fuel a b i' j') Eq
  | 0, _, _, _, _, _, _, _, _ => Refines.panics
  | fuel + 1, a, b, i, j, i', j', h, h' => by
    unfold hsubsetStitch BTree.subsetStitch
    cases a with
    | none => exact Refines.ret rfl
    | some a =>
      cases b with
      | none => exact Refines.ret rfl
      | some b =>
        dsimp only
        cases compare b a with
        | lt =>
          refine Refines.seq (setNext_ref hg h') fun n n' hn => ?_
          rw [hn.1]
          exact subsetStitch_ref hg fuel _ _ h hn.2
        | gt => exact Refines.ret rfl
        | eq =>
          refine Refines.seq (setNext_ref hg h) fun n n' hn => ?_
          refine Refines.seq (setNext_ref hg h') fun k k' hk => ?_
          rw [hn.1, hk.1]
          exact subsetStitch_ref hg fuel _ _ hn.2 hk.2

theorem subsetSearch_ref [Ord T] (hg : Knows s Kn) {o : BSet T} {n : HMap} (ho : SetAt Kn o n) : ∀ (fuel : Nat) {i : HSetIter} {i' : SetIter T}, SetIterAt Kn i i' →
    Refines s (hsubsetSearch n fuel i) (BTree.subsetSearch o fuel i') Eq
  | 0, _, _, _ => Refines.panics
  | fuel + 1, i, i', h => by
    unfold hsubsetSearch BTree.subsetSearch
    refine Refines.seq (setNext_ref hg h) fun p p' hp => ?_
    rw [hp.1]
    cases p'.1 with
    | none => exact Refines.ret rfl
    | some x =>
      refine Refines.seq (contains_ref hg ho x) fun c c' hc => ?_
      subst hc
      cases c with
      | true => exact subsetSearch_ref hg ho fuel hp.2
      | false => exact Refines.ret rfl

theorem isSubset_ref [Ord T] (hg : Knows s Kn) {b o : BSet T} {m n : HMap} (h : SetAt Kn b m) (h' : SetAt Kn o n) : Refines s (m.isSubset n) (b.isSubset o) Eq := by
  unfold HMap.isSubset BSet.isSubset
  rw [h.len, h'.len]
  by_cases h1 : o.len < b.len
  · rw [if_pos h1, if_pos h1]
    exact Refines.ret rfl
  · rw [if_neg h1, if_neg h1]
    by_cases h2 : o.len / BTree.TIPPING < b.len
    · rw [if_pos h2, if_pos h2]
      refine Refines.seq (setIter_ref hg h) fun x x' hx => ?_
      refine Refines.seq (setIter_ref hg h') fun y y' hy => ?_
      refine Refines.seq (setNext_ref hg hx) fun n n' hn => ?_
      refine Refines.seq (setNext_ref hg hy) fun k k' hk => ?_
      rw [hn.1, hk.1]
      exact subsetStitch_ref hg _ _ _ hn.2 hk.2
    · rw [if_neg h2, if_neg h2]
      exact Refines.seq (setIter_ref hg h) fun x x' hx => subsetSearch_ref hg h' _ hx

/-! ### printing -/

theorem drain_ref (hg : Knows s Kn) : ∀ (fuel : Nat) {i : HSetIter} {j : SetIter T}, SetIterAt Kn i j → Refines s (i.drain fuel) (j.drain fuel) Eq
  | 0, _, _, _ => Refines.panics
  | fuel + 1, i, j, h => by
    unfold HSetIter.drain SetIter.drain
    refine Refines.seq (setNext_ref hg h) fun n n' hn => ?_
    rw [hn.1]
    cases n'.1 with
    | none => exact Refines.ret rfl
    | some x =>
      refine Refines.seq (drain_ref hg fuel hn.2) fun l l' hl => ?_
      subst hl
      exact Refines.ret rfl

theorem setDebug_ref (hg : Knows s Kn) {i : HSetIter} {j : SetIter T} (h : SetIterAt Kn i j) : Refines s i.debug j.debug Eq := by
  unfold HSetIter.debug SetIter.debug
  rw [h.len]
  exact drain_ref hg _ h.clone

theorem peekDebug_ref (hg : Knows s Kn) {i : HPeekable T} {j : Peekable T} (h : PeekAt Kn i j) : Refines s i.debug j.debug Eq := by
  unfold HPeekable.debug Peekable.debug
  refine Refines.seq (setDebug_ref hg h.1) fun l l' hl => ?_
  subst hl
  exact Refines.ret (by rw [h.2])

theorem twoDebug_ref (hg : Knows s Kn) {t : HTwoIters T} {u : TwoIters T} (h : TwoAt Kn t u) : Refines s t.debug u.debug Eq := by
  unfold HTwoIters.debug TwoIters.debug
  exact Refines.seq (peekDebug_ref hg h.1) fun l l' hl => Refines.seq (peekDebug_ref hg h.2) fun r r' hr => Refines.ret (by rw [hl, hr])

/-! ### programs -/

theorem algView_ref (hg : Knows s Kn) {b o : BSet T} {m n : HMap} (h : SetAt Kn b m) (h' : SetAt Kn o n) (k : AlgKind) : Refines s (m.algView n k) (b.algView o k) (AlgAt Kn) := by
  cases k
  · exact Refines.seq (difference_ref hg h h') fun _ _ h1 => Refines.ret h1
  · exact Refines.seq (twoIters_ref hg h h') fun _ _ h1 => Refines.ret h1
  · exact Refines.seq (intersection_ref hg h h') fun _ _ h1 => Refines.ret h1
  · exact Refines.seq (twoIters_ref hg h h') fun _ _ h1 => Refines.ret h1

theorem AlgAt.clone {v : HAlgView T} {w : AlgView T} (h : AlgAt Kn v w) : AlgAt Kn v.clone w.clone := by
  rcases v with (_ | _) | _ | (_ | _) | _ <;> rcases w with (_ | _) | _ | (_ | _) | _ <;> first | exact h.elim | exact h

theorem AlgAt.hint {v : HAlgView T} {w : AlgView T} (h : AlgAt Kn v w) : v.sizeHint = w.sizeHint := by
  rcases v with (_ | _) | _ | (_ | _) | _ <;> rcases w with (_ | _) | _ | (_ | _) | _ <;> first | exact h.elim | obtain ⟨h1, h2⟩ := h
  all_goals simp only [HAlgView.sizeHint, HDifference.sizeHint, HIntersection.sizeHint, HTwoIters.symDiffHint, HTwoIters.unionHint, AlgView.sizeHint, Difference.sizeHint,
    BTree.Intersection.sizeHint, TwoIters.symDiffHint, TwoIters.unionHint, h1.len, h2.len]

theorem algNext_ref [Ord T] (hg : Knows s Kn) {v : HAlgView T} {w : AlgView T} (h : AlgAt Kn v w) : Refines s v.next w.next (ItemAt (AlgAt Kn)) := by
  cases v <;> cases w <;> first | exact h.elim | skip
  · exact Refines.seq (differenceNext_ref hg h) fun _ _ h1 => Refines.ret h1
  · exact Refines.seq (symDiffNext_ref hg h) fun _ _ h1 => Refines.ret h1
  · exact Refines.seq (intersectionNext_ref hg h) fun _ _ h1 => Refines.ret h1
  · exact Refines.seq (unionNext_ref hg h) fun _ _ h1 => Refines.ret h1

theorem algDebug_ref (hg : Knows s Kn) {v : HAlgView T} {w : AlgView T} (h : AlgAt Kn v w) : Refines s v.debug w.debug Eq := by
  rcases v with (_ | _) | _ | (_ | _) | _ <;> rcases w with (_ | _) | _ | (_ | _) | _ <;> first | exact h.elim | skip
  · exact Refines.seq (setDebug_ref hg h.1) fun _ _ h1 => Refines.seq (peekDebug_ref hg h.2) fun _ _ h2 => Refines.ret (by rw [h1, h2])
  · exact Refines.seq (setDebug_ref hg h.1) fun _ _ h1 => Refines.ret (by rw [h1])
  · exact twoDebug_ref hg h
  · exact Refines.seq (setDebug_ref hg h.1) fun _ _ h1 => Refines.seq (setDebug_ref hg h.2) fun _ _ h2 => Refines.ret (by rw [h1, h2])
  · exact Refines.seq (setDebug_ref hg h.1) fun _ _ h1 => Refines.ret (by rw [h1])
  · exact twoDebug_ref hg h

/-- All the iterators of a program. -/
def AlgsAt (Kn : HProp T Unit → Prop) (vs : List (HAlgView T)) (ws : List (AlgView T)) : Prop :=
  vs.length = ws.length ∧ ∀ (i : Nat) v w, vs[i]? = some v → ws[i]? = some w → AlgAt Kn v w

theorem AlgsAt.add {vs : List (HAlgView T)} {ws : List (AlgView T)} (h : AlgsAt Kn vs ws) {v : HAlgView T} {w : AlgView T} (hv : AlgAt Kn v w) : AlgsAt Kn (vs ++ [v]) (ws ++ [w]) := by
  refine ⟨by simp [h.1], fun i v' w' h1 h2 => ?_⟩
  rcases Nat.lt_trichotomy i vs.length with hi | hi | hi
  · rw [List.getElem?_append_left hi] at h1
    rw [List.getElem?_append_left (by rw [← h.1]; exact hi)] at h2
    exact h.2 i _ _ h1 h2
  · rw [hi, List.getElem?_concat_length] at h1
    rw [hi, h.1, List.getElem?_concat_length] at h2
    obtain rfl := Option.some.inj h1
    obtain rfl := Option.some.inj h2
    exact hv
  · rw [List.getElem?_eq_none (by simp; omega)] at h1
    cases h1

theorem AlgsAt.set {vs : List (HAlgView T)} {ws : List (AlgView T)} (h : AlgsAt Kn vs ws) {v : HAlgView T} {w : AlgView T} (hv : AlgAt Kn v w) (i : Nat) :
    AlgsAt Kn (vs.set i v) (ws.set i w) := by
  refine ⟨by simp [h.1], fun j v' w' h1 h2 => ?_⟩
  rw [List.getElem?_set] at h1 h2
  by_cases hij : i = j
  · rw [if_pos hij] at h1 h2
    split at h1
    · split at h2
      · obtain rfl := Option.some.inj h1
        obtain rfl := Option.some.inj h2
        exact hv
      · cases h2
    · cases h1
  · rw [if_neg hij] at h1 h2
    exact h.2 j _ _ h1 h2

theorem onAlg_ref {vs : List (HAlgView T)} {ws : List (AlgView T)} (h : AlgsAt Kn vs ws) (i : Nat) {f : HAlgView T → HM T Unit (AlgSeen T × List (HAlgView T))}
    {g : AlgView T → Exec (AlgSeen T × List (AlgView T))} (hf : ∀ v w, AlgAt Kn v w → Refines s (f v) (g w) (fun a b => a.1 = b.1 ∧ AlgsAt Kn a.2 b.2)) :
    Refines s (onHAlg vs i f) (BTree.onAlg ws i g) (fun a b => a.1 = b.1 ∧ AlgsAt Kn a.2 b.2) := by
  unfold onHAlg BTree.onAlg
  by_cases hi : i < ws.length
  · have hi' : i < vs.length := by rw [h.1]; exact hi
    rw [List.getElem?_eq_getElem hi, List.getElem?_eq_getElem hi']
    exact hf _ _ (h.2 i _ _ (List.getElem?_eq_getElem hi') (List.getElem?_eq_getElem hi))
  · have hw : ws[i]? = none := List.getElem?_eq_none (by omega)
    have hv : vs[i]? = none := List.getElem?_eq_none (by have := h.1; omega)
    rw [hv, hw]
    exact Refines.ret ⟨rfl, h⟩

theorem algRun_ref [Ord T] (hg : Knows s Kn) {b o : BSet T} {m n : HMap} (h : SetAt Kn b m) (h' : SetAt Kn o n) {vs : List (HAlgView T)} {ws : List (AlgView T)} (hv : AlgsAt Kn vs ws)
    (a : AlgAct) : Refines s (AlgAct.hrun m n vs a) (BTree.AlgAct.run b o ws a) (fun a b => a.1 = b.1 ∧ AlgsAt Kn a.2 b.2) := by
  cases a with
  | start k => exact Refines.seq (algView_ref hg h h' k) fun _ _ h1 => Refines.ret ⟨rfl, hv.add h1⟩
  | clone i => exact onAlg_ref hv i fun _ _ h1 => Refines.ret ⟨rfl, hv.add h1.clone⟩
  | next i => exact onAlg_ref hv i fun _ _ h1 => Refines.seq (algNext_ref hg h1) fun _ _ h2 => Refines.ret ⟨by dsimp only; rw [h2.1], hv.set h2.2 i⟩
  | hint i => exact onAlg_ref hv i fun _ _ h1 => Refines.ret ⟨by dsimp only; rw [h1.hint], hv⟩
  | debug i => exact onAlg_ref hv i fun _ _ h1 => Refines.seq (algDebug_ref hg h1) fun _ _ h2 => Refines.ret ⟨by dsimp only; rw [h2], hv⟩

theorem algRuns_ref [Ord T] (hg : Knows s Kn) {b o : BSet T} {m n : HMap} (h : SetAt Kn b m) (h' : SetAt Kn o n) : ∀ (as : List AlgAct) {vs : List (HAlgView T)} {ws : List (AlgView T)},
    AlgsAt Kn vs ws → Refines s (AlgAct.hruns m n as vs) (BTree.AlgAct.runs b o as ws) Eq
  | [], _, _, _ => Refines.ret rfl
  | a :: as, vs, ws, hv => by
    unfold AlgAct.hruns BTree.AlgAct.runs
    refine Refines.seq (algRun_ref hg h h' hv a) fun x y hxy => ?_
    refine Refines.seq (algRuns_ref hg h h' as hxy.2) fun xs ys hs => ?_
    exact Refines.ret (by rw [hxy.1, hs])

/-! ### the operators -/

/-- `collect` in memory is `from_iter` of the items that the iterator yields. -/
theorem hcollectSet_eq [Ord T] {S U : Type} {hnext : S → HM T Unit (Option T × S)} {next : U → Exec (Option T × U)} {Rel : S → U → Prop} {I : U → List T → Prop} {A : HProp T Unit}
    (hy : BTree.Yields next I) (hk : ∀ {s : Heap T Unit} {F}, s.Good → (A ∗ F) s.world → Knows s Kn)
    (hstep : ∀ {s : Heap T Unit}, Knows s Kn → ∀ {x y}, Rel x y → Refines s (hnext x) (next y) (ItemAt Rel)) (fk : T → T) :
    ∀ (out : List T) (fuel : Nat) {x : S} {y : U} {m : HMap} {M : Map T Unit} {al : Alloc} {R : HProp T Unit} {s : Heap T Unit}, M.WF → s.Good →
      ((rep m M ∗ sched al) ∗ A ∗ R) s.world → Rel x y → I y out → out.length < fuel →
      hcollectSet hnext fk fuel x m s = m.extendU (out.map fun t => (fk t, ())) s
  | out, 0, _, _, _, _, _, _, _, _, _, _, _, _, hf => by omega
  | out, fuel + 1, x, y, m, M, al, R, s, hM, hg, hw, hxy, hI, hf => by
    have hA : (A ∗ (rep m M ∗ sched al) ∗ R) s.world := by
      have : ((rep m M ∗ sched al) ∗ A ∗ R) = (A ∗ (rep m M ∗ sched al) ∗ R) := by ac_rfl
      rw [← this]; exact hw
    obtain ⟨y', h1, h2⟩ := hy y out hI
    obtain ⟨⟨o, x'⟩, h3, h4, h5⟩ := hstep (hk hg hA) hxy _ h1
    dsimp only at h4 h5
    subst h4
    show HM.bind (hnext x) _ s = _
    unfold HM.bind
    rw [h3]
    cases out with
    | nil => rfl
    | cons t out =>
      dsimp only [List.head?_cons, List.map_cons]
      show HM.bind (m.tryInsert (fk t) ()) _ s = HM.bind (m.tryInsert (fk t) ()) _ s
      obtain ⟨res, M1, al1, g1, g2, _⟩ := BTree.Map.tryInsert_wf hM (fk t) () al
      obtain ⟨⟨r, m1⟩, s1, g3, g4, g5⟩ := Triple.returns (tryInsert_rep g1) hg hw
      unfold HM.bind
      rw [g3]
      dsimp only
      cases res with
      | error e =>
        rw [insertPost_error, sep_comm (sched al1), sep_assoc, sep_assoc] at g5
        obtain ⟨g6, _⟩ := fact_sep.1 g5
        dsimp only at g6
        subst g6
        rfl
      | ok old =>
        rw [insertPost_ok, sep_comm (sched al1), sep_assoc, sep_assoc] at g5
        obtain ⟨g7, g6⟩ := fact_sep.1 g5
        dsimp only at g7 g6
        rw [← sep_assoc (rep m1 M1)] at g6
        subst g7
        exact hcollectSet_eq hy hk hstep fk out fuel g2.1 g4 g6 h5 h2 (by simpa using hf)

theorem hcollect_eq [Ord T] {S U : Type} {hnext : S → HM T Unit (Option T × S)} {next : U → Exec (Option T × U)} {Rel : S → U → Prop} {I : U → List T → Prop} {A : HProp T Unit}
    (hy : BTree.Yields next I) (hk : ∀ {s : Heap T Unit} {F}, s.Good → (A ∗ F) s.world → Knows s Kn)
    (hstep : ∀ {s : Heap T Unit}, Knows s Kn → ∀ {x y}, Rel x y → Refines s (hnext x) (next y) (ItemAt Rel)) (fk : T → T)
    {out : List T} {fuel : Nat} {x : S} {y : U} {al : Alloc} {R : HProp T Unit} {s : Heap T Unit} (hg : s.Good)
    (hw : (A ∗ sched al ∗ R) s.world) (hxy : Rel x y) (hI : I y out) (hf : out.length < fuel) :
    (hcollectSet hnext fk fuel x HMap.new >>= hcollectEnd) s = HMap.fromIterU (out.map fun t => (fk t, ())) s := by
  have hw' : ((rep HMap.new (Map.new : Map T Unit) ∗ sched al) ∗ A ∗ R) s.world := by
    rw [rep_new, emp_sep]
    have : (A ∗ sched al ∗ R) = (sched al ∗ A ∗ R) := by ac_rfl
    rw [← this]; exact hw
  have h := hcollectSet_eq hy hk hstep fk out fuel Map.WF_new hg hw' hxy hI hf
  show HM.bind _ _ s = HM.bind _ _ s
  unfold HM.bind
  rw [h]
  cases HMap.new.extendU (out.map fun t => (fk t, ())) s with
  | ub => rfl
  | panic msg => rfl
  | ok r =>
    obtain ⟨⟨b, m⟩, s'⟩ := r
    cases b <;> rfl

/-- An operator in memory is `from_iter` of the elements that belong into the new set. -/
theorem operator_eq [Ord T] {A R : HProp T Unit} {al : Alloc} (hk : ∀ {s : Heap T Unit} {F}, s.Good → (A ∗ F) s.world → Knows s Kn) (hg : s.Good) (hw : (A ∗ sched al ∗ R) s.world)
    {b o : BSet T} {m n : HMap} (h : SetAt Kn b m) (h' : SetAt Kn o n) (p : BTree.AlgPlan b o) (fk : T → T) (k : AlgKind) :
    m.operator n fk k s = HMap.fromIterU ((p.outs k).map fun t => (fk t, ())) s := by
  have hK := hk hg hw
  have l1 := h.len
  have l2 := h'.len
  rw [BSet.len_spec h.1] at l1
  rw [BSet.len_spec h'.1] at l2
  have go : ∀ {S U : Type} {open_ : HM T Unit S} {x : Exec U} {Rel : S → U → Prop} {hnext : S → HM T Unit (Option T × S)} {next : U → Exec (Option T × U)} {I : U → List T → Prop}
      {fuel : Nat}, Refines s open_ x Rel → BTree.Yields next I → (∀ {s : Heap T Unit}, Knows s Kn → ∀ {x y}, Rel x y → Refines s (hnext x) (next y) (ItemAt Rel)) →
      (∃ d, x = .ok d ∧ I d (p.outs k)) → (p.outs k).length < fuel →
      (do let d ← open_; let x ← hcollectSet hnext fk fuel d HMap.new; hcollectEnd x) s = HMap.fromIterU ((p.outs k).map fun t => (fk t, ())) s := by
    intro S U open_ x Rel hnext next I fuel h1 hy hst h2 hf
    obtain ⟨d, h2, h3⟩ := h2
    obtain ⟨c, h4, h5⟩ := h1 d h2
    show HM.bind _ _ s = _
    unfold HM.bind
    rw [h4]
    exact hcollect_eq hy hk hst fk hg hw h5 h3 hf
  obtain ⟨q1, q2, q3, q4⟩ := p.len
  cases k with
  | difference => exact go (difference_ref hK h h') (Difference.yields o p.c p.has _) (fun hg => differenceNext_ref hg) p.diff (by omega)
  | symmetricDifference =>
    obtain ⟨t, t1, t2, t3⟩ := p.two
    exact go (twoIters_ref hK h h') TwoIters.symYields (fun hg => symDiffNext_ref hg) ⟨t, t1, t2⟩ (by omega)
  | intersection => exact go (intersection_ref hK h h') (BTree.Intersection.yields p.other p.ci p.hasi) (fun hg => intersectionNext_ref hg) p.inter (by omega)
  | union =>
    obtain ⟨t, t1, t2, t3⟩ := p.two
    exact go (twoIters_ref hK h h') TwoIters.unionYields (fun hg => unionNext_ref hg) ⟨t, t1, t3⟩ (by omega)

/-- `Debug` of a set. -/
theorem setFmt_ref (hg : Knows s Kn) {b : BSet T} {m : HMap} (h : SetAt Kn b m) : m.setDebug s = .ok (b.elems, s) := by
  obtain ⟨i, h1, h2⟩ := BSet.iter_spec h.1
  have h3 := h2.drain (b.len + 1) (by rw [BSet.len_spec h.1]; omega)
  have hr : Refines s m.setDebug (b.iter >>= fun i => i.drain (b.len + 1)) Eq := by
    unfold HMap.setDebug
    rw [h.len]
    exact Refines.seq (setIter_ref hg h) fun _ _ hi => drain_ref hg _ hi
  obtain ⟨a, e1, e2⟩ := hr b.elems (by rw [h1]; exact h3)
  rw [e1, e2]

end Verif.Heap
