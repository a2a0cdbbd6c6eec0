import Verif.Heap.Proofs.Steps
/-
Every function of the level-2 model, taken apart into accesses (see Steps.lean).
-/
namespace Verif.Heap
open Verif
open Verif.BTree (CAPACITY)
open Verif.Spec (Bound End MutAct Op Out Source ViewAct Seen)

variable {K V Q α β σ ρ : Type} {ro : Bool}

instance {a b : Addr} {f : Node K V → Node K V → Exec (Node K V × Node K V)} : Steps false (atNodes a b f) := by unfold atNodes; steps

instance {a : Addr} {i : Nat} : Steps false (correctParentLink a i : HM K V Unit) := by unfold correctParentLink; steps
instance correctLinks_steps {a : Addr} : ∀ {i n : Nat}, Steps false (correctLinks a i n : HM K V Unit)
  | i, 0 => by unfold correctLinks; steps
  | i, n + 1 => by
    haveI := fun i => correctLinks_steps (a := a) (i := i) (n := n)
    unfold correctLinks; steps

instance {a : Addr} : Steps false (setParentNull a : HM K V Unit) := by unfold setParentNull; steps
instance {src dst : Addr} {i j count : Nat} : Steps false (moveKv src dst i j count : HM K V Unit) := by unfold moveKv; steps
instance {src dst : Addr} {i j count : Nat} : Steps false (moveEdgesRaw src dst i j count : HM K V Unit) := by unfold moveEdgesRaw; steps
instance {src dst : Addr} {i j count : Nat} : Steps false (moveEdges src dst i j count : HM K V Unit) := by unfold moveEdges; steps
instance {a : Addr} {kv : K × V} : Steps false (pushLeaf a kv : HM K V Unit) := by unfold pushLeaf; steps
instance {r : NRef} {kv : K × V} {e : NRef} : Steps false (pushInternal r kv e : HM K V Unit) := by unfold pushInternal; steps
instance {a : Addr} {kv : K × V} : Steps false (pushFrontLeaf a kv : HM K V Unit) := by unfold pushFrontLeaf; steps
instance {r : NRef} {kv : K × V} {e : NRef} : Steps false (pushFrontInternal r kv e : HM K V Unit) := by unfold pushFrontInternal; steps
instance {r : NRef} : Steps false (pop r : HM K V ((K × V) × Option NRef)) := by unfold pop; steps
instance {r : NRef} : Steps false (popFront r : HM K V ((K × V) × Option NRef)) := by unfold popFront; steps
instance {h : HRef} {kv : K × V} {e : NRef} : Steps false (insertFitInternal h kv e : HM K V Unit) := by unfold insertFitInternal; steps
instance {h : HRef} {kv : K × V} : Steps false (insertFitLeaf h kv : HM K V Unit) := by unfold insertFitLeaf; steps
instance {h : HRef} : Steps false (splitLeaf h : HM K V (Option ((K × V) × NRef))) := by unfold splitLeaf; steps
instance {h : HRef} : Steps false (splitInternal h : HM K V (Option ((K × V) × NRef))) := by unfold splitInternal; steps
instance {h : HRef} {kv : K × V} : Steps false (insertLeaf h kv : HM K V (Ins K V)) := by unfold insertLeaf; steps
instance {h : HRef} {kv : K × V} {edge : NRef} : Steps false (insertInternal h kv edge : HM K V (Ins K V)) := by unfold insertInternal; steps
instance {h : HRef} : Steps false (removeLeaf h : HM K V (K × V)) := by unfold removeLeaf; steps
instance {h : HRef} : Steps ro (children h : HM K V (NRef × NRef)) := by unfold children; steps
instance {h : HRef} : Steps ro (canMerge h : HM K V Bool) := by unfold canMerge; steps
instance {h : HRef} : Steps false (merge h : HM K V HRef) := by unfold merge; steps
instance {r : NRef} {kv : K × V} {e : Option NRef} : Steps false (pushFrontAny r kv e : HM K V Unit) := by unfold pushFrontAny; steps
instance {r : NRef} {kv : K × V} {e : Option NRef} : Steps false (pushAny r kv e : HM K V Unit) := by unfold pushAny; steps
instance {h : HRef} : Steps false (stealLeft h : HM K V Unit) := by unfold stealLeft; steps
instance {h : HRef} : Steps false (stealRight h : HM K V Unit) := by unfold stealRight; steps
instance {a : Addr} {i : Nat} : Steps false (takeKvAt a i : HM K V (K × V)) := by unfold takeKvAt; steps
instance {a : Addr} {i : Nat} {kv : K × V} : Steps false (putKvAt a i kv : HM K V Unit) := by unfold putKvAt; steps
instance {h : HRef} {count : Nat} : Steps false (bulkStealLeft h count : HM K V Unit) := by unfold bulkStealLeft; steps
instance {h : HRef} {count : Nat} : Steps false (bulkStealRight h count : HM K V Unit) := by unfold bulkStealRight; steps
instance {h : HRef} {right : NRef} : Steps false (moveSuffix h right : HM K V Unit) := by unfold moveSuffix; steps
instance  : Steps false (newLeaf : HM K V (Option NRef)) := by unfold newLeaf; steps
instance {root : NRef} : Steps false (pushLevel root : HM K V (Option NRef)) := by unfold pushLevel; steps
instance {root : NRef} : Steps false (popLevel root : HM K V NRef) := by unfold popLevel; steps
instance {r : NRef} : Steps false (deallocateAndAscend r : HM K V (Option HRef)) := by unfold deallocateAndAscend; steps
instance searchKeys_steps [Ord Q] {bor : K → Q} {q : Q} {a : Addr} : ∀ {i n : Nat}, Steps ro (searchKeys bor q a i n : HM K V (Nat × Bool))
  | i, 0 => by unfold searchKeys; steps
  | i, n + 1 => by
    haveI := fun i => searchKeys_steps (bor := bor) (q := q) (a := a) (i := i) (n := n)
    unfold searchKeys; steps

instance [Ord Q] {bor : K → Q} {q : Q} {a : Addr} : Steps ro (searchLinear bor q a : HM K V (Nat × Bool)) := by unfold searchLinear; steps
instance searchTree_steps [Ord Q] {bor : K → Q} {q : Q} : ∀ {h : Nat} {a : Addr}, Steps ro (searchTree bor q h a : HM K V Found)
  | 0, a => by unfold searchTree; steps
  | h + 1, a => by
    haveI := fun a => searchTree_steps (bor := bor) (q := q) (h := h) (a := a)
    unfold searchTree; steps

instance [Ord Q] {m : HMap} {bor : K → Q} {q : Q} : Steps ro (HMap.search m bor q : HM K V Found) := by unfold HMap.search; steps
instance {h : HRef} : Steps ro (kvOf h : HM K V (K × V)) := by unfold kvOf; steps
instance [Ord Q] {m : HMap} {bor : K → Q} {q : Q} : Steps ro (HMap.getKeyValue m bor q : HM K V (Option (K × V))) := by unfold HMap.getKeyValue; steps
instance {h : HRef} {v : V} : Steps false (setVal h v : HM K V V) := by unfold setVal; steps
instance {h : HRef} {k : K} : Steps false (setKey h k : HM K V K) := by unfold setKey; steps
instance {m : HMap} : Steps false (HMap.ensureRootIsOwned m : HM K V (Option HMap)) := by unfold HMap.ensureRootIsOwned; steps
instance {root : NRef} {c : Carry K V} : Steps false (insertStep root c : HM K V (Carry K V ⊕ (NRef × Bool))) := by unfold insertStep; steps
instance {m : HMap} {h : HRef} {kv : K × V} : Steps false (HMap.vacantInsert m h kv : HM K V (Option HRef × HMap)) := by unfold HMap.vacantInsert; steps
instance [Ord K] {m : HMap} {k : K} : Steps false (HMap.tryEntry m k : HM K V (Option (HEntry K) × HMap)) := by unfold HMap.tryEntry; steps
instance [Ord K] {m : HMap} {k : K} {v : V} : Steps false (HMap.replaceKey m k v : HM K V (Option (Option K) × HMap)) := by unfold HMap.replaceKey; steps
instance [Ord K] {m : HMap} {k : K} {v : V} : Steps false (HMap.tryInsert m k v : HM K V (Option (Option V) × HMap)) := by unfold HMap.tryInsert; steps
instance firstLeafEdge_steps : ∀ {h : Nat} {a : Addr}, Steps ro (firstLeafEdge h a : HM K V HRef)
  | 0, a => by unfold firstLeafEdge; steps
  | h + 1, a => by
    haveI := fun a => firstLeafEdge_steps (h := h) (a := a)
    unfold firstLeafEdge; steps

instance lastLeafEdge_steps : ∀ {h : Nat} {a : Addr}, Steps ro (lastLeafEdge h a : HM K V HRef)
  | 0, a => by unfold lastLeafEdge; steps
  | h + 1, a => by
    haveI := fun a => lastLeafEdge_steps (h := h) (a := a)
    unfold lastLeafEdge; steps

instance {r : NRef} : Steps false (handleUnderfull r : HM K V Under) := by unfold handleUnderfull; steps
instance {root : NRef} {cur : NRef} : Steps false (underflowStep root cur : HM K V (NRef ⊕ NRef)) := by unfold underflowStep; steps
instance {h : HRef} : Steps false (removeRaw h : HM K V ((K × V) × NRef)) := by unfold removeRaw; steps
instance {m : HMap} {h : HRef} : Steps false (HMap.removeKv m h : HM K V ((K × V) × HMap)) := by unfold HMap.removeKv; steps
instance [Ord Q] {m : HMap} {bor : K → Q} {q : Q} : Steps false (HMap.removeEntry m bor q : HM K V (Option (K × V) × HMap)) := by unfold HMap.removeEntry; steps
instance {m : HMap} : Steps false (HMap.intoIter m : HM K V HIntoIter) := by unfold HMap.intoIter; steps
instance {h : HRef} : Steps false (readKv h : HM K V (K × V)) := by unfold readKv; steps
instance {e : HRef} : Steps false (intoNextStep e : HM K V (HRef ⊕ ((K × V) × HRef))) := by unfold intoNextStep; steps
instance {bnd : Nat} {it : HIntoIter} : Steps false (HIntoIter.next bnd it : HM K V (Option (K × V) × HIntoIter)) := by unfold HIntoIter.next; steps
instance {e : HRef} : Steps false (intoNextBackStep e : HM K V (HRef ⊕ ((K × V) × HRef))) := by unfold intoNextBackStep; steps
instance {bnd : Nat} {it : HIntoIter} : Steps false (HIntoIter.nextBack bnd it : HM K V (Option (K × V) × HIntoIter)) := by unfold HIntoIter.nextBack; steps
instance {bnd : Nat} {it : HIntoIter} {e : End} : Steps false (HIntoIter.ask bnd it e : HM K V (Option (K × V) × HIntoIter)) := by unfold HIntoIter.ask; steps
instance asks_steps {bnd : Nat} : ∀ {es : List End} {it : HIntoIter}, Steps false (HIntoIter.asks bnd es it : HM K V (List (Option (K × V)) × HIntoIter))
  | [], it => by unfold HIntoIter.asks; steps
  | e :: es, it => by
    haveI := fun it => asks_steps (bnd := bnd) (es := es) (it := it)
    unfold HIntoIter.asks; steps

instance drain_steps {bnd : Nat} : ∀ {n : Nat} {it : HIntoIter}, Steps false (HIntoIter.drain bnd n it : HM K V (List (K × V) × HIntoIter))
  | 0, it => by unfold HIntoIter.drain; steps
  | n + 1, it => by
    haveI := fun it => drain_steps (bnd := bnd) (n := n) (it := it)
    unfold HIntoIter.drain; steps

instance {r : NRef} : Steps false (freeUpStep r : HM K V (NRef ⊕ Unit)) := by unfold freeUpStep; steps
instance {bnd : Nat} {it : HIntoIter} : Steps false (HIntoIter.drop bnd it : HM K V (List (K × V))) := by unfold HIntoIter.drop; steps
instance {m : HMap} : Steps false (HMap.drop m : HM K V (List (K × V))) := by unfold HMap.drop; steps
instance {e : HRef} : Steps ro (nextStep e : HM K V (HRef ⊕ (HRef × HRef))) := by unfold nextStep; steps
instance {bnd : Nat} {front : HRef} : Steps ro (nextUnchecked bnd front : HM K V (HRef × HRef)) := by unfold nextUnchecked; steps
instance {e : HRef} : Steps ro (nextBackStep e : HM K V (HRef ⊕ (HRef × HRef))) := by unfold nextBackStep; steps
instance {bnd : Nat} {back : HRef} : Steps ro (nextBackUnchecked bnd back : HM K V (HRef × HRef)) := by unfold nextBackUnchecked; steps
instance {bnd : Nat} {e : End} {r : HRange} : Steps ro (HRange.stepH bnd e r : HM K V (Option HRef × HRange)) := by unfold HRange.stepH; steps
instance {h : Option HRef} : Steps ro (readOpt h : HM K V (Option (K × V))) := by unfold readOpt; steps
instance {bnd : Nat} {e : End} {r : HRange} : Steps ro (HRange.step bnd e r : HM K V (Option (K × V) × HRange)) := by unfold HRange.step; steps
instance rangeSteps_steps {bnd : Nat} : ∀ {es : List End} {r : HRange}, Steps ro (HRange.run bnd es r : HM K V (List (Option (K × V)) × HRange))
  | [], r => by unfold HRange.run; steps
  | e :: es, r => by
    haveI := fun r => rangeSteps_steps (bnd := bnd) (es := es) (r := r)
    unfold HRange.run; steps

instance [Ord Q] {bor : K → Q} {found : Bool} {s : Bound Q} {a : Addr} : Steps ro (minEdge bor found s a : HM K V (Nat × Bool)) := by unfold minEdge; steps
instance [Ord Q] {bor : K → Q} {found : Bool} {e : Bound Q} {a : Addr} : Steps ro (maxEdge bor found e a : HM K V (Nat × Bool)) := by unfold maxEdge; steps
instance rangeLoop_steps [Ord Q] {bor : K → Q} {s e : Bound Q} : ∀ {h : Nat} {a b : Addr} {mf xf dv : Bool}, Steps ro (rangeLoop bor s e h a b mf xf dv : HM K V HRange)
  | 0, a, b, mf, xf, dv => by unfold rangeLoop; steps
  | h + 1, a, b, mf, xf, dv => by
    haveI := fun a b mf xf dv => rangeLoop_steps (bor := bor) (s := s) (e := e) (h := h) (a := a) (b := b) (mf := mf) (xf := xf) (dv := dv)
    unfold rangeLoop; steps

instance [Ord Q] {m : HMap} {bor : K → Q} {s e : Bound Q} : Steps ro (HMap.range m bor s e : HM K V HRange) := by unfold HMap.range; steps
instance {m : HMap} : Steps ro (HMap.iter m : HM K V HIter) := by unfold HMap.iter; steps
instance {bnd : Nat} {e : End} {it : HIter} : Steps ro (HIter.stepH bnd e it : HM K V (Option HRef × HIter)) := by unfold HIter.stepH; steps
instance {bnd : Nat} {e : End} {it : HIter} : Steps ro (HIter.step bnd e it : HM K V (Option (K × V) × HIter)) := by unfold HIter.step; steps
instance iterSteps_steps {bnd : Nat} : ∀ {es : List End} {it : HIter}, Steps ro (HIter.run bnd es it : HM K V (List (Option (K × V)) × HIter))
  | [], it => by unfold HIter.run; steps
  | e :: es, it => by
    haveI := fun it => iterSteps_steps (bnd := bnd) (es := es) (it := it)
    unfold HIter.run; steps

instance {h : HRef} {f : V → V} : Steps false (updVal h f : HM K V Unit) := by unfold updVal; steps
instance mutRun_steps {S : Type} {step : End → S → HM K V (Option HRef × S)} [hs : ∀ e s, Steps false (step e s)] :
    ∀ {as : List (MutAct V)} {it : S} {refs : List HRef}, Steps false (mutRun step as it refs)
  | [], it, refs => by unfold mutRun; steps
  | .take e :: as, it, refs => by
    haveI := fun it refs => mutRun_steps (step := step) (as := as) (it := it) (refs := refs)
    unfold mutRun; steps
  | .write i f :: as, it, refs => by
    haveI := fun it refs => mutRun_steps (step := step) (as := as) (it := it) (refs := refs)
    unfold mutRun; steps

instance pushLevels_steps : ∀ {n : Nat} {r : NRef}, Steps false (pushLevels n r : HM K V (NRef × Bool))
  | 0, r => by unfold pushLevels; steps
  | n + 1, r => by
    haveI := fun r => pushLevels_steps (n := n) (r := r)
    unfold pushLevels; steps

instance splitLoop_steps [Ord Q] {bor : K → Q} {q : Q} : ∀ {h : Nat} {l r : Addr}, Steps false (splitLoop bor q h l r : HM K V Unit)
  | 0, l, r => by unfold splitLoop; steps
  | h + 1, l, r => by
    haveI := fun l r => splitLoop_steps (bor := bor) (q := q) (h := h) (l := l) (r := r)
    unfold splitLoop; steps

instance fixTop_steps : ∀ {h : Nat} {a : Addr}, Steps false (fixTop h a : HM K V NRef)
  | 0, a => by unfold fixTop; steps
  | h + 1, a => by
    haveI := fun a => fixTop_steps (h := h) (a := a)
    unfold fixTop; steps

instance fixRightLoop_steps : ∀ {h : Nat} {a : Addr}, Steps false (fixRightLoop h a : HM K V Unit)
  | 0, a => by unfold fixRightLoop; steps
  | h + 1, a => by
    haveI := fun a => fixRightLoop_steps (h := h) (a := a)
    unfold fixRightLoop; steps

instance fixLeftLoop_steps : ∀ {h : Nat} {a : Addr}, Steps false (fixLeftLoop h a : HM K V Unit)
  | 0, a => by unfold fixLeftLoop; steps
  | h + 1, a => by
    haveI := fun a => fixLeftLoop_steps (h := h) (a := a)
    unfold fixLeftLoop; steps

instance {r : NRef} : Steps false (fixRightBorder r : HM K V NRef) := by unfold fixRightBorder; steps
instance {r : NRef} : Steps false (fixLeftBorder r : HM K V NRef) := by unfold fixLeftBorder; steps
instance {rec : Addr → HM K V Nat} [∀ a, Steps ro (rec a)] {r : NRef} {s : Nat × Nat} : Steps ro (dfsStep rec r s : HM K V ((Nat × Nat) ⊕ Nat)) := by unfold dfsStep; steps
instance dfsLen_steps : ∀ {h : Nat} {a : Addr}, Steps false (dfsLen h a : HM K V Nat)
  | 0, a => by unfold dfsLen; steps
  | h + 1, a => by
    haveI := fun a => dfsLen_steps (h := h) (a := a)
    unfold dfsLen; steps

instance [Ord Q] {m : HMap} {bor : K → Q} {q : Q} : Steps false (HMap.splitOff m bor q : HM K V (Option HMap × HMap)) := by unfold HMap.splitOff; steps
/-- Copying an element does not touch the memory of nodes. -/
class PureCloner {α : Type} (c : BTree.Cloner α) : Prop where
  ex : ∃ f : α → Res α, ∀ x a, c x a = (f x, a)

instance {α : Type} {f : α → Res α} : PureCloner fun x a => (f x, a) := ⟨f, fun _ _ => rfl⟩
instance {ck : K → Bool} : PureCloner (BTree.keyCloner ck) := by unfold BTree.keyCloner; exact ⟨_, fun _ _ => rfl⟩
instance {cv : V → Option V} : PureCloner (BTree.valCloner cv) := by
  unfold BTree.valCloner
  exact ⟨fun v => match cv v with
    | some w => .ok w
    | none => .error .allocError, fun _ _ => rfl⟩

instance {α : Type} {c : BTree.Cloner α} [hc : PureCloner c] {x : α} : Steps ro (cloneElem c x : HM K V (Res α)) := by
  obtain ⟨f, hf⟩ := hc.ex
  refine ⟨.done (f x), ?_, fun _ => trivial⟩
  funext s
  simp only [cloneElem, hf]
  rfl

variable {ck : BTree.Cloner K} {cv : BTree.Cloner V} [PureCloner ck] [PureCloner cv]

instance {kv : K × V} : Steps ro (cloneKv ck cv kv : HM K V (Res (K × V))) := by unfold cloneKv; steps

instance {src out : Addr} {s : Nat × Nat} : Steps false (cloneLeafStep ck cv src out s) := by unfold cloneLeafStep; steps

instance {rec : Addr → HM K V (Res HMap)} [∀ a, Steps false (rec a)] {src out : NRef} {s : Nat × Nat} : Steps false (cloneInternalStep ck cv rec src out s) := by
  unfold cloneInternalStep; steps

instance cloneSubtree_steps : ∀ {h : Nat} {a : Addr}, Steps false (cloneSubtree ck cv h a)
  | 0, a => by unfold cloneSubtree; steps
  | h + 1, a => by
    haveI := fun a => cloneSubtree_steps (h := h) (a := a)
    unfold cloneSubtree; steps

instance {m : HMap} : Steps false (HMap.tryClone m ck cv : HM K V (Res HMap)) := by unfold HMap.tryClone; steps
instance {m : HMap} {fk : K → K} {fv : V → V} : Steps false (HMap.clone m fk fv : HM K V HMap) := by unfold HMap.clone; steps
instance {p : Peek K V} : Steps false (Peek.peek p : HM K V (Option (K × V) × Peek K V)) := by unfold Peek.peek; steps
instance {p : Peek K V} : Steps false (Peek.next p : HM K V (Option (K × V) × Peek K V)) := by unfold Peek.next; steps
instance [Ord K] {m : HMerge K V} : Steps false (HMerge.next m : HM K V (Option (K × V) × HMerge K V)) := by unfold HMerge.next; steps
instance {p : Peek K V} : Steps false (Peek.drop p : HM K V (List (K × V))) := by unfold Peek.drop; steps
instance {root : NRef} {cur : NRef} : Steps false (climbStep root cur : HM K V (NRef ⊕ (NRef × NRef))) := by unfold climbStep; steps
instance {opn : NRef} {kv : K × V} : Steps false (growRight opn kv : HM K V NRef) := by unfold growRight; steps
instance {root cur : NRef} {kv : K × V} : Steps false (sortedPush root cur kv : HM K V (NRef × NRef)) := by unfold sortedPush; steps
instance [Ord K] {s : Building K V} : Steps false (buildStep s : HM K V (Building K V ⊕ Building K V)) := by unfold buildStep; steps
instance [Ord K] {m : HMap} {iter : HMerge K V} {bnd : Nat} : Steps false (HMap.fromSortedIter m iter bnd : HM K V HMap) := by unfold HMap.fromSortedIter; steps
instance fixRightEdge_steps : ∀ {h : Nat} {a : Addr}, Steps false (fixRightEdge h a : HM K V Unit)
  | 0, a => by unfold fixRightEdge; steps
  | h + 1, a => by
    haveI := fun a => fixRightEdge_steps (h := h) (a := a)
    unfold fixRightEdge; steps

instance [Ord K] {m o : HMap} : Steps false (HMap.append m o : HM K V (HMap × HMap)) := by unfold HMap.append; steps
instance [Ord Q] {m : HMap} {bor : K → Q} {s : Source Q} : Steps ro (HMap.view m bor s : HM K V HView) := by unfold HMap.view; steps
instance {bnd : Nat} {e : End} {v : HView} : Steps ro (HView.step bnd e v : HM K V (Option (Spec.Item K V) × HView)) := by unfold HView.step; steps
instance viewDrain_steps {bnd : Nat} : ∀ {n : Nat} {v : HView}, Steps ro (HView.drain bnd n v : HM K V (List (Spec.Item K V)))
  | 0, v => by unfold HView.drain; steps
  | n + 1, v => by
    haveI := fun v => viewDrain_steps (bnd := bnd) (n := n) (v := v)
    unfold HView.drain; steps

instance {m : HMap} {v : HView} : Steps ro (HView.debug m v : HM K V (List (Spec.Item K V))) := by unfold HView.debug; steps
instance {p : List HView} {i : Nat} {f : HView → HM K V (Seen K V × List HView)} [∀ v, Steps ro (f v)] : Steps ro (onHView p i f) := by unfold onHView; steps

instance [Ord Q] {m : HMap} {bor : K → Q} {p : List HView} {a : ViewAct Q} : Steps ro (ViewAct.hrun m bor p a : HM K V (Seen K V × List HView)) := by
  cases a with
  | start s => simp only [ViewAct.hrun]; steps
  | clone i => unfold ViewAct.hrun; steps
  | ask i e => 
    haveI : ∀ v : HView, Steps ro (do
      let x ← v.step m.root.height e
      pure (.item x.1, p.set i x.2) : HM K V (Seen K V × List HView)) := by steps
    unfold ViewAct.hrun; steps
  | hint i => unfold ViewAct.hrun; steps
  | debug i => 
    haveI : ∀ v : HView, Steps ro (do
      let l ← v.debug m
      pure (.list l, p) : HM K V (Seen K V × List HView)) := by steps
    unfold ViewAct.hrun; steps

instance viewRuns_steps [Ord Q] {m : HMap} {bor : K → Q} : ∀ {as : List (ViewAct Q)} {p : List HView}, Steps ro (ViewAct.hruns m bor as p : HM K V (List (Seen K V)))
  | [], p => by unfold ViewAct.hruns; steps
  | a :: as, p => by
    haveI := fun p => viewRuns_steps (m := m) (bor := bor) (as := as) (p := p)
    unfold ViewAct.hruns; steps

instance {e : HEntry K} : Steps ro (entryKey e : HM K V K) := by unfold entryKey; steps
instance {m : HMap} {e : HEntry K} {v : V} : Steps false (HMap.orTryInsert m e v : HM K V (Option HRef × HMap)) := by unfold HMap.orTryInsert; steps
instance {e : HEntry K} {f : V → V} : Steps false (andModify e f : HM K V Unit) := by unfold andModify; steps
instance [Ord K] {m : HMap} {k : K} {v : V} {f : V → V} : Steps false (HMap.entryOrInsert m k v f : HM K V (Out K V × HMap)) := by unfold HMap.entryOrInsert; steps
instance [Ord K] {m : HMap} {k : K} {v : V} {f : V → V} : Steps false (HMap.entryOrInsertWith m k v f : HM K V (Out K V × HMap)) := by unfold HMap.entryOrInsertWith; steps
instance [Ord K] {m : HMap} {k : K} : Steps false (HMap.entryRemove m k : HM K V (Out K V × HMap)) := by unfold HMap.entryRemove; steps
instance [Ord K] {m : HMap} {k : K} {f : V → V} : Steps false (HMap.entryModify m k f : HM K V (Out K V × HMap)) := by unfold HMap.entryModify; steps
instance [Ord K] {m : HMap} {k : K} : Steps false (HMap.entryKeyOf m k : HM K V (Out K V × HMap)) := by unfold HMap.entryKeyOf; steps
instance [Ord K] {m : HMap} {k : K} {v : V} : Steps false (HMap.entryInsert m k v : HM K V (Out K V × HMap)) := by unfold HMap.entryInsert; steps
instance [Ord K] {m : HMap} {k : K} {v : V} : Steps false (HMap.insertCall m k v : HM K V (Out K V × HMap)) := by unfold HMap.insertCall; steps
instance [Ord Q] {m : HMap} {bor : K → Q} {q : Q} {f : V → V} : Steps false (HMap.updateVal m bor q f : HM K V Bool) := by unfold HMap.updateVal; steps
instance {m : HMap} : Steps false (HMap.clear m : HM K V HMap) := by unfold HMap.clear; steps
instance extend_steps [Ord K] : ∀ {l : List (K × V)} {m : HMap}, Steps false (HMap.extend m l)
  | [], m => by unfold HMap.extend; steps
  | (k, v) :: l, m => by
    haveI := fun m => extend_steps (l := l) (m := m)
    unfold HMap.extend; steps

instance [Ord Q] {m : HMap} {bor : K → Q} {lo hi : Bound Q} {es : List End} : Steps ro (HMap.rangeRun m bor lo hi es : HM K V (Out K V)) := by unfold HMap.rangeRun; steps
instance [Ord Q] {m : HMap} {bor : K → Q} {lo hi : Bound Q} {acts : List (MutAct V)} : Steps false (HMap.rangeMutRun m bor lo hi acts : HM K V (Out K V)) := by unfold HMap.rangeMutRun; steps
instance {m : HMap} {es : List End} : Steps ro (HMap.iterRun m es : HM K V (Out K V)) := by unfold HMap.iterRun; steps
instance {m : HMap} {acts : List (MutAct V)} : Steps false (HMap.iterMutRun m acts : HM K V (Out K V)) := by unfold HMap.iterMutRun; steps
instance {m : HMap} {es : List End} : Steps false (HMap.intoIterRun m es : HM K V (Out K V)) := by unfold HMap.intoIterRun; steps
instance [Ord K] {m : HMap} {k : K} {v : V} : Steps false (HMap.replaceCall m k v : HM K V (Out K V × HMap)) := by unfold HMap.replaceCall; steps
instance {m : HMap} {es : List End} : Steps false (HMap.consume m es : HM K V (List (Option (K × V)) × List (K × V))) := by unfold HMap.consume; steps

theorem onHMap_steps {p : List HMap} {i : Nat} {f : HMap → HM K V (Out K V × HMap)} (h : ∀ m, Steps ro (f m)) : Steps ro (onHMap p i f) := by
  unfold onHMap; steps

/-- Every call can be taken apart into accesses. -/
theorem Op.hrun_steps [Ord K] [Ord Q] (bor : K → Q) (p : List HMap) (op : Op K V Q) : Steps false (Op.hrun bor p op) := by
  cases op <;> simp only [Op.hrun] <;> first | (apply onHMap_steps; intro m; steps) | steps

/-- The calls that take `&self` only look. -/
theorem Op.hrun_looks [Ord K] [Ord Q] (bor : K → Q) (p : List HMap) (op : Op K V Q) (h : Op.shared op = true) : Steps true (Op.hrun bor p op) := by
  cases op <;> first | (simp only [Op.hrun]; apply onHMap_steps; intro m; steps; done) | (simp [Op.shared] at h)

end Verif.Heap
