import Verif.Heap.Map
import Verif.BTree.Iter
/-
Level-2 model of iteration in src/btree/map.rs: Range, RangeMut, Iter, IterMut and `range_search`, walking the memory
through `edges`, `parent` and `parent_idx`.
-/
namespace Verif.Heap
open Verif
open Verif.BTree (B MIN_LEN CAPACITY)
open Verif.Spec (Bound End MutAct)

variable {K V Q : Type}

/-! ### next and next_back -/

/-- One round of the ascending loop of `next_unchecked`, src/btree/map.rs:1616-1628 (Range), 1718-1732 (RangeMut): the
pair and the new front edge. -/
def nextStep (e : HRef) : HM K V (HRef ⊕ (HRef × HRef)) := do
  let len ← lenOf e.node
  if e.idx < len then do
    let kv ← newKv e.ref e.idx
    let re ← newEdge kv.ref (kv.idx + 1)
    let c ← descend re
    let f ← firstLeafEdge c.height c.node
    pure (.inr (kv, f))
  else do
    let p ← ascend e.ref
    match p with
    | some p => pure (.inl p)
    | none => HM.ub  -- unwrap_unchecked(None)

/-- `next_unchecked`: src/btree/map.rs:1601-1629 (Range), 1701-1733 (RangeMut).  `bnd` bounds the rounds of the
loop: the height of the tree. -/
def nextUnchecked (bnd : Nat) (front : HRef) : HM K V (HRef × HRef) := do
  let len ← lenOf front.node
  if front.idx < len then do
    let kv ← newKv front.ref front.idx
    let f ← newEdge kv.ref (kv.idx + 1)
    pure (kv, f)
  else do
    let p ← ascend front.ref
    match p with
    | none => HM.ub
    | some p => do
      let r ← loopN nextStep bnd p
      ended r

/-- One round of the ascending loop of `next_back_unchecked`, src/btree/map.rs:1659-1671, 1767-1781. -/
def nextBackStep (e : HRef) : HM K V (HRef ⊕ (HRef × HRef)) := do
  if 0 < e.idx then do
    let kv ← newKv e.ref (e.idx - 1)
    let le ← newEdge kv.ref kv.idx
    let c ← descend le
    let b ← lastLeafEdge c.height c.node
    pure (.inr (kv, b))
  else do
    let p ← ascend e.ref
    match p with
    | some p => pure (.inl p)
    | none => HM.ub

/-- `next_back_unchecked`: src/btree/map.rs:1644-1672 (Range), 1750-1782 (RangeMut). -/
def nextBackUnchecked (bnd : Nat) (back : HRef) : HM K V (HRef × HRef) := do
  if 0 < back.idx then do
    let kv ← newKv back.ref (back.idx - 1)
    let b ← newEdge kv.ref kv.idx
    pure (kv, b)
  else do
    let p ← ascend back.ref
    match p with
    | none => HM.ub
    | some p => do
      let r ← loopN nextBackStep bnd p
      ended r

/-! ### Range, RangeMut -/

/-- src/btree/map.rs:460-463 `Range`, 479-485 `RangeMut`. -/
structure HRange where
  front : HRef
  back : HRef
deriving Repr, DecidableEq

/-- `self.front == self.back`: `PartialEq for Handle` compares the node pointer and the index, src/btree/node.rs:915-921. -/
def HRange.done (r : HRange) : Bool := r.front.node == r.back.node && r.front.idx == r.back.idx

/-- `RangeMut::next`, `next_back`, src/btree/map.rs:1691-1697, 1738-1744: the pair is given by its handle. -/
def HRange.stepH (bnd : Nat) (e : End) (r : HRange) : HM K V (Option HRef × HRange) :=
  if r.done then pure (none, r)
  else match e with
    | .front => do
      let x ← nextUnchecked bnd r.front
      pure (some x.1, { r with front := x.2 })
    | .back => do
      let x ← nextBackUnchecked bnd r.back
      pure (some x.1, { r with back := x.2 })

/-- Read the pair behind an optional handle (`into_kv`). -/
def readOpt : Option HRef → HM K V (Option (K × V))
  | none => pure none
  | some h => do
    let kv ← kvOf h
    pure (some kv)

/-- `Range::next`, `next_back`, src/btree/map.rs:1561-1567, 1634-1640. -/
def HRange.step (bnd : Nat) (e : End) (r : HRange) : HM K V (Option (K × V) × HRange) := do
  let x ← r.stepH bnd e
  let kv ← readOpt x.1
  pure (kv, x.2)

/-- A sequence of `next`/`next_back` calls on `Range`. -/
def HRange.run (bnd : Nat) : List End → HRange → HM K V (List (Option (K × V)) × HRange)
  | [], r => pure ([], r)
  | e :: es, r => do
    let x ← r.step bnd e
    let y ← HRange.run bnd es x.2
    pure (x.1 :: y.1, y.2)

/-- `min_edge` and the new `min_found`: src/btree/map.rs:1932-1950. -/
def minEdge [Ord Q] (bor : K → Q) (found : Bool) (s : Bound Q) (a : Addr) : HM K V (Nat × Bool) :=
  match found, s with
  | false, .included q => searchLinear bor q a
  | false, .excluded q => do
    let r ← searchLinear bor q a
    pure (if r.2 then (r.1 + 1, true) else (r.1, false))
  | f, .unbounded => pure (0, f)
  | true, .included _ => do
    let len ← lenOf a
    pure (len, true)
  | true, .excluded _ => pure (0, true)

/-- `max_edge` and the new `max_found`: src/btree/map.rs:1952-1970. -/
def maxEdge [Ord Q] (bor : K → Q) (found : Bool) (e : Bound Q) (a : Addr) : HM K V (Nat × Bool) :=
  match found, e with
  | false, .included q => do
    let r ← searchLinear bor q a
    pure (if r.2 then (r.1 + 1, true) else (r.1, false))
  | false, .excluded q => searchLinear bor q a
  | f, .unbounded => do
    let len ← lenOf a
    pure (len, f)
  | true, .included _ => pure (0, true)
  | true, .excluded _ => do
    let len ← lenOf a
    pure (len, true)

/-- The loop of `range_search`: src/btree/map.rs:1931-1993, on two nodes of height `h`. -/
def rangeLoop [Ord Q] (bor : K → Q) (s e : Bound Q) :
    (h : Nat) → (amin amax : Addr) → (minFound maxFound diverged : Bool) → HM K V HRange
  | 0, amin, amax, mf, xf, dv => do
    let lo ← minEdge bor mf s amin
    let hi ← maxEdge bor xf e amax
    if !dv && hi.1 < lo.1 then HM.panic "Ord is ill-defined in BTreeMap range"
    else do
      let f ← newEdge ⟨0, amin⟩ lo.1
      let b ← newEdge ⟨0, amax⟩ hi.1
      pure ⟨f, b⟩
  | h + 1, amin, amax, mf, xf, dv => do
    let lo ← minEdge bor mf s amin
    let hi ← maxEdge bor xf e amax
    if !dv && hi.1 < lo.1 then HM.panic "Ord is ill-defined in BTreeMap range"
    else do
      let f ← newEdge ⟨h + 1, amin⟩ lo.1
      let b ← newEdge ⟨h + 1, amax⟩ hi.1
      let cmin ← descend f
      let cmax ← descend b
      rangeLoop bor s e h cmin.node cmax.node lo.2 hi.2 (dv || lo.1 != hi.1)

/-- src/btree/map.rs:885-896 `range`, 929-944 `range_mut`; `range_search` 1898-1994 (the check of the bounds, 1910-1923, does
not touch the memory). -/
def HMap.range [Ord Q] (m : HMap) (bor : K → Q) (s e : Bound Q) : HM K V HRange := do
  HM.lift (BTree.rangeCheck s e)
  rangeLoop bor s e m.root.height m.root.node m.root.node false false false

/-! ### Iter, IterMut -/

/-- src/btree/map.rs:354-357 `Iter`, 374-377 `IterMut`. -/
structure HIter where
  range : HRange
  length : Nat
deriving Repr, DecidableEq

/-- src/btree/map.rs:2030-2038 `iter`, 2062-2073 `iter_mut`. -/
def HMap.iter (m : HMap) : HM K V HIter := do
  let f ← firstLeafEdge m.root.height m.root.node
  let b ← lastLeafEdge m.root.height m.root.node
  pure ⟨⟨f, b⟩, m.length⟩

/-- `IterMut::next`, `next_back`, src/btree/map.rs:1315-1322, 1331-1338: the pair is given by its handle. -/
def HIter.stepH (bnd : Nat) (e : End) (it : HIter) : HM K V (Option HRef × HIter) :=
  if it.length = 0 then pure (none, it)
  else match e with
    | .front => do
      let x ← nextUnchecked bnd it.range.front
      pure (some x.1, ⟨{ it.range with front := x.2 }, it.length - 1⟩)
    | .back => do
      let x ← nextBackUnchecked bnd it.range.back
      pure (some x.1, ⟨{ it.range with back := x.2 }, it.length - 1⟩)

/-- `Iter::next`, `next_back`, src/btree/map.rs:1257-1264, 1275-1282. -/
def HIter.step (bnd : Nat) (e : End) (it : HIter) : HM K V (Option (K × V) × HIter) := do
  let x ← it.stepH bnd e
  let kv ← readOpt x.1
  pure (kv, x.2)

/-- A sequence of `next`/`next_back` calls on `Iter`. -/
def HIter.run (bnd : Nat) : List End → HIter → HM K V (List (Option (K × V)) × HIter)
  | [], it => pure ([], it)
  | e :: es, it => do
    let x ← it.step bnd e
    let y ← HIter.run bnd es x.2
    pure (x.1 :: y.1, y.2)

/-- Writing `f` of the value through a reference handed out as a handle. -/
def updVal (h : HRef) (f : V → V) : HM K V Unit := do
  let kv ← kvOf h
  let _ ← setVal h (f kv.2)
  pure ()

/-- A program using `IterMut` (`step = HIter.stepH bnd`) or `RangeMut` (`step = HRange.stepH bnd`): takes from either end,
interleaved with writes through the references handed out so far.  See `BTree.mutRun`. -/
def mutRun {S : Type} (step : End → S → HM K V (Option HRef × S)) :
    List (MutAct V) → S → List HRef → HM K V (List (Option (K × V)))
  | [], _, _ => pure []
  | .take e :: as, it, refs => do
    let x ← step e it
    let kv ← readOpt x.1
    let xs ← mutRun step as x.2 (refs ++ x.1.toList)
    pure (kv :: xs)
  | .write i f :: as, it, refs =>
    match refs[i]? with
    | none => do
      let xs ← mutRun step as it refs
      pure (none :: xs)
    | some h => do
      updVal h f
      let xs ← mutRun step as it refs
      pure (none :: xs)

end Verif.Heap
