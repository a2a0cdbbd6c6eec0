import Verif.Heap.Views
import Verif.SpecMut
/-
Level-2 model of the mutable iterators when they are looked at in between: `size_hint`, `len` and `Debug`.
-/
namespace Verif.Heap
open Verif
open Verif.Spec (Bound End Item MutAct MutLook MutSeen)

variable {K V Q S : Type}

/-- `f.debug_list().entries(Range { front: self.front.reborrow(), back: self.back.reborrow() })`: `Debug for RangeMut`, src/btree/map.rs:487-495.  The loop is that of
the shared `Range`. -/
def HRange.printed (m : HMap) (r : HRange) : HM K V (List (Item K V)) := (HView.range ⟨r.front, r.back⟩).drain m.root.height (m.length + 1)

/-- A mutable iterator, by what its methods do. -/
structure MutMethods (K V S : Type) where
  /-- `next`, `next_back`: the reference as a handle -/
  step : End → S → HM K V (Option HRef × S)
  /-- what is seen through a reference -/
  item : K × V → Item K V
  /-- `size_hint` -/
  hint : S → Nat × Option Nat
  /-- `{:?}` -/
  debug : S → HM K V (List (Item K V) × Option Nat)

/-- `IterMut`, src/btree/map.rs:1310-1348: `next`, `next_back`, `size_hint` 1325-1327, `len` 1343-1345; its `Debug` is derived (373-377), so it prints the `RangeMut` and
the length. -/
def HMap.iterMutMethods (m : HMap) : MutMethods K V HIter where
  step := HIter.stepH m.root.height
  item := .pair
  hint it := (it.length, some it.length)
  debug it := do
    let l ← it.range.printed m
    pure (l, some it.length)

/-- `ValuesMut`, src/btree/map.rs:1570-1598: `next` 1574-1576, `size_hint` 1579-1581, `next_back` 1586-1588, `len` 1593-1595 are those of the `IterMut` inside, without
the key; its `Debug` is derived (447-450), so it prints what the `IterMut` inside prints. -/
def HMap.valuesMutMethods (m : HMap) : MutMethods K V HIter where
  step := m.iterMutMethods.step
  item kv := .val kv.2
  hint := m.iterMutMethods.hint (K := K) (V := V)
  debug := m.iterMutMethods.debug

/-- `RangeMut`, src/btree/map.rs:1687-1744; `size_hint` is the default of the `Iterator` trait. -/
def HMap.rangeMutMethods (m : HMap) : MutMethods K V HRange where
  step := HRange.stepH m.root.height
  item := .pair
  hint _ := (0, none)
  debug r := do
    let l ← r.printed m
    pure (l, none)

/-- A program using a mutable iterator: see `mutRun`. -/
def MutMethods.run (x : MutMethods K V S) : List (MutLook V) → S → List HRef → HM K V (List (MutSeen K V))
  | [], _, _ => pure []
  | .act (.take e) :: as, it, refs => do
    let y ← x.step e it
    let kv ← readOpt y.1
    let os ← x.run as y.2 (refs ++ y.1.toList)
    pure (.item (kv.map x.item) :: os)
  | .act (.write i f) :: as, it, refs => do
    match refs[i]? with
    | none => pure ()  -- no such reference: not a program that compiles
    | some h => updVal h f
    let os ← x.run as it refs
    pure (.wrote :: os)
  | .hint :: as, it, refs => do
    let os ← x.run as it refs
    pure (.hint (x.hint it) :: os)
  | .debug :: as, it, refs => do
    let l ← x.debug it
    let os ← x.run as it refs
    pure (.printed l.1 l.2 :: os)

/-- `m.iter_mut()` (src/btree/map.rs:2062-2073; `&mut m` in a `for` loop 1306-1308) and such a program. -/
def HMap.iterMutLook (m : HMap) (as : List (MutLook V)) : HM K V (List (MutSeen K V)) := do
  let it ← m.iter
  m.iterMutMethods.run as it []

/-- `m.values_mut()`, src/btree/map.rs:2142-2146. -/
def HMap.valuesMutLook (m : HMap) (as : List (MutLook V)) : HM K V (List (MutSeen K V)) := do
  let it ← m.iter
  m.valuesMutMethods.run as it []

/-- `m.range_mut(lo, hi)`, src/btree/map.rs:929-944; it may panic. -/
def HMap.rangeMutLook [Ord Q] (m : HMap) (bor : K → Q) (lo hi : Bound Q) (as : List (MutLook V)) : HM K V (List (MutSeen K V)) := do
  let r ← m.range bor lo hi
  m.rangeMutMethods.run as r []

end Verif.Heap
