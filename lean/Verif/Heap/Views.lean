import Verif.Heap.Iter
import Verif.BTree.Views
/-
Level-2 model of the shared iterators (see Verif/BTree/Views.lean): opening, cloning, asking, `size_hint`, `Debug`, on the memory, and of
programs that use several of them at once.
-/
namespace Verif.Heap
open Verif
open Verif.Spec (Bound End Item Source ViewAct Seen)

variable {K V Q α : Type}

/-- `catch_unwind` around code that only reads the memory (`range`): after a panic the memory is as it was. -/
def catchRead (m : HM K V α) : HM K V (Option α) := fun s =>
  match m s with
  | .ok (a, s') => .ok (some a, s')
  | .panic _ => .ok (none, s)
  | .ub => .ub

/-- The shared iterators.  src/btree/map.rs:354-357 `Iter`, 410-412 `Keys`, 428-430 `Values`, 460-463 `Range`; src/btree/set.rs:74-76
`set::Iter` (around `Keys`), 104-106 `set::Range` (around `map::Range`). -/
inductive HView where
  | iter (it : HIter)
  | keys (inner : HIter)
  | values (inner : HIter)
  | range (r : HRange)
  | setRange (iter : HRange)

/-- `iter` src/btree/map.rs:2030-2038, `keys` 2093-2095, `values` 2115-2117, `range` 885-896; src/btree/set.rs:829-833 `iter`,
287-296 `range`. -/
def HMap.view [Ord Q] (m : HMap) (bor : K → Q) : Source Q → HM K V HView
  | .iter => do
    let it ← m.iter
    pure (.iter it)
  | .keys => do
    let it ← m.iter
    pure (.keys it)
  | .values => do
    let it ← m.iter
    pure (.values it)
  | .range lo hi => do
    let r ← m.range bor lo hi
    pure (.range r)
  | .setRange lo hi => do
    let r ← m.range bor lo hi
    pure (.setRange r)

/-- src/btree/map.rs:1679-1684 `Range::clone`. -/
def HRange.clone (r : HRange) : HRange := ⟨r.front, r.back⟩

/-- src/btree/map.rs:1293-1298 `Iter::clone`. -/
def HIter.clone (it : HIter) : HIter := ⟨it.range.clone, it.length⟩

/-- `Iter::clone`, `Range::clone` and src/btree/map.rs:1511-1515 `Keys::clone`, 1550-1554 `Values::clone`; src/btree/set.rs:1035-1039,
1104-1108. -/
def HView.clone : HView → HView
  | .iter it => .iter it.clone
  | .keys it => .keys it.clone
  | .values it => .values it.clone
  | .range r => .range r.clone
  | .setRange r => .setRange r.clone

/-- `next`/`next_back`: of `Iter` src/btree/map.rs:1257-1282, `Keys` 1483-1497, `Values` 1522-1536, `Range` 1561-1567 and 1634-1640;
src/btree/set.rs:1046-1063, 1115-1124. -/
def HView.step (bnd : Nat) (e : End) : HView → HM K V (Option (Item K V) × HView)
  | .iter it => do
    let x ← it.step bnd e
    pure (x.1.map .pair, .iter x.2)
  | .keys it => do
    let x ← it.step bnd e
    pure (x.1.map fun kv => .key kv.1, .keys x.2)
  | .values it => do
    let x ← it.step bnd e
    pure (x.1.map fun kv => .val kv.2, .values x.2)
  | .range r => do
    let x ← r.step bnd e
    pure (x.1.map .pair, .range x.2)
  | .setRange r => do
    let x ← r.step bnd e
    pure (x.1.map fun kv => .key kv.1, .setRange x.2)

/-- `size_hint` (and `len`): src/btree/map.rs:1267-1269, 1488-1490, 1527-1529; src/btree/set.rs:1051-1053.  `Range` and `set::Range`
have the default of the `Iterator` trait. -/
def HView.sizeHint : HView → Nat × Option Nat
  | .iter it | .keys it | .values it => (it.length, some it.length)
  | .range _ | .setRange _ => (0, none)

/-- `f.debug_list().entries(iter)`: the loop calls `next` until `None`.  Running out of fuel counts as failure. -/
def HView.drain (bnd : Nat) : Nat → HView → HM K V (List (Item K V))
  | 0, _ => HM.ub
  | fuel + 1, v => do
    let x ← v.step bnd .front
    match x.1 with
    | none => pure []
    | some y => do
      let xs ← x.2.drain bnd fuel
      pure (y :: xs)

/-- `Debug::fmt`: the entries listed.  src/btree/map.rs:360-362 `Iter`, 416-418 `Keys`, 434-436 `Values`, 466-468 `Range`; those of
src/btree/set.rs:79-81 (`Iter`) and 102-103 (derived, `Range`) print what the iterator inside prints. -/
def HView.debug (m : HMap) : HView → HM K V (List (Item K V))
  | .setRange r => (HView.range r).clone.drain m.root.height (m.length + 1)
  | v => v.clone.drain m.root.height (m.length + 1)

/-- Look at iterator number `i`. -/
def onHView (p : List HView) (i : Nat) (f : HView → HM K V (Seen K V × List HView)) : HM K V (Seen K V × List HView) :=
  match p[i]? with
  | none => pure (.skipped, p)
  | some v => f v

/-- One step of a program using several iterators over `m`. -/
def ViewAct.hrun [Ord Q] (m : HMap) (bor : K → Q) (p : List HView) : ViewAct Q → HM K V (Seen K V × List HView)
  | .start s => do
    let r ← catchRead (m.view bor s)
    match r with
    | some v => pure (.opened, p ++ [v])
    | none => pure (.panicked, p)
  | .clone i => onHView p i fun v => pure (.opened, p ++ [v.clone])
  | .ask i e => onHView p i fun v => do
      let x ← v.step m.root.height e
      pure (.item x.1, p.set i x.2)
  | .hint i => onHView p i fun v => pure (.hint v.sizeHint, p)
  | .debug i => onHView p i fun v => do
      let l ← v.debug m
      pure (.list l, p)

/-- A whole program: the answers. -/
def ViewAct.hruns [Ord Q] (m : HMap) (bor : K → Q) : List (ViewAct Q) → List HView → HM K V (List (Seen K V))
  | [], _ => pure []
  | a :: as, p => do
    let x ← ViewAct.hrun m bor p a
    let os ← ViewAct.hruns m bor as x.2
    pure (x.1 :: os)

end Verif.Heap
