import Verif.BTree.Iter
import Verif.ViewSpec
/-
Level-1 model of the shared iterators of src/btree/map.rs and src/btree/set.rs: opening, cloning, asking, `size_hint`, `Debug`; and of
programs that use several of them at once.
-/
namespace Verif.BTree
open Verif
open Verif.Spec (Bound End Item Source ViewAct Seen)

variable {K V Q : Type}

/-- The shared iterators.  src/btree/map.rs:354-357 `Iter`, 410-412 `Keys`, 428-430 `Values`, 460-463 `Range`; src/btree/set.rs:74-76
`set::Iter` (around `Keys`), 104-106 `set::Range` (around `map::Range`). -/
inductive View where
  | iter (it : Iter)
  | keys (inner : Iter)
  | values (inner : Iter)
  | range (r : Range)
  | setRange (iter : Range)

/-- `iter` src/btree/map.rs:2030-2038, `keys` 2093-2095, `values` 2115-2117, `range` 885-896; src/btree/set.rs:829-833 `iter`,
287-296 `range`. -/
def Map.view [Ord Q] (m : Map K V) (bor : K → Q) : Source Q → Exec View
  | .iter => do
    let it ← m.iter
    .ok (.iter it)
  | .keys => do
    let it ← m.iter
    .ok (.keys it)
  | .values => do
    let it ← m.iter
    .ok (.values it)
  | .range lo hi => do
    let r ← m.range bor lo hi
    .ok (.range r)
  | .setRange lo hi => do
    let r ← m.range bor lo hi
    .ok (.setRange r)

/-- src/btree/map.rs:1679-1684 `Range::clone`. -/
def Range.clone (r : Range) : Range := ⟨r.front, r.back⟩

/-- src/btree/map.rs:1293-1298 `Iter::clone`. -/
def Iter.clone (it : Iter) : Iter := ⟨it.range.clone, it.length⟩

/-- `Iter::clone`, `Range::clone` and src/btree/map.rs:1511-1515 `Keys::clone`, 1550-1554 `Values::clone`; src/btree/set.rs:1035-1039,
1104-1108. -/
def View.clone : View → View
  | .iter it => .iter it.clone
  | .keys it => .keys it.clone
  | .values it => .values it.clone
  | .range r => .range r.clone
  | .setRange r => .setRange r.clone

/-- `next`/`next_back`: of `Iter` src/btree/map.rs:1257-1282, `Keys` 1483-1497, `Values` 1522-1536, `Range` 1561-1567 and 1634-1640;
src/btree/set.rs:1046-1063, 1115-1124. -/
def View.step (m : Map K V) (e : End) : View → Exec (Option (Item K V) × View)
  | .iter it => do
    let (x, it) ← it.step m e
    .ok (x.map .pair, .iter it)
  | .keys it => do
    let (x, it) ← it.stepMap (·.1) m e
    .ok (x.map .key, .keys it)
  | .values it => do
    let (x, it) ← it.stepMap (·.2) m e
    .ok (x.map .val, .values it)
  | .range r => do
    let (x, r) ← r.step m e
    .ok (x.map .pair, .range r)
  | .setRange r => do
    let (x, r) ← r.step m e
    .ok (x.map fun kv => .key kv.1, .setRange r)

/-- `size_hint` (and `len`): src/btree/map.rs:1267-1269, 1488-1490, 1527-1529; src/btree/set.rs:1051-1053.  `Range` and `set::Range`
have the default of the `Iterator` trait. -/
def View.sizeHint : View → Nat × Option Nat
  | .iter it | .keys it | .values it => it.sizeHint
  | .range _ | .setRange _ => (0, none)

/-- `f.debug_list().entries(iter)`: the loop calls `next` until `None`.  Running out of fuel counts as failure. -/
def View.drain (m : Map K V) : Nat → View → Exec (List (Item K V))
  | 0, _ => .ub
  | fuel + 1, v => do
    let (x, v) ← v.step m .front
    match x with
    | none => .ok []
    | some x => do
      let xs ← v.drain m fuel
      .ok (x :: xs)

/-- `Debug::fmt`: the entries listed.  src/btree/map.rs:360-362 `Iter`, 416-418 `Keys`, 434-436 `Values`, 466-468 `Range`; those of
src/btree/set.rs:79-81 (`Iter`) and 102-103 (derived, `Range`) print what the iterator inside prints. -/
def View.debug (m : Map K V) : View → Exec (List (Item K V))
  | .setRange r => (View.range r).clone.drain m (m.length + 1)
  | v => v.clone.drain m (m.length + 1)

/-- Look at iterator number `i`. -/
def onView (p : List View) (i : Nat) (f : View → Exec (Seen K V × List View)) : Exec (Seen K V × List View) :=
  match p[i]? with
  | none => .ok (.skipped, p)
  | some v => f v

/-- One step of a program using several iterators over `m`. -/
def ViewAct.run [Ord Q] (m : Map K V) (bor : K → Q) (p : List View) : ViewAct Q → Exec (Seen K V × List View)
  | .start s =>
    match m.view bor s with
    | .ok v => .ok (.opened, p ++ [v])
    | .panic _ => .ok (.panicked, p)
    | .ub => .ub
  | .clone i => onView p i fun v => .ok (.opened, p ++ [v.clone])
  | .ask i e => onView p i fun v => do
      let (x, v) ← v.step m e
      .ok (.item x, p.set i v)
  | .hint i => onView p i fun v => .ok (.hint v.sizeHint, p)
  | .debug i => onView p i fun v => do
      let l ← v.debug m
      .ok (.list l, p)

/-- A whole program: the answers. -/
def ViewAct.runs [Ord Q] (m : Map K V) (bor : K → Q) : List (ViewAct Q) → List View → Exec (List (Seen K V))
  | [], _ => .ok []
  | a :: as, p => do
    let (o, p) ← ViewAct.run m bor p a
    let os ← ViewAct.runs m bor as p
    .ok (o :: os)

end Verif.BTree
