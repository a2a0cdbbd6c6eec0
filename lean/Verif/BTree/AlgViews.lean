import Verif.BTree.Set
import Verif.BTree.Views
import Verif.SetSpec
/-
Level-1 model of cloning the set-algebra iterators of src/btree/set.rs, and of programs that use several of them at once.
-/
namespace Verif.BTree
open Verif
open Verif.Spec (AlgKind AlgAct AlgSeen Shown)

variable {T : Type}

/-- src/btree/set.rs:1035-1039 `Iter::clone`. -/
def SetIter.clone (i : SetIter T) : SetIter T := ⟨i.set, i.it.clone⟩

/-- `Peekable::clone` (core, derived): the inner iterator and the peeked item are cloned. -/
def Peekable.clone (p : Peekable T) : Peekable T := ⟨p.iter.clone, p.peeked⟩

/-- src/btree/set.rs:1139-1158 `Difference::clone`. -/
def Difference.clone : Difference T → Difference T
  | .stitch i j => .stitch i.clone j.clone
  | .search i o => .search i.clone o

/-- src/btree/set.rs:1250-1269 `Intersection::clone`. -/
def Intersection.clone : Intersection T → Intersection T
  | .stitch i j => .stitch i.clone j.clone
  | .search i o => .search i.clone o

/-- src/btree/set.rs:1217-1222 `SymmetricDifference::clone`, 1317-1322 `Union::clone`. -/
def TwoIters.clone (t : TwoIters T) : TwoIters T := ⟨t.a.clone, t.b.clone⟩

/-- A set-algebra iterator. -/
inductive AlgView (T : Type) where
  | difference (d : Difference T)
  | symmetricDifference (t : TwoIters T)
  | intersection (d : Intersection T)
  | union (t : TwoIters T)

/-- src/btree/set.rs:319-340 `difference`, 363-371 `symmetric_difference`, 394-419 `intersection`, 441-446 `union`. -/
def BSet.algView (s o : BSet T) : AlgKind → Exec (AlgView T)
  | .difference => do
    let d ← s.difference o
    .ok (.difference d)
  | .symmetricDifference => do
    let t ← s.twoIters o
    .ok (.symmetricDifference t)
  | .intersection => do
    let d ← s.intersection o
    .ok (.intersection d)
  | .union => do
    let t ← s.twoIters o
    .ok (.union t)

/-- `clone`: see the four functions above. -/
def AlgView.clone : AlgView T → AlgView T
  | .difference d => .difference d.clone
  | .symmetricDifference t => .symmetricDifference t.clone
  | .intersection d => .intersection d.clone
  | .union t => .union t.clone

/-- `next`: src/btree/set.rs:1164-1197, 1228-1239, 1275-1301, 1328-1337. -/
def AlgView.next [Ord T] : AlgView T → Exec (Option T × AlgView T)
  | .difference d => do
    let r ← d.next
    .ok (r.1, .difference r.2)
  | .symmetricDifference t => do
    let r ← t.symDiffNext
    .ok (r.1, .symmetricDifference r.2)
  | .intersection d => do
    let r ← d.next
    .ok (r.1, .intersection r.2)
  | .union t => do
    let r ← t.unionNext
    .ok (r.1, .union r.2)

/-- `size_hint`: src/btree/set.rs:1199-1211, 1242-1244, 1304-1310, 1339-1343. -/
def AlgView.sizeHint : AlgView T → Nat × Option Nat
  | .difference d => d.sizeHint
  | .symmetricDifference t => t.symDiffHint
  | .intersection d => d.sizeHint
  | .union t => t.unionHint

/-! ### printing -/

/-- `f.debug_list().entries(iter)`: the loop calls `next` until `None`. -/
def SetIter.drain : Nat → SetIter T → Exec (List T)
  | 0, _ => .panic "fuel"
  | fuel + 1, i => do
    let n ← i.next
    match n.1 with
    | none => .ok []
    | some x => do
      let xs ← n.2.drain fuel
      .ok (x :: xs)

/-- src/btree/set.rs:79-81 `Debug` of `Iter`: a tuple around the `Keys` inside, which prints a list of what a clone of it yields (src/btree/map.rs:416-418). -/
def SetIter.debug (i : SetIter T) : Exec (List T) := i.clone.drain (i.len + 1)

/-- `Debug` of `Peekable` (core, derived): the iterator inside and what was peeked. -/
def Peekable.debug (p : Peekable T) : Exec (Shown T) := do
  let l ← p.iter.debug
  .ok (.peekable l p.peeked)

/-- src/btree/set.rs:132-149 `Debug` of `Difference`: the set that is searched is not printed. -/
def Difference.debug : Difference T → Exec (List (Shown T))
  | .stitch i j => do
    let l ← i.debug
    let r ← j.debug
    .ok [.iter l, r]
  | .search i _ => do
    let l ← i.debug
    .ok [.iter l]

/-- src/btree/set.rs:195-212 `Debug` of `Intersection`: the set that is searched is not printed. -/
def Intersection.debug : Intersection T → Exec (List (Shown T))
  | .stitch i j => do
    let l ← i.debug
    let r ← j.debug
    .ok [.iter l, .iter r]
  | .search i _ => do
    let l ← i.debug
    .ok [.iter l]

/-- src/btree/set.rs:164-171 `Debug` of `SymmetricDifference`, 227-234 of `Union`. -/
def TwoIters.debug (t : TwoIters T) : Exec (List (Shown T)) := do
  let l ← t.a.debug
  let r ← t.b.debug
  .ok [l, r]

/-- `Debug`: see the functions above. -/
def AlgView.debug : AlgView T → Exec (List (Shown T))
  | .difference d => d.debug
  | .symmetricDifference t => t.debug
  | .intersection d => d.debug
  | .union t => t.debug

/-- Look at iterator number `i`. -/
def onAlg (p : List (AlgView T)) (i : Nat) (f : AlgView T → Exec (AlgSeen T × List (AlgView T))) : Exec (AlgSeen T × List (AlgView T)) :=
  match p[i]? with
  | none => .ok (.skipped, p)
  | some v => f v

/-- One step of a program using several iterators over the sets `s` and `o`. -/
def AlgAct.run [Ord T] (s o : BSet T) (p : List (AlgView T)) : AlgAct → Exec (AlgSeen T × List (AlgView T))
  | .start k => do
    let v ← s.algView o k
    .ok (.opened, p ++ [v])
  | .clone i => onAlg p i fun v => .ok (.opened, p ++ [v.clone])
  | .next i => onAlg p i fun v => do
      let r ← v.next
      .ok (.item r.1, p.set i r.2)
  | .hint i => onAlg p i fun v => .ok (.hint v.sizeHint, p)
  | .debug i => onAlg p i fun v => do
      let l ← v.debug
      .ok (.printed l, p)

/-- A whole program: the answers. -/
def AlgAct.runs [Ord T] (s o : BSet T) : List AlgAct → List (AlgView T) → Exec (List (AlgSeen T))
  | [], _ => .ok []
  | a :: as, p => do
    let (x, p) ← AlgAct.run s o p a
    let xs ← AlgAct.runs s o as p
    .ok (x :: xs)

end Verif.BTree
