import Verif.Heap.Iter
import Verif.SpecOwn
/-
`Debug` of the owning iterator: it walks what is left of the tree with a borrowed `Range`, without taking anything.
-/
namespace Verif.Heap
open Verif
open Verif.Spec (End OwnAct OwnOut)

variable {K V : Type}

/-- `f.debug_list().entries(range)`: `next` (src/btree/map.rs:1561-1567) until `None`.  `n` bounds the number of calls; running out of it counts as failure. -/
def HRange.walk (bnd : Nat) : (n : Nat) → HRange → HM K V (List (K × V))
  | 0, _ => HM.ub
  | n + 1, r => do
    let x ← r.step bnd .front
    match x.1 with
    | none => pure []
    | some kv => do
      let l ← HRange.walk bnd n x.2
      pure (kv :: l)

/-- src/btree/map.rs:393-401 `Debug for IntoIter` (and, through `derive`, of the set's `IntoIter`, src/btree/set.rs:92-95): a `Range` from its front to its back. -/
def HIntoIter.debug (bnd : Nat) (it : HIntoIter) : HM K V (List (K × V)) :=
  HRange.walk bnd (it.length + 1) ⟨it.front, it.back⟩

/-- One call on an owning iterator.  `len`: src/btree/map.rs:1470-1475, `size_hint`: 1426-1429. -/
def HIntoIter.act (bnd : Nat) (it : HIntoIter) : OwnAct → HM K V (OwnOut K V × HIntoIter)
  | .ask e => do
    let x ← it.ask bnd e
    pure (.item x.1, x.2)
  | .debug => do
    let l ← it.debug bnd
    pure (.listed l, it)
  | .len => pure (.count it.length, it)

/-- A sequence of them. -/
def HIntoIter.acts (bnd : Nat) : List OwnAct → HIntoIter → HM K V (List (OwnOut K V) × HIntoIter)
  | [], it => pure ([], it)
  | a :: as, it => do
    let x ← it.act bnd a
    let r ← HIntoIter.acts bnd as x.2
    pure (x.1 :: r.1, r.2)

/-- `into_iter` (src/btree/map.rs:1350-1366), the calls, and then the iterator is dropped (1368-1385): the answers and the pairs its destructor drops. -/
def HMap.useUp (m : HMap) (as : List OwnAct) : HM K V (List (OwnOut K V) × List (K × V)) := do
  let it ← m.intoIter
  let xs ← it.acts m.root.height as
  let rest ← xs.2.drop m.root.height
  pure (xs.1, rest)

/-- All the maps of a program, one after the other. -/
def useUpAll : List HMap → List (List OwnAct) → HM K V (List (List (OwnOut K V) × List (K × V)))
  | [], _ => pure []
  | m :: p, ass => do
    let x ← m.useUp (ass.headD [])
    let xs ← useUpAll p ass.tail
    pure (x :: xs)

end Verif.Heap
