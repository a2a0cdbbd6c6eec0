import Verif.Heap.MutLook
import Verif.Heap.EntryUse
import Verif.Heap.Compare
import Verif.SpecWhole
/-
Level-2 model of programs that use the whole API of maps.
-/
namespace Verif.Heap
open Verif
open Verif.Spec (Bound Orders Act Ans MutLook MutSeen EntryLook EntryEnd EntrySeen)

variable {K V Q S : Type}

/-- Use map number `i`, which stays where it is. -/
def lookAt (p : List HMap) (i : Nat) (f : HMap → HM K V (Ans K V S)) : HM K V (Ans K V S × List HMap) :=
  match p[i]? with
  | none => pure (.skipped, p)
  | some m => do
    let a ← f m
    pure (a, p)

/-- `m.range_mut(lo, hi)`, src/btree/map.rs:929-944, and such a program; `range_mut` only reads, so that the program goes on with the map as it was if it panics. -/
def HMap.rangeMutCaught [Ord Q] (m : HMap) (bor : K → Q) (lo hi : Bound Q) (as : List (MutLook V)) : HM K V (Ans K V S) := do
  let r ← catchRead (m.range bor lo hi)
  match r with
  | none => pure .panicked
  | some r => do
    let xs ← m.rangeMutMethods.run as r []
    pure (.looked xs)

/-- One thing a program does.  The pieces are modelled in Heap/Api.lean, Heap/Compare.lean, Heap/MutLook.lean and Heap/EntryUse.lean. -/
def Act.hrun [Ord K] [Ord Q] (f : Orders K V S) (bor : K → Q) (p : List HMap) : Act K V Q → HM K V (Ans K V S × List HMap)
  | .op o => do
    let r ← Op.hrun bor p o
    pure (.out r.1, r.2)
  | .ask q => do
    let t ← Ask.hrun f bor p q
    pure (.told t, p)
  | .iterMut i as => lookAt p i fun m => do
    let xs ← m.iterMutLook as
    pure (.looked xs)
  | .valuesMut i as => lookAt p i fun m => do
    let xs ← m.valuesMutLook as
    pure (.looked xs)
  | .rangeMut i lo hi as => lookAt p i fun m => m.rangeMutCaught bor lo hi as
  | .entry i k as fin =>
    match p[i]? with
    | none => pure (.skipped, p)
    | some m => do
      let r ← m.entryUse k as fin
      pure (.used r.1, p.set i r.2)

/-- Whether the answer is the failure of an insertion. -/
def Act.spoils (a : Act K V Q) (x : Ans K V S) : Bool :=
  match a, x with
  | .op o, .out y => Op.spoils o y
  | .entry .., .used xs => xs.any fun y => match y with | .failed => true | _ => false
  | _, _ => false

/-- A program, which stops as soon as an insertion fails: the answers, whether it came to its end, and its maps. -/
def Act.hprog [Ord K] [Ord Q] (f : Orders K V S) (bor : K → Q) : List (Act K V Q) → List HMap → HM K V (List (Ans K V S) × Bool × List HMap)
  | [], p => pure ([], true, p)
  | a :: as, p => do
    let r ← Act.hrun f bor p a
    if Act.spoils a r.1 then pure ([r.1], false, r.2)
    else do
      let rs ← Act.hprog f bor as r.2
      pure (r.1 :: rs.1, rs.2)

end Verif.Heap
