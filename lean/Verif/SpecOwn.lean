import Verif.Spec
/-
Specification: using an owning iterator, on the list of the pairs it has left.
-/
namespace Verif.Spec

variable {K V : Type}

/-- What a program may do with an owning iterator: `next` or `next_back`, print it with `{:?}`, ask for `len()` (or `size_hint`). -/
inductive OwnAct where
  | ask (e : End)
  | debug
  | len
deriving DecidableEq, Repr

/-- The answers: an item, the entries printed, a number. -/
inductive OwnOut (K V : Type) where
  | item (x : Option (K × V))
  | listed (l : List (K × V))
  | count (n : Nat)
deriving DecidableEq, Repr

/-- One call, when the pairs `l` are left: the answer, and what is left then. -/
def OwnAct.spec (l : List (K × V)) : OwnAct → OwnOut K V × List (K × V)
  | .ask .front => (.item l.head?, l.tail)
  | .ask .back => (.item l.getLast?, l.dropLast)
  | .debug => (.listed l, l)
  | .len => (.count l.length, l)

/-- A sequence of them. -/
def OwnAct.specs : List OwnAct → List (K × V) → List (OwnOut K V) × List (K × V)
  | [], l => ([], l)
  | a :: as, l => ((a.spec l).1 :: (OwnAct.specs as (a.spec l).2).1, (OwnAct.specs as (a.spec l).2).2)

/-- Several iterators: the answers of each and the pairs it had left when it was dropped.  A list of calls too few counts as no calls. -/
def OwnAct.specsAll : List (List (K × V)) → List (List OwnAct) → List (List (OwnOut K V) × List (K × V))
  | [], _ => []
  | l :: ls, ass => OwnAct.specs (ass.headD []) l :: OwnAct.specsAll ls ass.tail

end Verif.Spec
