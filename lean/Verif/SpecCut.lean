import Verif.BTree.History
/-
Specification: programs some of whose calls are unwound, because a comparison of keys panics, on sorted association lists.
-/
namespace Verif.Spec

variable {K V Q : Type}

/-- What a call that is unwound after `n` items has done: of the calls considered only `extend` has done anything, namely inserted the first `n` pairs. -/
def Op.upTo : Op K V Q → Nat → Option (Op K V Q)
  | .extend i items, n => some (.extend i (items.take n))
  | _, _ => none

/-- The lists after that. -/
def Op.specUpTo [Ord K] [Ord Q] (bor : K → Q) (s : List (List (K × V))) (op : Op K V Q) (n : Nat) : List (List (K × V)) :=
  match op.upTo n with
  | some op => (op.spec bor s).2
  | none => s

/-- A program: each call with `none` if it returns, `some n` if it is unwound after `n` items.  The answers (`none` for the calls that are unwound), and the
lists at the end. -/
def Op.specsCut [Ord K] [Ord Q] (bor : K → Q) : List (Op K V Q × Option Nat) → List (List (K × V)) → List (Option (Out K V)) × List (List (K × V))
  | [], s => ([], s)
  | (op, none) :: ops, s => (some (op.spec bor s).1 :: (Op.specsCut bor ops (op.spec bor s).2).1, (Op.specsCut bor ops (op.spec bor s).2).2)
  | (op, some n) :: ops, s => (none :: (Op.specsCut bor ops (op.specUpTo bor s n)).1, (Op.specsCut bor ops (op.specUpTo bor s n)).2)

end Verif.Spec
