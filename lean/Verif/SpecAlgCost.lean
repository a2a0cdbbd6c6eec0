import Verif.SpecCost
import Verif.SetSpec
/-
Specification: how many comparisons of elements the operations on two sets may make, in terms of their sizes.
-/
namespace Verif.Spec

/-- Two sets of `n` and `m` elements are walked side by side, unless the second has at least sixteen times as many: then it is searched for each of the `n`. -/
def meetCost (n m : Nat) : Nat := if m < 16 * n then n + m - 1 else n * lookCost m

/-- For the whole life of an iterator over the difference, union, … of sets of `n` and `m` elements. -/
def AlgKind.cost (n m : Nat) : AlgKind → Nat
  | .difference => meetCost n m
  | .intersection => meetCost (min n m) (max n m)
  | .symmetricDifference | .union => n + m - 1

/-- For `is_disjoint`. -/
def disjointCost (n m : Nat) : Nat := meetCost (min n m) (max n m)

/-- For `is_subset`: are the `n` elements among the `m`? -/
def subsetCost (n m : Nat) : Nat := if m < n then 0 else if m < 16 * n then m else n * lookCost m

/-- How many elements the difference, union, … can have at most. -/
def AlgKind.most (n m : Nat) : AlgKind → Nat
  | .difference => n
  | .intersection => min n m
  | .symmetricDifference | .union => n + m

/-- For the operators `-`, `^`, `&` and `|`, which build a new set: each element is also inserted. -/
def AlgKind.opCost (n m : Nat) (k : AlgKind) : Nat := k.cost n m + k.most n m * lookCost (k.most n m)

end Verif.Spec
