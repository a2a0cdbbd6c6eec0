import Verif.BTree.History
/-
Specification: how many comparisons of keys a call may make, in terms of the numbers of entries of the maps.
-/
namespace Verif.Spec

variable {K V Q : Type}

/-- To look for a key among `n` entries: eleven on each of at most `1 + log₂(n + 1) / 2` levels. -/
def lookCost (n : Nat) : Nat := 11 * (Nat.log2 (n + 1) / 2 + 1)

/-- To find the two ends of a range among `n` entries; up to two comparisons are of the bounds themselves. -/
def boundsCost (n : Nat) : Nat := 2 * lookCost n + 2

/-- To use iterators over a map of `n` entries: only opening a range compares keys. -/
def ViewAct.cost (n : Nat) : ViewAct Q → Nat
  | .start (.range _ _) | .start (.setRange _ _) => boundsCost n
  | _ => 0

/-- The number of entries of map number `i`. -/
def lenAt (lens : List Nat) (i : Nat) : Nat := lens[i]?.getD 0

/-- The comparisons a call may make when the maps have `lens` entries. -/
def Op.cost (lens : List Nat) : Op K V Q → Nat
  | .insert i _ _ | .remove i _ | .get i _ | .getKeyValue i _ | .containsKey i _ | .update i _ _ | .replace i _ _ | .take i _ | .splitOff i _
  | .entryOrInsert i _ _ _ | .entryOrInsertWith i _ _ _ | .entryRemove i _ | .entryModify i _ _ | .entryKey i _ | .entryInsert i _ _ => lookCost (lenAt lens i)
  | .range i _ _ _ | .rangeMut i _ _ _ => boundsCost (lenAt lens i)
  | .append i j => lenAt lens i + lenAt lens j - 1
  | .extend i items => items.length * lookCost (lenAt lens i + items.length)
  | .views i acts => (acts.map (ViewAct.cost (lenAt lens i))).sum
  | .new | .len _ | .isEmpty _ | .clear _ | .clone _ | .iterate _ _ | .iterMut _ _ | .intoIter _ _ | .tryClone _ _ _ => 0

end Verif.Spec
