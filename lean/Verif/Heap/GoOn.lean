import Verif.Heap.Api
import Verif.BTree.GoOn
/-
Programs in memory that go on after an insertion failed: see Verif/BTree/GoOn.lean.
-/
namespace Verif.Heap
open Verif
open Verif.Spec (Op Out)

variable {K V Q : Type}

/-- A careful program in memory: the calls that trust a harmed map are left out (they would be undefined behaviour: C16, C63).  The answers, the maps
that may have been harmed, and the maps.  The calls are those of src/btree/map.rs that `Op.hrun` runs. -/
def Op.hgoOn [Ord K] [Ord Q] (bor : K → Q) : List (Op K V Q) → List Nat → List HMap → HM K V (List (Out K V) × List Nat × List HMap)
  | [], bad, p => pure ([], bad, p)
  | op :: ops, bad, p =>
    if op.trusts bad then do
      let rs ← Op.hgoOn bor ops bad p
      pure (.skipped :: rs.1, rs.2)
    else do
      let r ← Op.hrun bor p op
      let rs ← Op.hgoOn bor ops (op.mark bad (p.map HMap.length) r.1) r.2
      pure (r.1 :: rs.1, rs.2)

/-- The maps that were not harmed go out of scope, in turn; the others are forgotten (`mem::forget`).  `n` is the number of the first map.
src/btree/map.rs:129-135. -/
def dropSound (bad : List Nat) : Nat → List HMap → HM K V (List (List (K × V)))
  | _, [] => pure []
  | n, m :: p =>
    if bad.contains n then dropSound bad (n + 1) p
    else do
      let l ← m.drop
      let ls ← dropSound bad (n + 1) p
      pure (l :: ls)

end Verif.Heap
