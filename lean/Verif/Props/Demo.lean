import Verif.BTree.Reach
/-
A concrete map used to show that the hypotheses of the theorems are met: 40 entries, height 1.
-/
namespace Verif.Props
open Verif Verif.BTree Verif.Spec

/-- An allocator that never refuses. -/
def allOk : Alloc := fun _ => true
/-- An allocator that always refuses. -/
def noMem : Alloc := fun _ => false

def demoList : List (Nat × Nat) := (List.range 40).map fun i => (2 * i, i)

/-- The map built by inserting `demoList` pair by pair. -/
def demo : Map Nat Nat :=
  match Map.fromIter demoList allOk with
  | .ok (m, _) => m
  | _ => Map.new

set_option maxRecDepth 10000 in
theorem demo_built : (Map.new : Map Nat Nat).extend demoList allOk = .ok (demo, allOk) := by rfl

theorem demo_reach : Reach demo := .extend .new demo_built

set_option maxRecDepth 10000 in
theorem demo_items : demo.toListE = .ok demoList := by rfl

end Verif.Props
