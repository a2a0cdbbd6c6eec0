import Verif.BTree.Bulk
/-
Vocabulary for C59 and C60: requests to the allocator, and nodes in memory.
-/
namespace Verif.BTree
open Verif

variable {K V : Type}

/-- Between the schedules `a` and `a'` exactly `n` requests were made; all were granted (`good`), or all but the last. -/
def Asked (a a' : Alloc) (n : Nat) (good : Bool) : Prop :=
  a' = (fun i => a (i + n)) ∧
  if good then ∀ i, i < n → a i = true else ∃ j, n = j + 1 ∧ (∀ i, i < j → a i = true) ∧ a j = false

/-- The number of nodes of a tree of height `h`. -/
def nodesOf : Nat → Tree K V → Nat
  | 0, _ => 1
  | h + 1, t => 1 + (t.edges.map (nodesOf h)).sum

/-- The number of nodes of a map that are in memory (the shared empty root is not). -/
def Map.nodes (m : Map K V) : Nat := if m.shared then 0 else nodesOf m.height m.root

/-- The request bound of a call on a map that may insert: one for the first leaf; otherwise one per level and one for a new root. -/
def Map.growth (m : Map K V) : Nat := if m.shared then 1 else m.height + 2

/-- A clone function that does not allocate. -/
def Quiet {α : Type} (c : Cloner α) : Prop := ∀ x a, (c x a).2 = a

end Verif.BTree
