import Verif.Heap.Api
/-
What it means for the nodes of a map to be laid out properly in memory.  Specification only; nothing here models code.
-/
namespace Verif.Heap
open Verif

variable {K V : Type}

/-- The memory before a program starts: nothing is allocated.  The allocator answers as `al` says, and puts new nodes where `pl` says. -/
def Heap.start (al : Alloc) (pl : Nat → Addr) : Heap K V := ⟨fun _ => none, 1, al, pl⟩

/-- New nodes get new addresses. -/
abbrev fresh : Nat → Addr := fun _ => SHARED

/-- New nodes are put at one of a few addresses whenever it is free: addresses are used again and again. -/
abbrev reuse : Nat → Addr := fun n => n % 5 + 1

/-- The node at address `a`, at height `h`, can be reached from the root of `m` by following edges.  (The shared static root is
not in the heap.) -/
inductive NodeOf (s : Heap K V) (m : HMap) : Nat → Addr → Prop
  | root : m.root.node ≠ SHARED → NodeOf s m m.root.height m.root.node
  | child {h : Nat} {a c : Addr} {n : Node K V} {i : Nat} : NodeOf s m (h + 1) a → s.cells a = some n → i ≤ n.len → n.edges i = some c →
      NodeOf s m h c

open Classical in
/-- What there would be in memory if there were no other maps than those in `hs`. -/
noncomputable def Heap.only (s : Heap K V) (hs : List HMap) : Addr → Option (Node K V) := fun a => if ∃ m ∈ hs, ∃ h, NodeOf s m h a then s.cells a else none

/-- The node is a node of the right type for its height, with exactly the slots below its length initialised. -/
structure Stored (h : Nat) (n : Node K V) : Prop where
  lay : n.lay = if h = 0 then .leaf else .internal
  len : n.len ≤ 11
  keys : ∀ i, (n.keys i).isSome = true ↔ i < n.len
  vals : ∀ i, (n.vals i).isSome = true ↔ i < n.len
  edges : ∀ i, (n.edges i).isSome = true ↔ 0 < h ∧ i ≤ n.len

/-- The children of the node at `a` name it and their own position as their parent. -/
def Linked (s : Heap K V) (a : Addr) (n : Node K V) : Prop :=
  ∀ i c, n.edges i = some c → ∃ nc, s.cells c = some nc ∧ nc.parent = some a ∧ nc.pidx = some i

/-- What consuming maps with the entries `ls` must give: the first one is asked at the ends `ess[0]`, and so on. -/
def popsAll : List (List (K × V)) → List (List Spec.End) → List (List (Option (K × V)) × List (K × V))
  | [], _ => []
  | l :: ls, ess => Spec.pops (ess.headD []) l :: popsAll ls ess.tail

end Verif.Heap
