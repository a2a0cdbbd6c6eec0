import Verif.Exec
import Verif.BTree.Node
/-
Level-2 model: the memory that src/btree/node.rs manipulates.

A heap of nodes, each with its own `parent`/`parent_idx`/`len` header and its three arrays of possibly
uninitialised slots.  Every access that the Rust code performs without a check is checked here and answers `ub`:
an address that is not allocated (use after free, null, the shared static root), a slot outside the array, a slot that is
not initialised, a deallocation with the wrong layout, `as_internal` on a leaf allocation.

Ownership is tracked strictly: a `ptr::read` or a `ptr::copy` that moves a value out of a slot leaves the slot
uninitialised (in Rust the stale bits stay, and reading them again would duplicate the value), and writing a slot
that still holds a value is `ub` too (in Rust the old value would be leaked silently).  Any run that is not `ub` here
therefore computes in Rust exactly what it computes here.
A new node may be put at any free address, also one that was in use before (`Heap.place`).
Simplifications: `u16`/`usize` arithmetic is on `Nat` with underflow checked; stacked-borrows style aliasing rules are not modelled.
-/
namespace Verif.Heap
open Verif
open Verif.BTree (B MIN_LEN CAPACITY)

/-- The address of a node.  `0` is the static `EMPTY_ROOT_NODE`, src/btree/node.rs:131-137. -/
abbrev Addr := Nat

/-- src/btree/node.rs:131-137: the shared empty root; `Root::shared_empty_root` 217-226 points to it and `Root::is_shared_root` 213-215 compares with it. -/
abbrev SHARED : Addr := 0

/-- `[MaybeUninit<T>; N]`: `none` is an uninitialised (or moved-out) slot; the bound `N` is checked by each access. -/
abbrev Slots (α : Type) := Nat → Option α

namespace Slots
variable {α : Type}

/-- `MaybeUninit::uninit_array()`, src/btree/node.rs:111-112, 164. -/
def uninit : Slots α := fun _ => none

/-- `ptr::read` of slot `i` of an array of `cap` slots: moves the value out. -/
def take (s : Slots α) (cap i : Nat) : Exec (α × Slots α) :=
  if i < cap then
    match s i with
    | some x => .ok (x, fun j => if j = i then none else s j)
    | none => .ub
  else .ub

/-- Looking at slot `i` through a reference (`get_unchecked`, `&*ptr`). -/
def peek (s : Slots α) (cap i : Nat) : Exec α :=
  if i < cap then
    match s i with
    | some x => .ok x
    | none => .ub
  else .ub

/-- `ptr::write` to slot `i`. -/
def put (s : Slots α) (cap i : Nat) (x : α) : Exec (Slots α) :=
  if i < cap ∧ s i = none then .ok (fun j => if j = i then some x else s j) else .ub

instance (s : Slots α) (i : Nat) : Decidable (s i = none) :=
  match s i with
  | none => isTrue rfl
  | some _ => isFalse (by simp)

/-- `ptr::copy(base + i, base + j, n)` inside one array (the ranges may overlap): moves `n` slots. -/
def copyWithin (s : Slots α) (cap i j n : Nat) : Exec (Slots α) :=
  if i + n ≤ cap ∧ j + n ≤ cap ∧ (∀ d, d < n → (i ≤ j + d ∧ j + d < i + n) ∨ s (j + d) = none) then
    .ok (fun x =>
      if j ≤ x ∧ x < j + n then s (i + (x - j))
      else if i ≤ x ∧ x < i + n then none
      else s x)
  else .ub

/-- `ptr::copy_nonoverlapping(src + i, dst + j, n)` between the arrays of two nodes: `(src, dst)` afterwards. -/
def moveTo (src dst : Slots α) (cap i j n : Nat) : Exec (Slots α × Slots α) :=
  if i + n ≤ cap ∧ j + n ≤ cap ∧ (∀ d, d < n → dst (j + d) = none) then
    .ok (fun x => if i ≤ x ∧ x < i + n then none else src x,
         fun x => if j ≤ x ∧ x < j + n then src (i + (x - j)) else dst x)
  else .ub

/-- src/btree/node.rs:1662-1669 `slice_insert` on the slice of the first `len` slots (it writes one slot past the slice). -/
def sliceInsert (s : Slots α) (cap len idx : Nat) (x : α) : Exec (Slots α) := do
  require (idx ≤ len)  -- `slice.len() - idx` must not underflow
  let s ← s.copyWithin cap idx (idx + 1) (len - idx)
  s.put cap idx x

/-- src/btree/node.rs:1671-1679 `slice_remove` on the slice of the first `len` slots. -/
def sliceRemove (s : Slots α) (cap len idx : Nat) : Exec (α × Slots α) := do
  require (idx < len)  -- `get_unchecked(idx)`, `slice.len() - idx - 1`
  let (x, s) ← s.take cap idx
  let s ← s.copyWithin cap (idx + 1) idx (len - idx - 1)
  .ok (x, s)

end Slots

/-- Which of the two node types an allocation was made for.  `LeafNode` src/btree/node.rs:81-102, `InternalNode`
144-151. -/
inductive Layout where
  | leaf
  | internal
deriving Repr, DecidableEq

/-- One node in memory.  `parent_idx` is `MaybeUninit`.  A leaf allocation has no `edges` array; every access to
`edges` checks `lay`.  src/btree/node.rs:81-102, 144-151. -/
structure Node (K V : Type) where
  lay : Layout
  parent : Option Addr
  pidx : Option Nat
  len : Nat
  keys : Slots K
  vals : Slots V
  edges : Slots Addr

/-- src/btree/node.rs:107-117 `LeafNode::new`, 161-167 `InternalNode::new`. -/
def Node.new {K V : Type} (lay : Layout) : Node K V :=
  ⟨lay, none, none, 0, Slots.uninit, Slots.uninit, Slots.uninit⟩

/-- The memory: allocated nodes, an address from which on nothing was ever allocated, the allocator's verdicts, and the addresses it would like to
hand out. -/
structure Heap (K V : Type) where
  cells : Addr → Option (Node K V)
  next : Nat
  alloc : Alloc
  place : Nat → Addr

/-- Where the allocator puts the next node: at the address it likes if nothing is there (never the shared root, which is not free), else at a fresh one. -/
def Heap.spot {K V : Type} (s : Heap K V) : Addr :=
  if s.place 0 ≠ SHARED ∧ (s.cells (s.place 0)).isNone = true then s.place 0 else s.next

/-- The address is in use from now on. -/
def Heap.nextAfter {K V : Type} (s : Heap K V) : Nat := max s.next (s.spot + 1)

/-- A computation on the memory. -/
def HM (K V α : Type) := Heap K V → Exec (α × Heap K V)

namespace HM
variable {K V α β : Type}

/-- Rust statement sequencing: the first fault wins. -/
def bind (x : HM K V α) (f : α → HM K V β) : HM K V β := fun s =>
  match x s with
  | .ok (a, s') => f a s'
  | .ub => .ub
  | .panic m => .panic m

instance : Monad (HM K V) where
  pure a := fun s => .ok (a, s)
  bind := HM.bind

/-- A computation that does not touch the memory. -/
def lift (x : Exec α) : HM K V α := fun s =>
  match x with
  | .ok a => .ok (a, s)
  | .ub => .ub
  | .panic m => .panic m

/-- `debug_assert!` and implicit preconditions. -/
def req (c : Bool) : HM K V Unit := lift (require c)

/-- Undefined behaviour. -/
def ub : HM K V α := fun _ => .ub

/-- `panic!`. -/
def panic (m : String) : HM K V α := fun _ => .panic m

end HM

variable {K V α β : Type}

/-- Dereference a node pointer.  `as_leaf`, src/btree/node.rs:411-413: not for the shared root. -/
def getNode (a : Addr) : HM K V (Node K V) := fun s =>
  if a = SHARED then .ub
  else match s.cells a with
    | some n => .ok (n, s)
    | none => .ub

/-- Run a piece of code that reads and writes the fields of one node (`as_leaf_mut`, src/btree/node.rs:543-546). -/
def atNode (a : Addr) (f : Node K V → Exec (β × Node K V)) : HM K V β := fun s =>
  if a = SHARED then .ub
  else match s.cells a with
    | none => .ub
    | some n =>
      match f n with
      | .ok (b, n') => .ok (b, { s with cells := fun x => if x = a then some n' else s.cells x })
      | .ub => .ub
      | .panic m => .panic m

/-- Run a piece of code that moves data between two different nodes. -/
def atNodes (a b : Addr) (f : Node K V → Node K V → Exec (Node K V × Node K V)) : HM K V Unit := do
  HM.req (a ≠ b)
  let na ← getNode a
  let nb ← getNode b
  let (na, nb) ← HM.lift (f na nb)
  atNode a (fun _ => .ok ((), na))
  atNode b (fun _ => .ok ((), nb))

/-- `Box::try_new` of a new node, kept as a raw pointer: src/boxed.rs:64-74, src/btree/node.rs:178-191.  `none`: the
allocator refused. -/
def allocNode (lay : Layout) : HM K V (Option Addr) := fun s =>
  let r := s.alloc.request
  if r.1 then
    .ok (some s.spot,
      { cells := fun x => if x = s.spot then some (Node.new lay) else s.cells x, next := s.nextAfter, alloc := r.2,
        place := fun n => s.place (n + 1) })
  else .ok (none, { s with alloc := r.2 })

/-- `Global.deallocate(ptr, Layout::new::<..>())`: the layout must be the one of the allocation. -/
def freeNode (a : Addr) (lay : Layout) : HM K V Unit := fun s =>
  if a = SHARED then .ub
  else match s.cells a with
    | none => .ub
    | some n =>
      if n.lay = lay then .ok ((), { s with cells := fun x => if x = a then none else s.cells x })
      else .ub

/-- `as_header().len`, src/btree/node.rs:380-382, 415-417: also fine on the shared root. -/
def lenOf (a : Addr) : HM K V Nat :=
  if a = SHARED then pure 0
  else do
    let n ← getNode a
    pure n.len

end Verif.Heap
