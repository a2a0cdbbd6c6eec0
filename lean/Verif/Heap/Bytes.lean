import Verif.Heap.Mem
/-
Model of the byte layout of nodes: `repr(C)` structures src/btree/node.rs:61-150 and the pointer arithmetic of `into_key_slice`.
The heap model abstracts nodes to numbered slots; here the slots get their bytes.
-/
namespace Verif.Heap.Bytes
open Verif
open Verif.BTree (B CAPACITY)

/-- `size_of` and `align_of` of a Rust type. -/
structure Ty where
  size : Nat
  align : Nat
deriving Repr, DecidableEq

/-- The rules of the language: an alignment is a power of two, and a size is a multiple of it. -/
structure Ty.OK (t : Ty) : Prop where
  pow : ∃ n, t.align = 2 ^ n
  mul : t.size % t.align = 0

/-- `n` rounded up to a multiple of `a`. -/
def alignUp (n a : Nat) : Nat := (n + a - 1) / a * a

/-- A type with its fields placed.  `ends` is where the last field ends, before the size is rounded up. -/
structure Lay where
  offsets : List Nat
  ends : Nat
  align : Nat
deriving Repr, DecidableEq

/-- Placing the fields of a `#[repr(C)]` struct one after the other, each at the next multiple of its alignment (the
algorithm of the Rust reference, "The C Representation"). -/
def reprC : List Ty → Nat → Lay
  | [], o => ⟨[], o, 1⟩
  | f :: fs, o =>
    let at' := alignUp o f.align
    let r := reprC fs (at' + f.size)
    ⟨at' :: r.offsets, r.ends, max f.align r.align⟩

/-- `size_of` of a struct: rounded up to its alignment. -/
def Lay.size (l : Lay) : Nat := alignUp l.ends l.align

/-- The struct as a type of its own. -/
def Lay.ty (l : Lay) : Ty := ⟨l.size, l.align⟩

/-- `[T; n]`. -/
def array (t : Ty) (n : Nat) : Ty := ⟨t.size * n, t.align⟩

/-- `()`. -/
def unitTy : Ty := ⟨0, 1⟩

/-- `u16`, `MaybeUninit<u16>`. -/
def u16Ty : Ty := ⟨2, 2⟩

/-- A thin pointer on a target whose pointers have `p` bytes. -/
def ptrTy (p : Nat) : Ty := ⟨p, p⟩

/-- src/btree/node.rs:62-80 `NodeHeader<K, V, K2>`: `parent`, `parent_idx`, `len`, `keys_start: [K2; 0]`. -/
def header (p : Nat) (k2 : Ty) : Lay := reprC [ptrTy p, u16Ty, u16Ty, array k2 0] 0

/-- src/btree/node.rs:81-102 `LeafNode<K, V>`: `parent`, `parent_idx`, `len`, `keys`, `vals`. -/
def leaf (p : Nat) (k v : Ty) : Lay := reprC [ptrTy p, u16Ty, u16Ty, array k CAPACITY, array v CAPACITY] 0

/-- src/btree/node.rs:144-151 `InternalNode<K, V>`: `data: LeafNode<K, V>`, `edges` (a `BoxedNode` is a pointer, 173-175). -/
def internal (p : Nat) (k v : Ty) : Lay := reprC [(leaf p k v).ty, array (ptrTy p) (2 * B)] 0

/-- What `into_key_slice` makes: no pointer into the node (`&[]`), or a pointer at an offset from the node, with a number of keys. -/
inductive KeySlice where
  | empty
  | at (offset len : Nat)
deriving Repr, DecidableEq

/-- src/btree/node.rs:558-596 `into_key_slice` (and `keys` 424-426): the alignment check, the assertion, and the address of the
field `keys_start` of the node seen as a `NodeHeader<K, V, K>`.  `isShared` is `is_shared_root()` 420-422, `len` the node's length. -/
def intoKeySlice (p : Nat) (k : Ty) (isShared : Bool) (len : Nat) : Exec KeySlice :=
  if (leaf p unitTy unitTy).align < k.align ∧ isShared = true then .ok .empty
  else if (header p unitTy).size = (header p k).size then .ok (.at ((header p k).offsets.getD 3 0) len)
  else .panic "assertion failed: mem::size_of::<NodeHeader<K, V>>() == mem::size_of::<NodeHeader<K, V, K>>()"

/-- src/btree/node.rs:619-632 `into_key_slice_mut` (and `keys_mut` 548-550): the same check, then the field `keys` of the leaf. -/
def intoKeySliceMut (p : Nat) (k v : Ty) (isShared : Bool) (len : Nat) : KeySlice :=
  if (leaf p unitTy unitTy).align < k.align ∧ isShared = true then .empty
  else .at ((leaf p k v).offsets.getD 3 0) len

end Verif.Heap.Bytes
