import Verif.BTree.History
/-
Specification: a mutable iterator that is looked at while it is used.
-/
namespace Verif.Spec

variable {K V : Type}

/-- What a program does with a mutable iterator: take from an end or write through a reference (`MutAct`), ask for `size_hint`/`len`, print it with `{:?}`. -/
inductive MutLook (V : Type) where
  | act (a : MutAct V)
  | hint
  | debug

/-- What it sees.  `{:?}` shows the entries that are still to come, and for `iter_mut` and `values_mut` also their number. -/
inductive MutSeen (K V : Type) where
  | item (x : Option (Item K V))
  | wrote
  | hint (h : Nat × Option Nat)
  | printed (l : List (Item K V)) (n : Option Nat)
deriving Repr, DecidableEq

/-- The kinds of mutable iterators: `iter_mut`, `values_mut`, `range_mut`. -/
inductive MutKind where
  | iter
  | values
  | range

/-- What a reference handed out shows of its entry. -/
def MutKind.item : MutKind → K × V → Item K V
  | .iter, kv | .range, kv => .pair kv
  | .values, kv => .val kv.2

/-- The number of entries to come, if the iterator knows it. -/
def MutKind.count : MutKind → Nat → Option Nat
  | .iter, n | .values, n => some n
  | .range, _ => none

/-- The entries that are still to come, with the values they have now. -/
def Cursor.pending (c : Cursor K V) : List (K × V) := (c.items.take c.hi).drop c.lo

/-- One step. -/
def Cursor.look (kind : MutKind) (c : Cursor K V) : MutLook V → MutSeen K V × Cursor K V
  | .act (.take e) => (.item ((c.act (.take e)).1.map kind.item), (c.act (.take e)).2)
  | .act (.write i f) => (.wrote, (c.act (.write i f)).2)
  | .hint => (.hint ((kind.count c.pending.length).getD 0, kind.count c.pending.length), c)
  | .debug => (.printed (c.pending.map .pair) (kind.count c.pending.length), c)

/-- A whole program: what it sees, and the items at the end. -/
def Cursor.looks (kind : MutKind) (c : Cursor K V) : List (MutLook V) → List (MutSeen K V) × List (K × V)
  | [] => ([], c.items)
  | a :: as => ((c.look kind a).1 :: ((c.look kind a).2.looks kind as).1, ((c.look kind a).2.looks kind as).2)

end Verif.Spec
