import Verif.Spec
/-
Specification of programs that use several read-only iterators over one map at the same time.  Nothing here refers to the model.
-/
namespace Verif.Spec

variable {K V Q : Type}

/-- What an iterator hands out: an entry, a key or a value. -/
inductive Item (K V : Type) where
  | pair (kv : K × V)
  | key (k : K)
  | val (v : V)
deriving Repr, DecidableEq

/-- The iterators one can open. -/
inductive Source (Q : Type) where
  /-- `map.iter()` -/
  | iter
  /-- `map.keys()`; `set.iter()` -/
  | keys
  /-- `map.values()` -/
  | values
  /-- `map.range((lo, hi))` -/
  | range (lo hi : Bound Q)
  /-- `set.range((lo, hi))` -/
  | setRange (lo hi : Bound Q)

/-- One step of a program that uses iterators, numbered in the order in which they came into being. -/
inductive ViewAct (Q : Type) where
  | start (s : Source Q)
  /-- `it[i].clone()`, a new iterator -/
  | clone (i : Nat)
  /-- `it[i].next()` or `it[i].next_back()` -/
  | ask (i : Nat) (e : End)
  /-- `it[i].size_hint()` -/
  | hint (i : Nat)
  /-- `format!("{:?}", it[i])`: the elements printed -/
  | debug (i : Nat)

/-- What such a step answers. -/
inductive Seen (K V : Type) where
  | opened
  | panicked
  | item (x : Option (Item K V))
  | hint (h : Nat × Option Nat)
  | list (l : List (Item K V))
  /-- there is no iterator of that number -/
  | skipped
deriving Repr, DecidableEq

/-- An iterator as the specification sees it: where it came from and the entries it has still to hand out. -/
structure Pending (K V Q : Type) where
  src : Source Q
  left : List (K × V)

/-- What an iterator makes of an entry. -/
def Source.item (s : Source Q) (kv : K × V) : Item K V :=
  match s with
  | .iter | .range .. => .pair kv
  | .keys | .setRange .. => .key kv.1
  | .values => .val kv.2

/-- What the `Debug` form of an iterator shows of an entry (that of `set::Range` is derived and shows the entries of the map inside). -/
def Source.shown (s : Source Q) (kv : K × V) : Item K V :=
  match s with
  | .iter | .range .. | .setRange .. => .pair kv
  | .keys => .key kv.1
  | .values => .val kv.2

/-- The size hint with `n` entries left: exact, except that ranges do not know. -/
def Source.hintFor (s : Source Q) (n : Nat) : Nat × Option Nat :=
  match s with
  | .range .. | .setRange .. => (0, none)
  | _ => (n, some n)

/-- The entries that a new iterator over the entries `l` hands out; `none` if the bounds are refused with a panic. -/
def Source.entries [Ord Q] (bor : K → Q) (l : List (K × V)) : Source Q → Option (List (K × V))
  | .range lo hi | .setRange lo hi => if badRange lo hi then none else some (within bor lo hi l)
  | _ => some l

/-- Look at iterator number `i`. -/
def onPending (p : List (Pending K V Q)) (i : Nat) (f : Pending K V Q → Seen K V × List (Pending K V Q)) : Seen K V × List (Pending K V Q) :=
  match p[i]? with
  | none => (.skipped, p)
  | some v => f v

/-- One step over a map with the entries `l`. -/
def ViewAct.spec [Ord Q] (bor : K → Q) (l : List (K × V)) (p : List (Pending K V Q)) : ViewAct Q → Seen K V × List (Pending K V Q)
  | .start s =>
    match s.entries bor l with
    | some xs => (.opened, p ++ [⟨s, xs⟩])
    | none => (.panicked, p)
  | .clone i => onPending p i fun v => (.opened, p ++ [v])
  | .ask i e => onPending p i fun v => (.item ((pop e v.left).1.map v.src.item), p.set i ⟨v.src, (pop e v.left).2⟩)
  | .hint i => onPending p i fun v => (.hint (v.src.hintFor v.left.length), p)
  | .debug i => onPending p i fun v => (.list (v.left.map v.src.shown), p)

/-- A whole program: the answers. -/
def ViewAct.specs [Ord Q] (bor : K → Q) (l : List (K × V)) : List (ViewAct Q) → List (Pending K V Q) → List (Seen K V)
  | [], _ => []
  | a :: as, p => (a.spec bor l p).1 :: ViewAct.specs bor l as (a.spec bor l p).2

end Verif.Spec
