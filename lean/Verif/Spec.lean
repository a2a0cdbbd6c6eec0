/-
The specification the map and set theorems are stated against: sorted association lists.  Nothing here refers to the
model; it is meant to be read on its own.

`Ord K` is the key order (Rust `Ord`), `bor : K → Q` is `Borrow::borrow`.  Keys that compare `Equal` need not be
the same object, so the specification keeps track of which key object is stored.
-/
namespace Verif.Spec

variable {K V Q : Type}

/-- Strictly ascending by key (hence no two equal keys). -/
def Sorted [Ord K] (l : List (K × V)) : Prop := l.Pairwise fun a b => compare a.1 b.1 = .lt

/-- `Borrow` respects the order, as its documentation demands. -/
def BorrowOK [Ord K] [Ord Q] (bor : K → Q) : Prop := ∀ a b, compare (bor a) (bor b) = compare a b

/-- The stored pair whose key equals `q`. -/
def find? [Ord Q] (bor : K → Q) (q : Q) (l : List (K × V)) : Option (K × V) :=
  l.find? fun kv => compare q (bor kv.1) == .eq

/-- The value stored for `q`. -/
def lookup [Ord Q] (bor : K → Q) (q : Q) (l : List (K × V)) : Option V := (find? bor q l).map (·.2)

/-- Insert or overwrite; the stored key object is kept when the key is already there. -/
def insert [Ord K] (k : K) (v : V) : List (K × V) → List (K × V)
  | [] => [(k, v)]
  | kv :: l =>
    match compare k kv.1 with
    | .lt => (k, v) :: kv :: l
    | .eq => (kv.1, v) :: l
    | .gt => kv :: insert k v l

/-- What may become of the list `l` when an insertion that would have made `full` of it fails: nothing, or else one unbroken stretch of at least `n` pairs of
`full` is missing. -/
def Torn {α : Type} (n : Nat) (l full l' : List α) : Prop :=
  l' = l ∨ ∃ before lost after, full = before ++ lost ++ after ∧ l' = before ++ after ∧ n ≤ lost.length

/-- Remove the pair whose key equals `q`. -/
def erase [Ord Q] (bor : K → Q) (q : Q) (l : List (K × V)) : List (K × V) :=
  l.filter fun kv => compare q (bor kv.1) != .eq

/-- Change the value stored for `q`, if there is one. -/
def modify [Ord Q] (bor : K → Q) (q : Q) (f : V → V) (l : List (K × V)) : List (K × V) :=
  l.map fun kv => if compare q (bor kv.1) == .eq then (kv.1, f kv.2) else kv

/-- The pairs with key below `q`. -/
def below [Ord Q] (bor : K → Q) (q : Q) (l : List (K × V)) : List (K × V) :=
  l.filter fun kv => compare q (bor kv.1) == .gt

/-- The pairs with key at or above `q`. -/
def atLeast [Ord Q] (bor : K → Q) (q : Q) (l : List (K × V)) : List (K × V) :=
  l.filter fun kv => compare q (bor kv.1) != .gt

/-- Everything of `r`, and of `l` what `r` has no key for: `append` with right bias. -/
def union [Ord K] (l r : List (K × V)) : List (K × V) → Prop := fun out =>
  Sorted out ∧ ∀ kv, kv ∈ out ↔ kv ∈ r ∨ (kv ∈ l ∧ ∀ kv' ∈ r, compare kv.1 kv'.1 ≠ .eq)

/-! ### clones -/

/-- Two sequences of the same length with related elements. -/
def All2 {α β : Type} (R : α → β → Prop) : List α → List β → Prop
  | [], [] => True
  | a :: as, b :: bs => R a b ∧ All2 R as bs
  | _, _ => False

/-! ### comparing sequences -/

/-- `l` comes before `r` in lexicographic order: after a common (pairwise equal) beginning either `l` ends and `r` goes on,
or the next elements differ and that of `l` is less. -/
def LexLess {α : Type} (cmp : α → α → Ordering) (l r : List α) : Prop :=
  ∃ p p', All2 (fun a b => cmp a b = .eq) p p' ∧
    ((l = p ∧ ∃ y r', r = p' ++ y :: r') ∨
     (∃ x l' y r', l = p ++ x :: l' ∧ r = p' ++ y :: r' ∧ cmp x y = .lt))

/-- What comparing two sequences by a partial order must answer: after a common (pairwise equal) beginning either both end (`Equal`), or one ends (it is less), or the next
elements are not equal, and their comparison decides, also if they are incomparable (`None`). -/
def FirstDecides {α : Type} (cmp : α → α → Option Ordering) (l r : List α) (c : Option Ordering) : Prop :=
  ∃ p p', All2 (fun a b => cmp a b = some .eq) p p' ∧
    ((l = p ∧ r = p' ∧ c = some .eq) ∨
     (l = p ∧ (∃ y r', r = p' ++ y :: r') ∧ c = some .lt) ∨
     ((∃ x l', l = p ++ x :: l') ∧ r = p' ∧ c = some .gt) ∨
     (∃ x l' y r', l = p ++ x :: l' ∧ r = p' ++ y :: r' ∧ cmp x y ≠ some .eq ∧ c = cmp x y))

/-! ### ranges -/

/-- `core::ops::Bound`. -/
inductive Bound (Q : Type) where
  | included (q : Q)
  | excluded (q : Q)
  | unbounded
deriving Repr, DecidableEq

/-- Key `k` satisfies the lower bound: `q <= k`, `q < k`, or no bound. -/
def aboveLo [Ord Q] : Bound Q → Q → Bool
  | .included q, k => compare q k != .gt
  | .excluded q, k => compare q k == .lt
  | .unbounded, _ => true

/-- Key `k` satisfies the upper bound: `k <= q`, `k < q`, or no bound. -/
def belowHi [Ord Q] : Bound Q → Q → Bool
  | .included q, k => compare q k != .lt
  | .excluded q, k => compare q k == .gt
  | .unbounded, _ => true

/-- The pairs within the bounds. -/
def within [Ord Q] (bor : K → Q) (lo hi : Bound Q) (l : List (K × V)) : List (K × V) :=
  l.filter fun kv => aboveLo lo (bor kv.1) && belowHi hi (bor kv.1)

/-- The bounds `range` refuses: start above end, or equal and both excluded. -/
def badRange [Ord Q] : Bound Q → Bound Q → Bool
  | .excluded s, .excluded e => compare s e != .lt
  | .included s, .included e | .included s, .excluded e | .excluded s, .included e => compare s e == .gt
  | _, _ => false

/-! ### double-ended iteration -/

/-- Which end of an iterator is asked: `next` or `next_back`. -/
inductive End where
  | front
  | back
deriving Repr, DecidableEq

/-- What a double-ended iterator with the items `l` left answers, and the items left afterwards. -/
def pop {α : Type} : End → List α → Option α × List α
  | .front, [] => (none, [])
  | .front, x :: l => (some x, l)
  | .back, l => (l.getLast?, l.dropLast)

/-- The answers to a whole sequence of `next`/`next_back` calls, and the items left afterwards. -/
def pops {α : Type} : List End → List α → List (Option α) × List α
  | [], l => ([], l)
  | e :: es, l => ((pop e l).1 :: (pops es (pop e l).2).1, (pops es (pop e l).2).2)

/-- The items a run took from end `e`, in the order they came: `es` are the calls and the second list their answers. -/
def took {α : Type} (e : End) : List End → List (Option α) → List α
  | e' :: es, some x :: os => if e' = e then x :: took e es os else took e es os
  | _ :: es, none :: os => took e es os
  | _, _ => []

/-! ### mutable iteration -/

/-- What a program does with a mutable iterator: take an item from one end (and keep the reference it gets), or write
through the `i`-th of the references it was handed so far. -/
inductive MutAct (V : Type) where
  | take (e : End)
  | write (i : Nat) (f : V → V)

/-- A mutable iteration over `items`: positions `lo ..< hi` are still to come, `refs` are the positions of the values
handed out so far, in order. -/
structure Cursor (K V : Type) where
  items : List (K × V)
  lo : Nat
  hi : Nat
  refs : List Nat

/-- One action; the answer is what a `take` yields (`none` for a write). -/
def Cursor.act (c : Cursor K V) : MutAct V → Option (K × V) × Cursor K V
  | .take .front => if c.lo < c.hi then (c.items[c.lo]?, { c with lo := c.lo + 1, refs := c.refs ++ [c.lo] }) else (none, c)
  | .take .back =>
    if c.lo < c.hi then (c.items[c.hi - 1]?, { c with hi := c.hi - 1, refs := c.refs ++ [c.hi - 1] }) else (none, c)
  | .write i f =>
    match c.refs[i]? with
    | some j => (none, { c with items := c.items.modify j fun kv => (kv.1, f kv.2) })
    | none => (none, c)

/-- A whole program. -/
def Cursor.acts (c : Cursor K V) : List (MutAct V) → List (Option (K × V)) × Cursor K V
  | [] => ([], c)
  | a :: as => ((c.act a).1 :: ((c.act a).2.acts as).1, ((c.act a).2.acts as).2)

end Verif.Spec
