/-
The specification the set theorems are stated against: strictly ascending lists of elements.  Nothing here refers to the
model.  Elements that compare `Equal` need not be the same object, so the specification says which object is meant.
-/
namespace Verif.Spec

variable {T : Type}

/-- Strictly ascending (hence no two equal elements). -/
def Ascending [Ord T] (l : List T) : Prop := l.Pairwise fun a b => compare a b = .lt

/-- `l` has an element equal to `x`. -/
def Has [Ord T] (x : T) (l : List T) : Prop := ∃ y ∈ l, compare x y = .eq

/-- `out` is the difference of `l` and `r`. -/
def IsDifference [Ord T] (l r out : List T) : Prop := Ascending out ∧ ∀ x, x ∈ out ↔ x ∈ l ∧ ¬ Has x r

/-- `out` is the intersection of `l` and `r`, made of the objects of `l`. -/
def IsIntersection [Ord T] (l r out : List T) : Prop := Ascending out ∧ ∀ x, x ∈ out ↔ x ∈ l ∧ Has x r

/-- `out` is the union of `l` and `r`; where both have an equal element, it is the object of `l`. -/
def IsUnion [Ord T] (l r out : List T) : Prop := Ascending out ∧ ∀ x, x ∈ out ↔ x ∈ l ∨ (x ∈ r ∧ ¬ Has x l)

/-- `out` is the symmetric difference of `l` and `r`. -/
def IsSymDiff [Ord T] (l r out : List T) : Prop :=
  Ascending out ∧ ∀ x, x ∈ out ↔ (x ∈ l ∧ ¬ Has x r) ∨ (x ∈ r ∧ ¬ Has x l)

/-- What `n` calls of `next` answer when the items to come are `l`: the items, then `None` for ever. -/
def answers (n : Nat) (l : List T) : List (Option T) := (l.take n).map some ++ List.replicate (n - l.length) none

/-- A size hint (lower bound, upper bound if there is one) holds for `n` items. -/
def HintHolds (hint : Nat × Option Nat) (n : Nat) : Prop := hint.1 ≤ n ∧ ∀ u, hint.2 = some u → n ≤ u

/-! ### programs that use several set-algebra iterators at once -/

inductive AlgKind where
  | difference
  | symmetricDifference
  | intersection
  | union
deriving Repr, DecidableEq

/-- `out` are the items that an iterator of kind `k` over the sets `l` and `r` has to hand out; an intersection is made of the objects of the smaller set. -/
def AlgKind.Out [Ord T] (l r : List T) : AlgKind → List T → Prop
  | .difference, out => IsDifference l r out
  | .symmetricDifference, out => IsSymDiff l r out
  | .intersection, out => if l.length ≤ r.length then IsIntersection l r out else IsIntersection r l out
  | .union, out => IsUnion l r out

/-- One step of a program that uses set-algebra iterators over two sets, numbered in the order in which they came into being. -/
inductive AlgAct where
  /-- `s.difference(&o)`, … -/
  | start (k : AlgKind)
  /-- `it[i].clone()`, a new iterator -/
  | clone (i : Nat)
  /-- `it[i].next()` -/
  | next (i : Nat)
  /-- `it[i].size_hint()` -/
  | hint (i : Nat)
  /-- `format!("{:?}", it[i])` -/
  | debug (i : Nat)

/-- A field that is printed: an iterator (its elements), or a `Peekable` (the elements of the iterator inside, and what was peeked). -/
inductive Shown (T : Type) where
  | iter (l : List T)
  | peekable (l : List T) (peeked : Option (Option T))
deriving Repr, DecidableEq

/-- All the elements in it, in order. -/
def Shown.items : Shown T → List T
  | .iter l => l
  | .peekable l (some (some x)) => x :: l
  | .peekable l _ => l

/-- What such a step answers. -/
inductive AlgSeen (T : Type) where
  | opened
  | item (x : Option T)
  | hint (h : Nat × Option Nat)
  | printed (fields : List (Shown T))
  /-- there is no iterator of that number -/
  | skipped
deriving Repr, DecidableEq

/-- The answer `o` is right, and `p'` are the items still to come afterwards, when `p` are the items still to come from each
iterator before and a new iterator of kind `k` has the items `outs k` to hand out. -/
def AlgAct.Right (outs : AlgKind → List T) (p : List (List T)) (a : AlgAct) (o : AlgSeen T) (p' : List (List T)) : Prop :=
  match a with
  | .start k => o = .opened ∧ p' = p ++ [outs k]
  | .clone i =>
    match p[i]? with
    | none => o = .skipped ∧ p' = p
    | some l => o = .opened ∧ p' = p ++ [l]
  | .next i =>
    match p[i]? with
    | none => o = .skipped ∧ p' = p
    | some l => o = .item l.head? ∧ p' = p.set i l.tail
  | .hint i =>
    match p[i]? with
    | none => o = .skipped ∧ p' = p
    | some l => ∃ h, o = .hint h ∧ HintHolds h l.length ∧ p' = p
  | .debug i =>
    match p[i]? with
    | none => o = .skipped ∧ p' = p
    | some l => ∃ fs, o = .printed fs ∧ (∀ x ∈ l, ∃ f ∈ fs, x ∈ f.items) ∧ p' = p

/-- All the answers of a program are right. -/
def AlgAct.AllRight (outs : AlgKind → List T) : List AlgAct → List (List T) → List (AlgSeen T) → Prop
  | [], _, os => os = []
  | a :: as, p, os => ∃ o os' p', os = o :: os' ∧ a.Right outs p o p' ∧ AlgAct.AllRight outs as p' os'

/-- A question about the sets number `i` and `j`, which may be the same one: a program that uses set-algebra iterators over them, `is_subset`, `is_superset`,
`is_disjoint`, `{:?}`. -/
inductive SetAsk where
  | algebra (i j : Nat) (acts : List AlgAct)
  | subset (i j : Nat)
  | superset (i j : Nat)
  | disjoint (i j : Nat)
  | debug (i : Nat)

/-- An answer. -/
inductive SetTold (T : Type) where
  | seen (xs : List (AlgSeen T))
  | bool (b : Bool)
  | elements (l : List T)
  | skipped
deriving DecidableEq

/-- The right answer for sets whose elements are, in order, the lists `ls`. -/
def SetAsk.Right [Ord T] (ls : List (List T)) : SetAsk → SetTold T → Prop
  | .algebra i j acts, t =>
    match ls[i]?, ls[j]? with
    | some l, some r => ∃ (outs : AlgKind → List T) (xs : List (AlgSeen T)), (∀ k, AlgKind.Out l r k (outs k)) ∧ t = .seen xs ∧ AlgAct.AllRight outs acts [] xs
    | _, _ => t = .skipped
  | .subset i j, t =>
    match ls[i]?, ls[j]? with
    | some l, some r => ∃ b, t = .bool b ∧ (b = true ↔ ∀ x ∈ l, Has x r)
    | _, _ => t = .skipped
  | .superset i j, t =>
    match ls[i]?, ls[j]? with
    | some l, some r => ∃ b, t = .bool b ∧ (b = true ↔ ∀ x ∈ r, Has x l)
    | _, _ => t = .skipped
  | .disjoint i j, t =>
    match ls[i]?, ls[j]? with
    | some l, some r => ∃ b, t = .bool b ∧ (b = true ↔ ∀ x ∈ l, ¬ Has x r)
    | _, _ => t = .skipped
  | .debug i, t =>
    match ls[i]? with
    | some l => t = .elements l
    | none => t = .skipped

end Verif.Spec
