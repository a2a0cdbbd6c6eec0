import Verif.Spec
/-
The specification of what looks at whole maps: `==`, `partial_cmp`, `cmp`, `hash`, `{:?}` and indexing.  Nothing here refers to the model.
-/
namespace Verif.Spec

variable {K V Q S : Type}

/-- The comparisons of the user's types, which may be any functions, and a hasher: its state at the start, and after an entry is fed to it. -/
structure Orders (K V S : Type) where
  eqK : K → K → Bool
  eqV : V → V → Bool
  partialK : K → K → Option Ordering
  partialV : V → V → Option Ordering
  cmpK : K → K → Ordering
  cmpV : V → V → Ordering
  feed : S → K × V → S
  init : S

/-- `partial_cmp` of entries: the keys decide, unless they are `Equal`. -/
def Orders.partial (f : Orders K V S) (a b : K × V) : Option Ordering := if f.partialK a.1 b.1 = some .eq then f.partialV a.2 b.2 else f.partialK a.1 b.1

/-- `cmp` of entries. -/
def Orders.cmp (f : Orders K V S) (a b : K × V) : Ordering := if f.cmpK a.1 b.1 = .eq then f.cmpV a.2 b.2 else f.cmpK a.1 b.1

/-- A question about the maps number `i` and `j`, which may be the same one: `m == n`, `m.partial_cmp(&n)`, `m.cmp(&n)`, `m.hash(&mut h)`, `{:?}` of `m`, `m[q]`. -/
inductive Ask (Q : Type) where
  | eq (i j : Nat)
  | partialCmp (i j : Nat)
  | cmp (i j : Nat)
  | hash (i : Nat)
  | debug (i : Nat)
  | index (i : Nat) (q : Q)

/-- An answer; `value none`: the indexing panicked. -/
inductive Told (K V S : Type) where
  | bool (b : Bool)
  | part (c : Option Ordering)
  | ord (c : Ordering)
  | state (st : S)
  | entries (l : List (K × V))
  | value (v : Option V)
  | skipped

/-- The right answer for maps whose entries are, in order, the lists `ls`; `lawful`: the keys are in a lawful order. -/
def Ask.Right [Ord Q] (f : Orders K V S) (bor : K → Q) (lawful : Prop) (ls : List (List (K × V))) : Ask Q → Told K V S → Prop
  | .eq i j, t =>
    match ls[i]?, ls[j]? with
    | some l, some r => ∃ b, t = .bool b ∧ (b = true ↔ All2 (fun x y => f.eqK x.1 y.1 = true ∧ f.eqV x.2 y.2 = true) l r)
    | _, _ => t = .skipped
  | .partialCmp i j, t =>
    match ls[i]?, ls[j]? with
    | some l, some r => ∃ c, t = .part c ∧ FirstDecides f.partial l r c
    | _, _ => t = .skipped
  | .cmp i j, t =>
    match ls[i]?, ls[j]? with
    | some l, some r => ∃ c, t = .ord c ∧ FirstDecides (fun x y => some (f.cmp x y)) l r (some c)
    | _, _ => t = .skipped
  | .hash i, t =>
    match ls[i]? with
    | some l => t = .state (l.foldl f.feed f.init)
    | _ => t = .skipped
  | .debug i, t =>
    match ls[i]? with
    | some l => t = .entries l
    | _ => t = .skipped
  | .index i q, t =>
    match ls[i]? with
    | some l => ∃ v, t = .value v ∧ (∀ x, v = some x → ∃ k, (k, x) ∈ l ∧ compare q (bor k) = .eq) ∧ (lawful → v = lookup bor q l)
    | _ => t = .skipped

end Verif.Spec
