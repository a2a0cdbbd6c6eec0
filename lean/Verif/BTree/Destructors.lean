import Verif.BTree.History
/-
Destructors that panic: which pairs a call drops, in terms of the contents of the maps.
-/
namespace Verif.Spec

variable {K V Q : Type}

/-- Dropping the pairs `l` in order, when `calm` destructors return and the next one panics: the pairs whose destructors ran (the one that panics included), and
whether all went well. -/
def dropsOf (l : List (K × V)) (calm : Nat) : List (K × V) × Bool := (l.take (calm + 1), decide (l.length ≤ calm))

/-- What a call drops from the maps, whose contents are `s`: `clear` all that was in the map, an owning iterator what was not asked for. -/
def Op.drops (s : List (List (K × V))) : Op K V Q → Nat → List (K × V) × Bool
  | .clear i, calm => match s[i]? with
    | some l => dropsOf l calm
    | none => ([], true)
  | .intoIter i es, calm => match s[i]? with
    | some l => dropsOf (pops es l).2 calm
    | none => ([], true)
  | _, _ => ([], true)

/-- The same for all the calls of a program on lists. -/
def Op.dropss [Ord K] [Ord Q] (bor : K → Q) : List (Op K V Q × Nat) → List (List (K × V)) → List (List (K × V) × Bool)
  | [], _ => []
  | (op, calm) :: ops, s => op.drops s calm :: Op.dropss bor ops (op.spec bor s).2

end Verif.Spec
