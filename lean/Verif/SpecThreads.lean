import Verif.SpecSets
/-
Specification: threads that use the whole API.  Each has maps (or sets) of its own, and all may look at some shared ones.
-/
namespace Verif.Spec

variable {K V Q S T A X : Type}

/-- One thing a thread does. -/
inductive Turn (A : Type) where
  /-- anything at all with its own maps -/
  | own (a : A)
  /-- something that only needs `&` references, to the shared maps and its own: the shared ones have the numbers `0, 1, …`, then come its own -/
  | look (a : A)
  /-- something that makes a new map out of such references (`clone`, `try_clone`, the operators of sets); the new map becomes its own -/
  | copy (a : A)

/-- What it does. -/
def Turn.act : Turn A → A
  | .own a | .look a | .copy a => a

/-- A call of the API that takes `&self` only and returns no new map. -/
def Op.looks : Op K V Q → Bool
  | .get .. | .getKeyValue .. | .containsKey .. | .len .. | .isEmpty .. | .iterate .. | .range .. | .views .. => true
  | _ => false

/-- A call of the API that takes `&self` and makes a new map. -/
def Op.makes : Op K V Q → Bool
  | .clone .. | .tryClone .. => true
  | _ => false

/-- What needs `&` references only: the lookups and iterators, `==`, `partial_cmp`, `cmp`, `hash`, `{:?}` and indexing. -/
def Act.looks : Act K V Q → Bool
  | .op o => o.looks
  | .ask _ => true
  | _ => false

/-- What makes a new map from a `&` reference. -/
def Act.makes : Act K V Q → Bool
  | .op o => o.makes
  | _ => false

/-- The same for sets, with the set-algebra iterators, `is_subset`, `is_superset`, `is_disjoint`, … -/
def SetAct.looks : SetAct T Q → Bool
  | .act a => a.looks
  | .ask _ => true
  | .operator .. => false

/-- … and the operators `-`, `^`, `&`, `|`. -/
def SetAct.makes : SetAct T Q → Bool
  | .act a => a.makes
  | .ask _ => false
  | .operator .. => true

/-- The operators are undefined behaviour if memory runs out after their first node (C64). -/
def SetAct.operates : SetAct T Q → Bool
  | .operator .. => true
  | _ => false

/-- Whether it is something that a thread may do: what it does with shared maps needs `&` references only. -/
def Turn.Ok (looks makes : A → Bool) : Turn A → Prop
  | .own _ => True
  | .look a => looks a = true
  | .copy a => makes a = true

/-- What a thread may be answered, and what is in its own maps at the end, if no insertion fails, in terms of what one thing may be answered (`right`): the shared lists `sh` are
always those of the start. -/
def Turn.Rights (right : List (List (K × V)) → A → X → List (List (K × V)) → Prop) (stops : A → X → Prop) (sh : List (List (K × V))) :
    List (Turn A) → List (List (K × V)) → List X → List (List (K × V)) → Prop
  | [], ls, xs, ls' => xs = [] ∧ ls' = ls
  | .own a :: ts, ls, xs, ls' => ∃ x xs1 ls1, xs = x :: xs1 ∧ right ls a x ls1 ∧ ¬ stops a x ∧ Turn.Rights right stops sh ts ls1 xs1 ls'
  | .look a :: ts, ls, xs, ls' => ∃ x xs1, xs = x :: xs1 ∧ right (sh ++ ls) a x (sh ++ ls) ∧ Turn.Rights right stops sh ts ls xs1 ls'
  | .copy a :: ts, ls, xs, ls' => ∃ x xs1 new, xs = x :: xs1 ∧ right (sh ++ ls) a x (sh ++ ls ++ new) ∧ Turn.Rights right stops sh ts (ls ++ new) xs1 ls'

/-- What a thread may be answered when it has come to its end, or has stopped where an insertion failed (which `may` happen, or not). -/
def Turn.Told (right : List (List (K × V)) → A → X → List (List (K × V)) → Prop) (stops : A → X → Prop) (may : Prop) (sh : List (List (K × V))) (ts : List (Turn A))
    (ls : List (List (K × V))) (xs : List X) (b : Bool) : Prop :=
  match b with
  | true => ∃ ls', Turn.Rights right stops sh ts ls xs ls'
  | false => may ∧ ∃ before a after ys x ls', ts = before ++ .own a :: after ∧ xs = ys ++ [x] ∧ Turn.Rights right stops sh before ls ys ls' ∧ stops a x

end Verif.Spec
