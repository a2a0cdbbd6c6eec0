import Verif.SpecWhole
import Verif.SetSpec
/-
Specification: programs over sets that use the whole API in turns: whatever can be done with the map inside a set (a set is a map to `()`), the set algebra, its
predicates, printing, and the operators `-`, `^`, `&`, `|`, each of which makes one more set.
-/
namespace Verif.Spec

variable {T Q S : Type}

/-- One thing a program does with its sets. -/
inductive SetAct (T Q : Type) where
  /-- a call, a comparison, an entry of the map inside, … -/
  | act (a : Act T Unit Q)
  /-- set-algebra iterators used in any way, `is_subset`, `is_superset`, `is_disjoint`, `{:?}` -/
  | ask (a : SetAsk)
  /-- `&s[i] - &s[j]`, `^`, `&`, `|`, which clones elements with `fk`; the result is one more set.  If it panics, the program catches it. -/
  | operator (i j : Nat) (k : AlgKind) (fk : T → T)

/-- What it is answered. -/
inductive SetAns (T S : Type) where
  | ans (a : Ans T Unit S)
  | told (t : SetTold T)
  | made
  | panicked
  /-- there is no set of that number -/
  | skipped

/-- What is true of the answers whatever the order of the elements is: an iterator of each kind has a fixed list of elements of the two sets to hand out (its size hints may be
wrong), the predicates answer something, and `{:?}` prints the elements. -/
def SetAsk.Fair (ls : List (List T)) : SetAsk → SetTold T → Prop
  | .algebra i j acts, t =>
    match ls[i]?, ls[j]? with
    | some l, some r => ∃ (outs : AlgKind → List T) (xs : List (AlgSeen T)), (∀ k, ∀ x ∈ outs k, x ∈ l ∨ x ∈ r) ∧ t = .seen xs ∧
        ((∀ c, AlgAct.hint c ∉ acts) → AlgAct.AllRight outs acts [] xs)
    | _, _ => t = .skipped
  | .subset i j, t => if i < ls.length ∧ j < ls.length then ∃ b, t = .bool b else t = .skipped
  | .superset i j, t => if i < ls.length ∧ j < ls.length then ∃ b, t = .bool b else t = .skipped
  | .disjoint i j, t => if i < ls.length ∧ j < ls.length then ∃ b, t = .bool b else t = .skipped
  | .debug i, t =>
    match ls[i]? with
    | some l => t = .elements l
    | none => t = .skipped

/-- The failure of an insertion; the program stops then. -/
def SetAct.stops : SetAct T Q → SetAns T S → Prop
  | .act a, x => ∃ y, x = .ans y ∧ a.stops y
  | _, _ => False

/-- What a program may be answered, and what is in its sets then.  With a lawful order of the elements, an operator makes the set that results from inserting the clones of
the elements of the mathematical result, in order; or it panics, having changed nothing, if a request for memory is refused. -/
def SetAct.Right [Ord T] [Ord Q] (f : Orders T Unit S) (bor : T → Q) (lawful refuses : Prop) (ls : List (List (T × Unit))) : SetAct T Q → SetAns T S → List (List (T × Unit)) → Prop
  | .act a, x, ls' => ∃ y, x = .ans y ∧ a.Right f bor lawful refuses ls y ls'
  | .ask a, x, ls' => ∃ t, x = .told t ∧ a.Fair (ls.map (List.map Prod.fst)) t ∧ (lawful → a.Right (ls.map (List.map Prod.fst)) t) ∧ ls' = ls
  | .operator i j k fk, x, ls' =>
    match ls[i]?, ls[j]? with
    | some l, some r =>
      (x = .panicked ∧ (lawful → refuses) ∧ ls' = ls) ∨
      (x = .made ∧ ∃ l', ls' = ls ++ [l'] ∧ (∀ e ∈ l', ∃ t, (t ∈ l.map Prod.fst ∨ t ∈ r.map Prod.fst) ∧ e = (fk t, ())) ∧
        (lawful → ∃ out, k.Out (l.map Prod.fst) (r.map Prod.fst) out ∧ l' = (out.map fun t => (fk t, ())).foldl (fun acc kv => insert kv.1 kv.2 acc) []))
    | _, _ => x = .skipped ∧ ls' = ls

/-- What a whole program may be answered, and what is in its sets at the end, if no insertion fails. -/
def SetAct.Rights [Ord T] [Ord Q] (f : Orders T Unit S) (bor : T → Q) (lawful refuses : Prop) :
    List (SetAct T Q) → List (List (T × Unit)) → List (SetAns T S) → List (List (T × Unit)) → Prop
  | [], ls, xs, ls' => xs = [] ∧ ls' = ls
  | a :: as, ls, xs, ls' => ∃ x xs1 ls1, xs = x :: xs1 ∧ a.Right f bor lawful refuses ls x ls1 ∧ ¬ a.stops x ∧ SetAct.Rights f bor lawful refuses as ls1 xs1 ls'

end Verif.Spec
