import Verif.CmpSpec
import Verif.SpecMut
import Verif.SpecEntry
import Verif.BTree.GoOn
/-
Specification: programs that use the whole API of maps, each call following the other: the calls of `Op`, the questions about whole maps, mutable iterators that are looked at
while they are used, and entries that are held and used with closures that may panic.
-/
namespace Verif.Spec

variable {K V Q S : Type}

/-- One thing a program does with its maps. -/
inductive Act (K V Q : Type) where
  /-- a call of the API -/
  | op (o : Op K V Q)
  /-- `==`, `partial_cmp`, `cmp`, `hash`, `{:?}`, `m[q]` -/
  | ask (a : Ask Q)
  /-- `iter_mut` of map `i`, used in any way -/
  | iterMut (i : Nat) (as : List (MutLook V))
  /-- `values_mut` -/
  | valuesMut (i : Nat) (as : List (MutLook V))
  /-- `range_mut(lo, hi)`; if it panics, the program catches it -/
  | rangeMut (i : Nat) (lo hi : Bound Q) (as : List (MutLook V))
  /-- `try_entry(k)` of map `i`, held, used in any way, and used up -/
  | entry (i : Nat) (k : K) (as : List (EntryLook V)) (fin : EntryEnd V)

/-- What it is answered. -/
inductive Ans (K V S : Type) where
  | out (o : Out K V)
  | told (t : Told K V S)
  | looked (xs : List (MutSeen K V))
  | used (xs : List (EntrySeen K V))
  | panicked
  /-- there is no map of that number -/
  | skipped

/-- Whether the answer is the failure of an insertion; the program stops then (what it may do further is the subject of C15, C16 and C83). -/
def Act.stops : Act K V Q → Ans K V S → Prop
  | .op o, a => o.inserting.isSome ∧ a = .out .failed
  | .entry .., a => ∃ xs, a = .used xs ∧ .failed ∈ xs
  | _, _ => False

/-- An answer about the list of map `i`, which may be changed. -/
def onSome (ls : List (List (K × V))) (i : Nat) (a : Ans K V S) (ls' : List (List (K × V))) (P : List (K × V) → List (K × V) → Prop) : Prop :=
  match ls[i]? with
  | none => a = .skipped ∧ ls' = ls
  | some l => ∃ l', ls' = ls.set i l' ∧ P l l'

/-- What a program may be answered, and what the entries of its maps are then; `lawful`: the keys are in a lawful order; `refuses`:
some request for memory is refused.  A call that fails for that reason leaves all maps as they were.  In any order of the keys, the calls of `Op` may answer anything
(what can be said of them is said elsewhere), a `range_mut` covers some stretch of the list, and an entry is at some place of the list. -/
def Act.Right [Ord K] [Ord Q] (f : Orders K V S) (bor : K → Q) (lawful refuses : Prop) (ls : List (List (K × V))) : Act K V Q → Ans K V S → List (List (K × V)) → Prop
  | .op o, a, ls' => ∃ x, a = .out x ∧ (lawful → (x, ls') = o.spec bor ls ∨ (x = .failed ∧ refuses ∧ ls' = ls))
  | .ask q, a, ls' => ∃ t, a = .told t ∧ q.Right f bor lawful ls t ∧ ls' = ls
  | .iterMut i as, a, ls' => onSome ls i a ls' fun l l' =>
      (Cursor.looks .iter ⟨l, 0, l.length, []⟩ as).2 = l' ∧ a = .looked (Cursor.looks .iter ⟨l, 0, l.length, []⟩ as).1
  | .valuesMut i as, a, ls' => onSome ls i a ls' fun l l' =>
      (Cursor.looks .values ⟨l, 0, l.length, []⟩ as).2 = l' ∧ a = .looked (Cursor.looks .values ⟨l, 0, l.length, []⟩ as).1
  | .rangeMut i lo hi as, a, ls' => onSome ls i a ls' fun l l' =>
      (a = .panicked ∧ l' = l ∧ (lawful → badRange lo hi = true)) ∨
      ∃ pre mid post, l = pre ++ mid ++ post ∧ (lawful → badRange lo hi = false ∧ mid = within bor lo hi l) ∧
        (Cursor.looks .range ⟨l, pre.length, pre.length + mid.length, []⟩ as).2 = l' ∧ a = .looked (Cursor.looks .range ⟨l, pre.length, pre.length + mid.length, []⟩ as).1
  | .entry i k as fin, a, ls' => onSome ls i a ls' fun l l' =>
      ∃ p : Place K V, p.list = l ∧ (∀ kv ∈ p.here, compare k kv.1 = .eq) ∧ (lawful → p.IsFor k) ∧ (fin.specs k as p).2 = l' ∧ a = .used (fin.specs k as p).1

/-- What a whole program may be answered, and the entries of its maps at the end, if no insertion fails. -/
def Act.Rights [Ord K] [Ord Q] (f : Orders K V S) (bor : K → Q) (lawful refuses : Prop) : List (Act K V Q) → List (List (K × V)) → List (Ans K V S) → List (List (K × V)) → Prop
  | [], ls, xs, ls' => xs = [] ∧ ls' = ls
  | a :: as, ls, xs, ls' => ∃ x xs1 ls1, xs = x :: xs1 ∧ a.Right f bor lawful refuses ls x ls1 ∧ ¬ a.stops x ∧ Act.Rights f bor lawful refuses as ls1 xs1 ls'

end Verif.Spec
