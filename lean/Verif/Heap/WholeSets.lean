import Verif.Heap.Whole
import Verif.Heap.SetAlg
import Verif.SpecSets
/-
Level-2 model of programs that use the whole API of sets.  A `BTreeSet<T>` is the `BTreeMap<T, ()>` inside (src/btree/set.rs:62-64).
-/
namespace Verif.Heap
open Verif
open Verif.Spec (Orders Act Ans SetAct SetAns SetAsk AlgKind)

variable {T Q S : Type}

/-- One thing a program does.  The pieces are modelled in Heap/Whole.lean and Heap/SetAlg.lean; the set an operator makes (src/btree/set.rs:956-958, 978-980, 1000-1002,
1022-1024) is one more of the program's sets; its panic is caught. -/
def SetAct.hrun [Ord T] [Ord Q] (f : Orders T Unit S) (bor : T → Q) (p : List HMap) : SetAct T Q → HM T Unit (SetAns T S × List HMap)
  | .act a => do
    let r ← Act.hrun f bor p a
    pure (.ans r.1, r.2)
  | .ask a => do
    let t ← SetAsk.hrun p a
    pure (.told t, p)
  | .operator i j k fk =>
    match p[i]?, p[j]? with
    | some m, some n => do
      let r ← m.operator n fk k
      match r with
      | some m' => pure (.made, p ++ [m'])
      | none => pure (.panicked, p)
    | _, _ => pure (.skipped, p)

/-- Whether the answer is the failure of an insertion. -/
def SetAct.spoils : SetAct T Q → SetAns T S → Bool
  | .act a, .ans x => Act.spoils a x
  | _, _ => false

/-- A program, which stops as soon as an insertion fails: the answers, whether it came to its end, and its sets. -/
def SetAct.hprog [Ord T] [Ord Q] (f : Orders T Unit S) (bor : T → Q) : List (SetAct T Q) → List HMap → HM T Unit (List (SetAns T S) × Bool × List HMap)
  | [], p => pure ([], true, p)
  | a :: as, p => do
    let r ← SetAct.hrun f bor p a
    if SetAct.spoils a r.1 then pure ([r.1], false, r.2)
    else do
      let rs ← SetAct.hprog f bor as r.2
      pure (r.1 :: rs.1, rs.2)

end Verif.Heap
