import Verif.Heap.Conc
import Verif.Heap.Proofs.Pool
import Verif.Heap.WholeSets
import Verif.SpecThreads
/-
Threads that use the whole API: like Heap/Conc.lean, with the programs of Heap/Whole.lean and Heap/WholeSets.lean.
-/
namespace Verif.Heap
open Verif
open Verif.Spec (Orders Act Ans SetAct SetAns Turn)

variable {K V Q S T A X α : Type}

/-- What can be done: what it does, when its answer is a failed insertion, what needs `&` references only, and what is done only when no request for memory is refused. -/
structure Api (K V A X : Type) where
  run : List HMap → A → HM K V (X × List HMap)
  spoils : A → X → Bool
  looks : A → Bool
  makes : A → Bool
  needs : A → Bool

/-- The API of maps. -/
def mapApi [Ord K] [Ord Q] (f : Orders K V S) (bor : K → Q) : Api K V (Act K V Q) (Ans K V S) := ⟨Act.hrun f bor, Act.spoils, Act.looks, Act.makes, fun _ => false⟩

/-- The API of sets. -/
def setApi [Ord T] [Ord Q] (f : Orders T Unit S) (bor : T → Q) : Api T Unit (SetAct T Q) (SetAns T S) := ⟨SetAct.hrun f bor, SetAct.spoils, SetAct.looks, SetAct.makes, SetAct.operates⟩

/-- The memory holds some well-formed maps, and nothing else. -/
def HoldsJust (hs : List HMap) (s : Heap K V) : Prop := ∃ ms : List (BTree.Map K V), (∀ m ∈ ms, m.WF) ∧ pool hs ms ⟨s.cells, none⟩

/-- A way to take everything apart into accesses (`Prog`): the accesses in a row are the call; what needs `&` references only never stores and never frees; what makes a
new map from `&` references never stores into a node of the maps that it is given, nor frees one, wherever new nodes are put and whatever the allocator answers (the operators
of sets: as long as it refuses nothing). -/
structure Api.TakesApart (L : Api K V A X) (d : List HMap → A → Prog K V (X × List HMap)) : Prop where
  whole : ∀ p a, (d p a).whole = L.run p a
  looks : ∀ p a, L.looks a = true → (d p a).OnlyReads
  spares : ∀ {p : List HMap} {s : Heap K V}, s.Good → HoldsJust p s → ∀ a, L.makes a = true → (L.needs a = true → s.alloc.Good) → (d p a).Spares (fun x => s.cells x ≠ none) s

/-- The program of a thread: it stops after an insertion that fails.  The answers, whether it came to its end, and its own maps. -/
def Api.thread (L : Api K V A X) (d : List HMap → A → Prog K V (X × List HMap)) (sh : List HMap) : List (Turn A) → List HMap → Prog K V (List X × Bool × List HMap)
  | [], p => .done ([], true, p)
  | .own a :: ts, p => (d p a).bind fun r =>
    if L.spoils a r.1 then .done ([r.1], false, r.2)
    else (L.thread d sh ts r.2).bind fun rs => .done (r.1 :: rs.1, rs.2)
  | .look a :: ts, p => (d (sh ++ p) a).bind fun r => (L.thread d sh ts p).bind fun rs => .done (r.1 :: rs.1, rs.2)
  | .copy a :: ts, p => (d (sh ++ p) a).bind fun r => (L.thread d sh ts (p ++ r.2.drop (sh ++ p).length)).bind fun rs => .done (r.1 :: rs.1, rs.2)

/-- The program of a thread when nobody else is there. -/
def Api.alone (L : Api K V A X) (sh : List HMap) : List (Turn A) → List HMap → HM K V (List X × Bool × List HMap)
  | [], p => pure ([], true, p)
  | .own a :: ts, p => do
    let r ← L.run p a
    if L.spoils a r.1 then pure ([r.1], false, r.2)
    else do
      let rs ← L.alone sh ts r.2
      pure (r.1 :: rs.1, rs.2)
  | .look a :: ts, p => do
    let r ← L.run (sh ++ p) a
    let rs ← L.alone sh ts p
    pure (r.1 :: rs.1, rs.2)
  | .copy a :: ts, p => do
    let r ← L.run (sh ++ p) a
    let rs ← L.alone sh ts (p ++ r.2.drop (sh ++ p).length)
    pure (r.1 :: rs.1, rs.2)

/-- What one thread gets: what it does, and the maps that are moved to it. -/
structure Worker (A : Type) where
  turns : List (Turn A)
  maps : List HMap

/-- The threads. -/
def Api.spawn (L : Api K V A X) (d : List HMap → A → Prog K V (X × List HMap)) (sh : List HMap) (tasks : List (Worker A)) : List (Prog K V (List X × Bool × List HMap)) :=
  tasks.map fun t => L.thread d sh t.turns t.maps

/-- All the maps of all the threads. -/
def given (tasks : List (Worker A)) : List HMap := (tasks.map (·.maps)).flatten

end Verif.Heap
