import Verif.Heap.WholeSets
import Verif.Heap.Proofs.Readers
import Verif.SpecThreads
/-
What programs that use the whole API do, taken apart into accesses (see Steps.lean).
-/
namespace Verif.Heap
open Verif
open Verif.BTree (CAPACITY)
open Verif.Spec (Bound End Item MutLook MutSeen EntryLook EntryEnd EntrySeen Orders Act Ans SetAct SetAns AlgKind)

variable {K V Q S T α : Type} {ro : Bool}

instance {m : HMap} {r : HRange} : Steps ro (r.printed m : HM K V (List (Item K V))) := by unfold HRange.printed; steps

/-- The methods of a mutable iterator, taken apart. -/
class StepsMut (x : MutMethods K V S) : Prop where
  step : ∀ e s, Steps false (x.step e s)
  debug : ∀ s, Steps false (x.debug s)

instance {m : HMap} : StepsMut (m.iterMutMethods : MutMethods K V HIter) :=
  ⟨fun e s => by simp only [HMap.iterMutMethods]; infer_instance, fun s => by simp only [HMap.iterMutMethods]; steps⟩
instance {m : HMap} : StepsMut (m.valuesMutMethods : MutMethods K V HIter) :=
  ⟨fun e s => by simp only [HMap.valuesMutMethods, HMap.iterMutMethods]; infer_instance, fun s => by simp only [HMap.valuesMutMethods, HMap.iterMutMethods]; steps⟩
instance {m : HMap} : StepsMut (m.rangeMutMethods : MutMethods K V HRange) :=
  ⟨fun e s => by simp only [HMap.rangeMutMethods]; infer_instance, fun s => by simp only [HMap.rangeMutMethods]; steps⟩

instance mutLook_steps {x : MutMethods K V S} [hx : StepsMut x] : ∀ {as : List (MutLook V)} {it : S} {refs : List HRef}, Steps false (x.run as it refs)
  | [], it, refs => by unfold MutMethods.run; steps
  | .act (.take e) :: as, it, refs => by
    haveI := fun it refs => mutLook_steps (x := x) (as := as) (it := it) (refs := refs)
    haveI := hx.step
    unfold MutMethods.run; steps
  | .act (.write i f) :: as, it, refs => by
    haveI := fun it refs => mutLook_steps (x := x) (as := as) (it := it) (refs := refs)
    unfold MutMethods.run; steps
  | .hint :: as, it, refs => by
    haveI := fun it refs => mutLook_steps (x := x) (as := as) (it := it) (refs := refs)
    unfold MutMethods.run; steps
  | .debug :: as, it, refs => by
    haveI := fun it refs => mutLook_steps (x := x) (as := as) (it := it) (refs := refs)
    haveI := hx.debug
    unfold MutMethods.run; steps

instance {m : HMap} {as : List (MutLook V)} : Steps false (m.iterMutLook as : HM K V (List (MutSeen K V))) := by unfold HMap.iterMutLook; steps
instance {m : HMap} {as : List (MutLook V)} : Steps false (m.valuesMutLook as : HM K V (List (MutSeen K V))) := by unfold HMap.valuesMutLook; steps
instance [Ord Q] {m : HMap} {bor : K → Q} {lo hi : Bound Q} {as : List (MutLook V)} : Steps false (m.rangeMutCaught bor lo hi as : HM K V (Ans K V S)) := by
  unfold HMap.rangeMutCaught; steps

instance {e : HEntry K} : Steps false (e.get : HM K V (Option V)) := by unfold HEntry.get; steps
instance {e : HEntry K} : Steps false (e.debug : HM K V (K × Option V)) := by unfold HEntry.debug; steps
instance {e : HEntry K} {a : EntryLook V} : Steps false (e.look a : HM K V (EntrySeen K V × Bool)) := by cases a <;> simp only [HEntry.look] <;> steps
instance {m : HMap} {e : HEntry K} {v : Option V} {f : V → V} : Steps false (m.entryFill e v f) := by unfold HMap.entryFill; steps
instance {m : HMap} {e : HEntry K} {a : EntryEnd V} : Steps false (m.entryEnd e a : HM K V (EntrySeen K V × HMap)) := by cases a <;> simp only [HMap.entryEnd] <;> steps
instance entrySteps_steps {m : HMap} {e : HEntry K} {fin : EntryEnd V} : ∀ {as : List (EntryLook V)}, Steps false (m.entrySteps e fin as)
  | [] => by unfold HMap.entrySteps; steps
  | a :: as => by
    haveI := entrySteps_steps (m := m) (e := e) (fin := fin) (as := as)
    unfold HMap.entrySteps; steps
instance [Ord K] {m : HMap} {k : K} {as : List (EntryLook V)} {fin : EntryEnd V} : Steps false (m.entryUse k as fin) := by unfold HMap.entryUse; steps

theorem lookAt_steps {p : List HMap} {i : Nat} {f : HMap → HM K V (Ans K V S)} (h : ∀ m, Steps ro (f m)) : Steps ro (lookAt p i f) := by
  unfold lookAt; steps

/-- Everything a program does with its maps can be taken apart into accesses. -/
theorem Act.hrun_steps [Ord K] [Ord Q] (f : Orders K V S) (bor : K → Q) (p : List HMap) (a : Act K V Q) : Steps false (Act.hrun f bor p a) := by
  cases a with
  | op o =>
    haveI := Op.hrun_steps (V := V) bor p o
    simp only [Act.hrun]; steps
  | entry i k as fin => simp only [Act.hrun]; steps
  | ask q => simp only [Act.hrun]; steps
  | _ => simp only [Act.hrun]; apply lookAt_steps; intro m; steps

/-- What needs `&` references only looks. -/
theorem Act.hrun_looks [Ord K] [Ord Q] (f : Orders K V S) (bor : K → Q) (p : List HMap) (a : Act K V Q) (h : a.looks = true) : Steps true (Act.hrun f bor p a) := by
  cases a with
  | op o =>
    haveI := Op.hrun_looks (V := V) bor p o (by cases o <;> simp_all [Spec.Act.looks, Spec.Op.looks, Op.shared])
    simp only [Act.hrun]; steps
  | ask q => simp only [Act.hrun]; steps
  | _ => simp [Spec.Act.looks] at h

/-! ### sets -/

instance hcollectSet_steps [Ord T] {next : S → HM T Unit (Option T × S)} [hn : ∀ s, Steps false (next s)] {fk : T → T} : ∀ {n : Nat} {s : S} {m : HMap}, Steps false (hcollectSet next fk n s m)
  | 0, s, m => by unfold hcollectSet; steps
  | n + 1, s, m => by
    haveI := fun s m => hcollectSet_steps (next := next) (fk := fk) (n := n) (s := s) (m := m)
    unfold hcollectSet; steps

instance {x : Bool × HMap} : Steps false (hcollectEnd x : HM T Unit (Option HMap)) := by unfold hcollectEnd; steps

instance [Ord T] {m o : HMap} {fk : T → T} {k : AlgKind} : Steps false (m.operator o fk k) := by cases k <;> simp only [HMap.operator] <;> steps

/-- Everything a program does with its sets can be taken apart into accesses. -/
theorem SetAct.hrun_steps [Ord T] [Ord Q] (f : Orders T Unit S) (bor : T → Q) (p : List HMap) (a : SetAct T Q) : Steps false (SetAct.hrun f bor p a) := by
  cases a with
  | act a =>
    haveI := Act.hrun_steps f bor p a
    simp only [SetAct.hrun]; steps
  | ask a => simp only [SetAct.hrun]; steps
  | operator i j k fk => simp only [SetAct.hrun]; steps

/-- What needs `&` references only looks. -/
theorem SetAct.hrun_looks [Ord T] [Ord Q] (f : Orders T Unit S) (bor : T → Q) (p : List HMap) (a : SetAct T Q) (h : a.looks = true) : Steps true (SetAct.hrun f bor p a) := by
  cases a with
  | act a =>
    haveI := Act.hrun_looks f bor p a h
    simp only [SetAct.hrun]; steps
  | ask a => simp only [SetAct.hrun]; steps
  | operator i j k fk => simp [Spec.SetAct.looks] at h

end Verif.Heap
