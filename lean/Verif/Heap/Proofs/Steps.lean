import Verif.Heap.Conc
/-
Every call can be taken apart into accesses to the memory.
-/
namespace Verif.Heap
open Verif
open Verif.BTree (CAPACITY)
open Verif.Spec (Bound End MutAct Op Out Source ViewAct Seen)

variable {K V Q α β σ ρ : Type} {ro : Bool}

theorem Prog.whole_bind (t : Prog K V α) (f : α → Prog K V β) : (t.bind f).whole = (t.whole >>= fun a => (f a).whole) := by
  induction t with
  | done a => rfl
  | ub => rfl
  | panic msg => rfl
  | read a k ih =>
    funext s
    show HM.bind (getNode a) (fun n => ((k n).bind f).whole) s = HM.bind (HM.bind (getNode a) fun n => (k n).whole) _ s
    simp only [HM.bind, ih]
    cases getNode a s <;> rfl
  | write a n k ih =>
    funext s
    show HM.bind (atNode a _) (fun _ => (k.bind f).whole) s = HM.bind (HM.bind (atNode a _) fun _ => k.whole) _ s
    simp only [HM.bind, ih]
    cases atNode a (fun _ => .ok ((), n)) s <;> rfl
  | alloc lay k ih =>
    funext s
    show HM.bind (allocNode lay) (fun r => ((k r).bind f).whole) s = HM.bind (HM.bind (allocNode lay) fun r => (k r).whole) _ s
    simp only [HM.bind, ih]
    cases (allocNode lay : HM K V _) s <;> rfl
  | free a lay k ih =>
    funext s
    show HM.bind (freeNode a lay) (fun _ => (k.bind f).whole) s = HM.bind (HM.bind (freeNode a lay) fun _ => k.whole) _ s
    simp only [HM.bind, ih]
    cases (freeNode a lay : HM K V _) s <;> rfl

theorem Prog.OnlyReads.bind {t : Prog K V α} {f : α → Prog K V β} (h : t.OnlyReads) (hf : ∀ a, (f a).OnlyReads) : (t.bind f).OnlyReads := by
  induction t with
  | done a => exact hf a
  | ub => trivial
  | panic msg => trivial
  | read a k ih => exact fun n => ih n (h n)
  | write a n k => exact h.elim
  | alloc lay k => exact h.elim
  | free a lay k => exact h.elim

/-- A panic is caught. -/
def Prog.catch : Prog K V α → Prog K V (Option α)
  | .done a => .done (some a)
  | .ub => .ub
  | .panic _ => .done none
  | .read a k => .read a fun n => (k n).catch
  | .write a n k => .write a n k.catch
  | .alloc lay k => .alloc lay fun r => (k r).catch
  | .free a lay k => .free a lay k.catch

theorem getNode_bind (a : Addr) (f : Node K V → HM K V α) (s : Heap K V) : (getNode a >>= f) s = if a = SHARED then .ub else match s.cells a with
    | some n => f n s
    | none => .ub := by
  show HM.bind _ _ s = _
  unfold HM.bind getNode
  by_cases h : a = SHARED
  · simp [h]
  · rw [if_neg h, if_neg h]; cases s.cells a <;> rfl

theorem Prog.whole_catch {t : Prog K V α} (h : t.OnlyReads) : t.catch.whole = catchRead t.whole := by
  induction t with
  | done a => rfl
  | ub => rfl
  | panic msg => rfl
  | read a k ih =>
    funext s
    show (getNode a >>= fun n => ((k n).catch).whole) s = catchRead (getNode a >>= fun n => (k n).whole) s
    unfold catchRead
    rw [getNode_bind, getNode_bind]
    by_cases ha : a = SHARED
    · simp [ha]
    · rw [if_neg ha, if_neg ha]
      cases s.cells a with
      | none => rfl
      | some n => dsimp only; rw [ih n (h n)]; rfl
  | write a n k => exact h.elim
  | alloc lay k => exact h.elim
  | free a lay k => exact h.elim

theorem Prog.OnlyReads.catch {t : Prog K V α} (h : t.OnlyReads) : t.catch.OnlyReads := by
  induction t with
  | done a => trivial
  | ub => trivial
  | panic msg => trivial
  | read a k ih => exact fun n => ih n (h n)
  | write a n k => exact h.elim
  | alloc lay k => exact h.elim
  | free a lay k => exact h.elim

/-- `m` can be taken apart into accesses, which only look if `ro`. -/
class Steps (ro : Bool) (m : HM K V α) : Prop where
  ex : ∃ t : Prog K V α, t.whole = m ∧ (ro = true → t.OnlyReads)

theorem Steps.bind {m : HM K V α} {f : α → HM K V β} [h : Steps ro m] [hf : ∀ a, Steps ro (f a)] : Steps ro (m >>= f) := by
  obtain ⟨t, rfl, h1⟩ := h.ex
  have : ∀ a, ∃ t : Prog K V β, t.whole = f a ∧ (ro = true → t.OnlyReads) := fun a => (hf a).ex
  obtain ⟨g, hg⟩ := Classical.axiomOfChoice this
  refine ⟨t.bind g, ?_, fun hr => (h1 hr).bind fun a => (hg a).2 hr⟩
  rw [Prog.whole_bind]
  congr 1
  funext a
  exact (hg a).1

instance {a : α} : Steps ro (pure a : HM K V α) := ⟨.done a, rfl, fun _ => trivial⟩
instance : Steps ro (HM.ub : HM K V α) := ⟨.ub, rfl, fun _ => trivial⟩
instance {msg : String} : Steps ro (HM.panic msg : HM K V α) := ⟨.panic msg, rfl, fun _ => trivial⟩

instance {x : Exec α} : Steps ro (HM.lift x : HM K V α) := by
  cases x with
  | ok a => exact ⟨.done a, rfl, fun _ => trivial⟩
  | ub => exact ⟨.ub, rfl, fun _ => trivial⟩
  | panic msg => exact ⟨.panic msg, rfl, fun _ => trivial⟩

instance {c : Bool} : Steps ro (HM.req c : HM K V Unit) := by unfold HM.req; infer_instance

theorem bind_pure' (m : HM K V α) : (m >>= fun a => (pure a : HM K V α)) = m := by
  funext s
  show HM.bind m _ s = _
  unfold HM.bind
  cases m s <;> rfl

instance {a : Addr} : Steps ro (getNode a : HM K V (Node K V)) :=
  ⟨.read a .done, bind_pure' _, fun _ _ => trivial⟩

instance {lay : Layout} : Steps false (allocNode lay : HM K V (Option Addr)) :=
  ⟨.alloc lay .done, bind_pure' _, by simp⟩

instance {a : Addr} {lay : Layout} : Steps false (freeNode a lay : HM K V Unit) :=
  ⟨.free a lay (.done ()), bind_pure' _, by simp⟩

instance {a : Addr} {f : Node K V → Exec (β × Node K V)} : Steps false (atNode a f : HM K V β) := by
  refine ⟨.read a fun n => match f n with
    | .ok (b, n') => .write a n' (.done b)
    | .ub => .ub
    | .panic msg => .panic msg, ?_, by simp⟩
  funext s
  show (getNode a >>= fun n => Prog.whole _) s = _
  rw [getNode_bind]
  unfold atNode
  by_cases h : a = SHARED
  · simp [h]
  · rw [if_neg h, if_neg h]
    cases hc : s.cells a with
    | none => rfl
    | some n =>
      dsimp only
      cases f n with
      | ub => rfl
      | panic msg => rfl
      | ok r =>
        obtain ⟨b, n'⟩ := r
        show HM.bind (atNode a _) (fun _ => pure b) s = _
        unfold HM.bind atNode
        simp only [if_neg h, hc]
        rfl

instance {m : HM K V α} [h : Steps true m] : Steps ro (catchRead m) := by
  obtain ⟨t, rfl, h1⟩ := h.ex
  exact ⟨t.catch, Prog.whole_catch (h1 rfl), fun _ => (h1 rfl).catch⟩

theorem Steps.weaken {m : HM K V α} (h : Steps true m) : Steps ro m := by
  obtain ⟨t, h1, h2⟩ := h.ex
  exact ⟨t, h1, fun _ => h2 rfl⟩

/-- Takes a `do` block apart. -/
macro "steps" : tactic => `(tactic| repeat' (first | infer_instance | (intro _) | exact Steps.bind | split | (refine @Steps.bind _ _ _ _ _ _ _ ?_ ?_) | dsimp only))

instance loopN_steps {step : σ → HM K V (σ ⊕ ρ)} [h : ∀ s, Steps ro (step s)] : ∀ {n : Nat} {s : σ}, Steps ro (loopN step n s)
  | 0, s => by unfold loopN; infer_instance
  | n + 1, s => by
    haveI ih := fun s => loopN_steps (step := step) (n := n) (s := s)
    unfold loopN
    steps

instance {x : σ ⊕ ρ} : Steps ro (ended x : HM K V ρ) := by unfold ended; steps
instance {a : Addr} : Steps ro (lenOf a : HM K V Nat) := by unfold lenOf; steps
instance {r : NRef} {i : Nat} : Steps ro (newEdge r i : HM K V HRef) := by unfold newEdge; steps
instance {r : NRef} {i : Nat} : Steps ro (newKv r i : HM K V HRef) := by unfold newKv; steps
instance {r : NRef} : Steps ro (ascend r : HM K V (Option HRef)) := by unfold ascend; steps
instance {h : HRef} : Steps ro (descend h : HM K V NRef) := by unfold descend; steps

end Verif.Heap
