/-
Execution outcomes and the allocator, shared by every model file.
-/
namespace Verif

/-- Outcome of running a piece of Rust code.
* `ok a`    – it returned `a`;
* `ub`      – it performed an operation that is undefined behaviour in release builds
              (`get_unchecked` out of range, `unwrap_unchecked(None)`, reading an uninitialised slot,
              use after free) or that trips `unreachable!()` / `debug_assert!` in debug builds;
* `panic m` – it panicked (or aborted through `handle_alloc_error`).
Model of: the implicit control effects of Rust; `unwrap_unchecked` src/btree/map.rs:1996-2005. -/
inductive Exec (α : Type) where
  | ok (a : α)
  | ub
  | panic (msg : String)
deriving Repr, DecidableEq

namespace Exec

/-- Sequencing: the first fault wins.  Model of: Rust statement sequencing. -/
def bind {α β : Type} (x : Exec α) (f : α → Exec β) : Exec β :=
  match x with
  | .ok a => f a
  | .ub => .ub
  | .panic m => .panic m

instance : Monad Exec where
  pure := Exec.ok
  bind := Exec.bind

@[simp] theorem ok_bind {α β : Type} (a : α) (f : α → Exec β) : (Exec.ok a >>= f) = f a := rfl
@[simp] theorem ub_bind {α β : Type} (f : α → Exec β) : ((Exec.ub : Exec α) >>= f) = Exec.ub := rfl
@[simp] theorem panic_bind {α β : Type} (m : String) (f : α → Exec β) :
    ((Exec.panic m : Exec α) >>= f) = Exec.panic m := rfl
@[simp] theorem pure_eq {α : Type} (a : α) : (pure a : Exec α) = Exec.ok a := rfl

theorem bind_eq_ok {α β : Type} {x : Exec α} {f : α → Exec β} {b : β} :
    (x >>= f) = .ok b ↔ ∃ a, x = .ok a ∧ f a = .ok b := by
  cases x <;> simp

end Exec

/-- `debug_assert!`/implicit memory-safety precondition: anything but `true` is `ub`.
Model of: every `debug_assert!` in src/btree/node.rs. -/
def require (c : Bool) : Exec Unit := if c then .ok () else .ub

@[simp] theorem require_true : require true = .ok () := rfl
@[simp] theorem require_false : require false = .ub := rfl
theorem require_of {c : Bool} (h : c = true) : require c = .ok () := by simp [h]

/-- Slice access `get_unchecked(i)`: outside the initialised prefix it is `ub`.
Model of: `get_unchecked`, `as_mut_ptr().add(i)` in src/btree/node.rs. -/
def getE {α : Type} (l : List α) (i : Nat) : Exec α :=
  match l[i]? with
  | some x => .ok x
  | none => .ub

@[simp] theorem getE_append {α : Type} (a : List α) (x : α) (b : List α) :
    getE (a ++ x :: b) a.length = .ok x := by simp [getE]

theorem getE_of_lt {α : Type} {l : List α} {i : Nat} (h : i < l.length) :
    getE l i = .ok (l[i]'h) := by simp [getE, h]

theorem getE_eq_ok {α : Type} {l : List α} {i : Nat} {x : α} :
    getE l i = .ok x ↔ l[i]? = some x := by
  unfold getE; split <;> simp_all

/-- The allocator: request number `n` is granted iff `a n`.  Every theorem quantifies over all `Alloc`,
that is over every allocation-failure schedule.  Request sizes are not an argument because an arbitrary
stream already covers every size-dependent allocator on a given run.
Model of: the global allocator seen through `FallibleBox::try_new` (src/boxed.rs:64-74). -/
abbrev Alloc := Nat → Bool

/-- One allocation request: the verdict and the remaining schedule. -/
def Alloc.request (a : Alloc) : Bool × Alloc := (a 0, fun n => a (n + 1))

/-- An allocator that grants everything. -/
def Alloc.Good (a : Alloc) : Prop := ∀ n, a n = true

theorem Alloc.Good.head {a : Alloc} (h : a.Good) : a.request.1 = true := h 0
theorem Alloc.Good.tail {a : Alloc} (h : a.Good) : a.request.2.Good := fun n => h (n + 1)

/-- `TryReserveError` (the error of every fallible operation).
Model of: `alloc::collections::TryReserveError`, re-exported src/lib.rs:59. -/
inductive TryReserveError where
  | capacityOverflow
  | allocError
deriving Repr, DecidableEq

/-- Rust's `Result<α, TryReserveError>`. -/
abbrev Res (α : Type) := Except TryReserveError α

end Verif
