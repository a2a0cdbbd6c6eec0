import Verif.Vec.Fallible
/-
Model of src/boxed.rs, src/rc.rs and src/arc.rs.  What std contributes (`Vec::into_boxed_slice`, `Box::from_raw`, `Rc::from(Box)`,
`Arc::from(Box)`, `Arc::try_new`, `Arc::clone`) is modelled after its source.
-/
namespace Verif.Misc
open Verif Verif.Vec

variable {T : Type}

/-- A `Box<T>`: the object it owns, and for how many elements the allocation behind it was made (it will be freed as an
allocation for one).  Model of: `alloc::boxed::Box`, `TryBox` src/boxed.rs:21-23 (`into_raw` 34-36 and
`from_raw` 42-46 are the same pointer, `deref` 60-62 is `content`). -/
structure Boxed (T : Type) where
  slots : Nat
  content : T
deriving Repr, DecidableEq

/-- `Vec::into_boxed_slice`: gives back unused capacity by a reallocation that aborts on failure (nothing to do for
zero-sized elements).  Used in src/boxed.rs:71. -/
def intoBoxedSlice (e : Env T) : VM T Unit := fun s =>
  if s.v.len < s.v.cap ∧ e.size ≠ 0 then
    let (granted, a) := s.w.alloc.request
    let w := { s.w with alloc := a, aborting := s.w.aborting + 1 }
    if granted then (.ok (), ⟨{ s.v with cap := s.v.len }, w⟩) else (.panic "memory allocation failed", ⟨s.v, w⟩)
  else (.ok (), s)

/-- `Box::from_raw(slice.as_mut_ptr())`: the slice must consist of one initialised object, and its allocation must be that of
one element.  src/boxed.rs:71-72. -/
def boxFromRaw (e : Env T) : VM T (Boxed T) := fun s =>
  match s.v.mem 0 with
  | some x => if s.v.len = 1 ∧ (s.v.cap = 1 ∨ e.size = 0) then (.ok ⟨1, x⟩, s) else (.ub, s)
  | none => (.ub, s)

/-- src/boxed.rs:66-74 `FallibleBox::try_new` (also `TryBox::try_new` 27-31). -/
def boxTryNew (e : Env T) (t : T) (w : World T) : Exec (Res (Boxed T)) × World T :=
  let body : VM T (Res (Boxed T)) := do
    match ← stdTryReserveExact e 1 with
    | .error er => do
      dropVal e t
      pure (.error er)
    | .ok () => do
      stdPush e t
      intoBoxedSlice e
      let b ← boxFromRaw e
      pure (.ok b)
  let r := body ⟨RawVec.new e, w⟩
  (r.1, r.2.w)

/-- src/boxed.rs:77-82 `TryClone for Box`, 49-53 `TryClone for TryBox`: clone the content, then `try_new`. -/
def boxTryClone (e : Env T) (cl : Cloner T) (b : Boxed T) (w : World T) : Exec (Res (Boxed T)) × World T :=
  match cl b.content w.alloc with
  | (.error m, a) => (.panic m, { w with alloc := a, cloned := w.cloned ++ [b.content] })
  | (.ok (.error er), a) => (.ok (.error er), { w with alloc := a, cloned := w.cloned ++ [b.content] })
  | (.ok (.ok c), a) =>
    boxTryNew e c { w with alloc := a, cloned := w.cloned ++ [b.content], made := w.made ++ [c] }

/-- A reference-counted allocation: the count of handles and the object. -/
structure Counted (T : Type) where
  count : Nat
  content : T
deriving Repr, DecidableEq

/-- `Rc::from(Box)` / `Arc::from(Box)`: a new allocation for the counters and the object (infallible: it aborts), the bytes are
moved there and the old allocation is freed.  `header` is the size of the two counters. -/
def countedFromBox (e : Env T) (header : Nat) (b : Boxed T) (w : World T) : Exec (Counted T) × World T :=
  if e.isizeMax < e.size + header then (.panic "called `Result::unwrap()` on an `Err` value: LayoutError", w)
  else
    let (granted, a) := w.alloc.request
    let w := { w with alloc := a, aborting := w.aborting + 1 }
    if granted then (.ok ⟨1, b.content⟩, w) else (.panic "memory allocation failed", w)

/-- src/rc.rs:25-28 `FallibleRc::try_new`; src/arc.rs:30-35 `FallibleArc::try_new` without the feature `unstable`. -/
def rcTryNew (e : Env T) (header : Nat) (t : T) (w : World T) : Exec (Res (Counted T)) × World T :=
  match boxTryNew e t w with
  | (.ok (.ok b), w) =>
    match countedFromBox e header b w with
    | (.ok c, w) => (.ok (.ok c), w)
    | (.ub, w) => (.ub, w)
    | (.panic m, w) => (.panic m, w)
  | (.ok (.error er), w) => (.ok (.error er), w)
  | (.ub, w) => (.ub, w)
  | (.panic m, w) => (.panic m, w)

/-- src/arc.rs:36-47 `FallibleArc::try_new` with the feature `unstable`: std's `Arc::try_new`, one fallible request (also for
zero-sized objects, because of the counters); on failure the object is dropped and the error is `AllocError`. -/
def arcTryNewUnstable (e : Env T) (t : T) (w : World T) : Exec (Res (Counted T)) × World T :=
  let (granted, a) := w.alloc.request
  let w := { w with alloc := a }
  if granted then (.ok (.ok ⟨1, t⟩), w)
  else (if e.dropPanics t then .panic "destructor panicked" else .ok (.error .allocError), { w with dropped := w.dropped ++ [t] })

/-- The reference-counted allocations of a program; an `Arc` is the index of one. -/
abbrev ArcHeap (T : Type) := List (Counted T)

/-- src/arc.rs:52-56 `TryClone for Arc`: `Arc::clone`, which increments the count and aborts if it was above `isize::MAX`. -/
def arcTryClone (isizeMax : Nat) (addr : Nat) (h : ArcHeap T) : Exec (Res Nat) × ArcHeap T :=
  match h[addr]? with
  | none => (.ub, h)
  | some c =>
    if isizeMax < c.count then (.panic "abort: reference count overflow", h)
    else (.ok (.ok addr), h.set addr { c with count := c.count + 1 })

end Verif.Misc
