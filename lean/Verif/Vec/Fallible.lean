import Verif.Vec.Raw
/-
Model of src/vec.rs: `FallibleVec for Vec`, `TryExtend`, `Truncate`, `try_from_elem`, `TryFromIterator`, `TryClone for Vec`, `TryVec`.
-/
namespace Verif.Vec
open Verif

variable {T : Type}

/-- `TryClone::try_clone` of the element type: it may ask the allocator, fail, or panic (`Except.error` outside).
Model of: the trait src/lib.rs:73-79. -/
abbrev Cloner (T : Type) := T → Alloc → Except String (Res T) × Alloc

/-- A `try_clone` call in the loops below; what it returns is logged. -/
def callClone (cl : Cloner T) (x : T) : VM T (Res T) := fun s =>
  let (r, a) := cl x s.w.alloc
  let w := { s.w with alloc := a, cloned := s.w.cloned ++ [x] }
  match r with
  | .error m => (.panic m, { s with w := w })
  | .ok (.error er) => (.ok (.error er), { s with w := w })
  | .ok (.ok c) => (.ok (.ok c), { s with w := { w with made := w.made ++ [c] } })

/-- src/vec.rs:434-438 `needs_to_grow`: `checked_add` then compare with the capacity. -/
def needsToGrow (e : Env T) (v : RawVec T) (n : Nat) : Bool :=
  if e.usizeMax < v.len + n then true else v.cap < v.len + n

/-- src/vec.rs:442-444 `try_reserve` (also `TryVec::reserve` 156-158). -/
def tryReserve (e : Env T) (additional : Nat) : VM T (Res Unit) := stdTryReserve e additional

/-- src/vec.rs:447-452 `try_push` (also `TryVec::push` 151-153).  On `Err` the element goes out of scope. -/
def tryPush (e : Env T) (x : T) : VM T (Res Unit) := do
  let s ← VM.get
  let r ← (if s.v.len = s.v.cap then stdTryReserve e 1 else pure (.ok ()))
  match r with
  | .error er => do
    dropVal e x
    pure (.error er)
  | .ok () => do
    stdPush e x
    pure (.ok ())

/-- src/vec.rs:455-462 `try_push_give_back`. -/
def tryPushGiveBack (e : Env T) (x : T) : VM T (Except (T × TryReserveError) Unit) := do
  let s ← VM.get
  let r ← (if s.v.len = s.v.cap then stdTryReserve e 1 else pure (.ok ()))
  match r with
  | .error er => pure (.error (x, er))
  | .ok () => do
    stdPush e x
    pure (.ok ())

/-- src/vec.rs:465-472 `try_with_capacity` (also `TryVec::with_capacity` 95-99): works on a fresh vector. -/
def tryWithCapacity (e : Env T) (capacity : Nat) (w : World T) : Exec (Res (RawVec T)) × World T :=
  match tryReserve e capacity ⟨RawVec.new e, w⟩ with
  | (.ok (.ok ()), s) => (.ok (.ok s.v), s.w)
  | (.ok (.error er), s) => (.ok (.error er), s.w)
  | (.ub, s) => (.ub, s.w)
  | (.panic m, s) => (.panic m, s.w)

/-- src/vec.rs:475-482 `try_insert`. -/
def tryInsert (e : Env T) (index : Nat) (x : T) : VM T (Except (T × TryReserveError) Unit) := do
  let s ← VM.get
  let r ← (if s.v.len = s.v.cap then stdTryReserve e 1 else pure (.ok ()))
  match r with
  | .error er => pure (.error (x, er))
  | .ok () => do
    stdInsert e index x
    pure (.ok ())

/-- src/vec.rs:485-488 `try_append` (also `TryVec::append` 102-104); returns the other vector as well. -/
def tryAppend (e : Env T) (other : RawVec T) : VM T (Res Unit × RawVec T) := do
  match ← tryReserve e other.len with
  | .error er => pure (.error er, other)
  | .ok () => do
    let other ← stdAppend e other
    pure (.ok (), other)

/-- src/vec.rs:490-499 `try_resize`. -/
def tryResize (e : Env T) (newLen : Nat) (x : T) : VM T (Res Unit) := do
  let s ← VM.get
  let r ← (if s.v.len < newLen then tryReserve e (newLen - s.v.len) else pure (.ok ()))
  match r with
  | .error er => pure (.error er)
  | .ok () => do
    stdResize e newLen x
    pure (.ok ())

/-- src/vec.rs:501-510 `try_resize_with` (also `TryVec::resize_with` 161-166). -/
def tryResizeWith (e : Env T) (newLen : Nat) (f : Nat → Except String T) : VM T (Res Unit) := do
  let s ← VM.get
  let r ← (if s.v.len < newLen then tryReserve e (newLen - s.v.len) else pure (.ok ()))
  match r with
  | .error er => pure (.error er)
  | .ok () => do
    stdResizeWith e newLen f
    pure (.ok ())

/-- A value goes out of scope after `x` has run, also if `x` panicked. -/
def withDrop {α : Type} (e : Env T) (val : T) (x : VM T α) : VM T α := fun s =>
  match x s with
  | (.ub, s) => (.ub, s)
  | (.ok a, s) =>
    match dropVal e val s with
    | (.ok (), s) => (.ok a, s)
    | (.ub, s) => (.ub, s)
    | (.panic m, s) => (.panic m, s)
  | (.panic m, s) => (.panic m, (dropVal e val s).2)

/-- The loop of `try_extend_with`, src/vec.rs:598-604: `n` clones, writing at `localLen`; `done` says that every one
succeeded (otherwise the value of the generator still has to be dropped). -/
def extendWithLoop (cl : Cloner T) (val : T) : Nat → Nat → VM T (Res Unit)
  | 0, _ => pure (.ok ())
  | n + 1, localLen => do
    match ← callClone cl val with
    | .error er => pure (.error er)
    | .ok c => do
      writeSlot localLen c
      setLen (localLen + 1)
      extendWithLoop cl val n (localLen + 1)

/-- src/vec.rs:584-616 `try_extend_with` with `TryExtendElement` (562-572): reserve, `n - 1` clones, then the value
itself.  Whenever the value is not moved into the vector it is dropped on the way out (also when a clone panics). -/
def tryExtendWith (e : Env T) (cl : Cloner T) (n : Nat) (val : T) : VM T (Res Unit) := fun s0 =>
  let body : VM T (Res Unit) := do
    let s ← VM.get
    let r ← (if needsToGrow e s.v n then stdTryReserve e n else pure (.ok ()))
    match r with
    | .error er => pure (.error er)
    | .ok () => do
      let s ← VM.get
      extendWithLoop cl val (n - 1) s.v.len
  match body s0 with
  | (.ub, s) => (.ub, s)
  | (.panic m, s) => (.panic m, (dropVal e val s).2)
  | (.ok (.error er), s) =>
    match dropVal e val s with
    | (.ok (), s) => (.ok (.error er), s)
    | (.ub, s) => (.ub, s)
    | (.panic m, s) => (.panic m, s)
  | (.ok (.ok ()), s) =>
    if 0 < n then
      (show VM T (Res Unit) from do
        let l := s0.v.len + (n - 1)  -- local_len after the loop
        writeSlot l val
        setLen (l + 1)
        pure (.ok ())) s
    else
      match dropVal e val s with
      | (.ok (), s) => (.ok (.ok ()), s)
      | (.ub, s) => (.ub, s)
      | (.panic m, s) => (.panic m, s)

/-- The loop of `truncate`, src/vec.rs:635-640: step back, drop the object there, then lower the length. -/
def truncateLoop (e : Env T) : Nat → Nat → VM T Unit
  | 0, _ => pure ()
  | n + 1, localLen => do
    dropSlot e (localLen - 1)
    setLen (localLen - 1)
    truncateLoop e n (localLen - 1)

/-- src/vec.rs:624-642 `Truncate::truncate`. -/
def truncate (e : Env T) (len : Nat) : VM T Unit := do
  let s ← VM.get
  truncateLoop e (s.v.len - len) s.v.len

/-- src/vec.rs:512-523 `try_resize_no_copy`; when shrinking, `value` goes out of scope at the end. -/
def tryResizeNoCopy (e : Env T) (cl : Cloner T) (newLen : Nat) (val : T) : VM T (Res Unit) := do
  let s ← VM.get
  if s.v.len < newLen then tryExtendWith e cl (newLen - s.v.len) val
  else
    withDrop e val (do
      truncate e newLen
      pure (.ok ()))

/-- src/vec.rs:526-534 `try_extend_from_slice` (`T: Copy`). -/
def tryExtendFromSlice (e : Env T) (other : List T) : VM T (Res Unit) := do
  let s ← VM.get
  let r ← (if needsToGrow e s.v other.length then stdTryReserve e other.length else pure (.ok ()))
  match r with
  | .error er => pure (.error er)
  | .ok () => do
    stdExtendFromSlice e other
    pure (.ok ())

/-- The loop of `try_extend_from_slice_no_copy`, src/vec.rs:543-552. -/
def extendSliceLoop (cl : Cloner T) : List T → Nat → VM T (Res Unit)
  | [], _ => pure (.ok ())
  | x :: xs, len => do
    match ← callClone cl x with
    | .error er => pure (.error er)
    | .ok c => do
      writeSlot len c
      setLen (len + 1)
      extendSliceLoop cl xs (len + 1)

/-- src/vec.rs:536-554 `try_extend_from_slice_no_copy` (also `TryVec::extend_from_slice` 189-191). -/
def tryExtendFromSliceNoCopy (e : Env T) (cl : Cloner T) (other : List T) : VM T (Res Unit) := do
  let s ← VM.get
  let r ← (if needsToGrow e s.v other.length then stdTryReserve e other.length else pure (.ok ()))
  match r with
  | .error er => pure (.error er)
  | .ok () => do
    let s ← VM.get
    extendSliceLoop cl other s.v.len

/-- A function that builds a vector in a local variable: `body` works on it, `Ok` returns it; on `Err` or unwinding it is
dropped. -/
def building (e : Env T) (start : RawVec T) (body : VM T (Res Unit)) (w : World T) :
    Exec (Res (RawVec T)) × World T :=
  match body ⟨start, w⟩ with
  | (.ok (.ok ()), s) => (.ok (.ok s.v), s.w)
  | (.ok (.error er), s) =>
    match dropVec e s with
    | (.ok (), s) => (.ok (.error er), s.w)
    | (.ub, s) => (.ub, s.w)
    | (.panic m, s) => (.panic m, s.w)
  | (.panic m, s) =>
    match dropVec e s with
    | (.ub, s) => (.ub, s.w)
    | (_, s) => (.panic m, s.w)
  | (.ub, s) => (.ub, s.w)

/-- src/vec.rs:658-664 `SpecFromElem::try_from_elem`, the generic one. -/
def tryFromElem (e : Env T) (cl : Cloner T) (x : T) (n : Nat) : World T → Exec (Res (RawVec T)) × World T :=
  building e (RawVec.new e) (tryResizeNoCopy e cl n x)

/-- `ptr::write_bytes(v.as_mut_ptr(), elem, n)`. -/
def writeBytes (x : T) (n : Nat) : VM T Unit := fun s =>
  if n ≤ s.v.cap then (.ok (), { s with v := { s.v with mem := fun i => if i < n then some x else s.v.mem i } }) else (.ub, s)

/-- src/vec.rs:667-677 `SpecFromElem for u8`. -/
def tryFromElemU8 (e : Env T) (x : T) (n : Nat) (w : World T) : Exec (Res (RawVec T)) × World T :=
  match tryWithCapacity e n w with
  | (.ok (.ok v), w) =>
    building e v (do
      writeBytes x n
      setLen n
      pure (.ok ())) w
  | (r, w) => (r, w)

/-- src/vec.rs:679-689 `TryClone for Vec`, 361-370 `TryFrom<&[T]> for TryVec`, 169-174 `TryClone for TryVec`, 372-381
`TryFrom<&str>`: clone a slice into a fresh vector. -/
def tryCloneSlice (e : Env T) (cl : Cloner T) (src : List T) : World T → Exec (Res (RawVec T)) × World T :=
  building e (RawVec.new e) (tryExtendFromSliceNoCopy e cl src)

/-- The loop of `try_from_iterator`, src/vec.rs:701-703.  The iterator is given as the items it will yield; `pulled` counts
how many were taken out of it.  On `Err` the remaining items stay in the iterator. -/
def pushLoop (e : Env T) : List T → VM T (Res Unit × List T)
  | [] => pure (.ok (), [])
  | x :: xs => do
    match ← tryPush e x with
    | .error er => pure (.error er, xs)
    | .ok () => pushLoop e xs

/-- src/vec.rs:695-706 `try_from_iterator` (also `try_collect` 712-720) with an iterator that comes to its end; the second
component are the items not pulled. -/
def tryFromIterator (e : Env T) (items : List T) (w : World T) : Exec (Res (RawVec T) × List T) × World T :=
  match pushLoop e items ⟨RawVec.new e, w⟩ with
  | (.ok (.ok (), rest), s) => (.ok (.ok s.v, rest), s.w)
  | (.ok (.error er, rest), s) =>
    match dropVec e s with
    | (.ok (), s) => (.ok (.error er, rest), s.w)
    | (.ub, s) => (.ub, s.w)
    | (.panic m, s) => (.panic m, s.w)
  | (.panic m, s) =>
    match dropVec e s with
    | (.ub, s) => (.ub, s.w)
    | (_, s) => (.panic m, s.w)
  | (.ub, s) => (.ub, s.w)

/-- The loop of `try_from_iterator`, src/vec.rs:701-703, with an iterator that panics after its last item. -/
def pushLoopPanic (e : Env T) (msg : String) : List T → VM T (Res Unit × List T)
  | [] => VM.panic msg
  | x :: xs => do
    match ← tryPush e x with
    | .error er => pure (.error er, xs)
    | .ok () => pushLoopPanic e msg xs

/-- src/vec.rs:695-706 `try_from_iterator` with an iterator that panics when asked for an item after the given ones: the vector
built so far is dropped while unwinding. -/
def tryFromIteratorPanic (e : Env T) (msg : String) (items : List T) (w : World T) : Exec (Res (RawVec T) × List T) × World T :=
  match pushLoopPanic e msg items ⟨RawVec.new e, w⟩ with
  | (.ok (.ok (), rest), s) => (.ok (.ok s.v, rest), s.w)
  | (.ok (.error er, rest), s) =>
    match dropVec e s with
    | (.ok (), s) => (.ok (.error er, rest), s.w)
    | (.ub, s) => (.ub, s.w)
    | (.panic m, s) => (.panic m, s.w)
  | (.panic m, s) =>
    match dropVec e s with
    | (.ub, s) => (.ub, s.w)
    | (_, s) => (.panic m, s.w)
  | (.ub, s) => (.ub, s.w)

/-- src/vec.rs:194-202 `IntoIterator for TryVec`: the whole buffer. -/
def intoIter (v : RawVec T) : IntoIter T := ⟨v, 0, v.len⟩

/-- The loop of `concat`, src/vec.rs:180-182. -/
def concatLoop (e : Env T) (cl : Cloner T) : List (List T) → VM T (Res Unit)
  | [] => pure (.ok ())
  | v :: vs => do
    match ← tryExtendFromSliceNoCopy e cl v with
    | .error er => pure (.error er)
    | .ok () => concatLoop e cl vs

/-- The sum of the lengths in `usize`, src/vec.rs:178: overflow panics or wraps. -/
def sumUsize (e : Env T) : List Nat → Exec Nat
  | [] => .ok 0
  | n :: ns => do
    let m ← sumUsize e ns
    if e.usizeMax < n + m then
      if e.overflowChecks then .panic "attempt to add with overflow" else .ok ((n + m) % (e.usizeMax + 1))
    else .ok (n + m)

/-- src/vec.rs:176-185 `TryVec::concat`. -/
def concat (e : Env T) (cl : Cloner T) (vs : List (List T)) (w : World T) : Exec (Res (RawVec T)) × World T :=
  match sumUsize e (vs.map List.length) with
  | .ub => (.ub, w)
  | .panic m => (.panic m, w)
  | .ok size =>
    match tryWithCapacity e size w with
    | (.ok (.ok v), w) => building e v (concatLoop e cl vs) w
    | (r, w) => (r, w)

end Verif.Vec
