import Verif.Exec
/-
Model of the parts of `alloc::vec::Vec` that src/vec.rs builds on, at the level of memory slots.  `alloc` is a
dependency, not part of /repo: these definitions are its documented contract (with the std source as guide), and they are
part of the trusted base.  The crate's own code is in `Verif/Vec/Fallible.lean`.

A run keeps its state also when it panics, so that "what is left behind after unwinding" can be stated.
-/
namespace Verif.Vec
open Verif

/-- What the code is compiled for: the machine word, `size_of::<T>()`, the growth policy of `Vec` (old capacity and
required capacity to new capacity), which destructors panic, and whether integer overflow is checked.
Model of: target and std choices src/vec.rs leaves open. -/
structure Env (T : Type) where
  usizeMax : Nat
  size : Nat
  grow : Nat → Nat → Nat
  exact : Nat → Nat → Nat
  dropPanics : T → Bool
  overflowChecks : Bool

/-- The only thing demanded of the growth policies: at least what was asked for. -/
structure Env.OK {T : Type} (e : Env T) : Prop where
  grow : ∀ c r, r ≤ e.grow c r
  exact : ∀ c r, r ≤ e.exact c r

/-- `isize::MAX`, the limit for the size of one allocation. -/
def Env.isizeMax {T : Type} (e : Env T) : Nat := e.usizeMax / 2

/-- A `Vec`: capacity, length, and the slots of its allocation; `none` is an uninitialised slot.
Model of: `alloc::vec::Vec` (used throughout src/vec.rs). -/
structure RawVec (T : Type) where
  cap : Nat
  len : Nat
  mem : Nat → Option T

/-- Everything outside the vector: the allocation schedule, how many allocation requests were made whose failure aborts
or panics, the objects dropped so far, the clone calls made so far, and the objects produced by clone calls and closures.
Model of: the global allocator and the drop and `try_clone` calls made by src/vec.rs. -/
structure World (T : Type) where
  alloc : Alloc
  aborting : Nat
  dropped : List T
  cloned : List T
  made : List T

/-- A vector being worked on, and the world. -/
structure St (T : Type) where
  v : RawVec T
  w : World T

/-- Code working on one vector: how it ends, and the state it leaves (also when it panics).
Model of: `&mut self` methods. -/
abbrev VM (T α : Type) := St T → Exec α × St T

variable {T α β : Type}

/-- Statement sequencing. -/
def VM.bind (x : VM T α) (f : α → VM T β) : VM T β := fun s =>
  match x s with
  | (.ok a, s) => f a s
  | (.ub, s) => (.ub, s)
  | (.panic m, s) => (.panic m, s)

instance : Monad (VM T) where
  pure a := fun s => (.ok a, s)
  bind := VM.bind

/-- The `?` operator: stop with the error. -/
def VM.tryBind (x : VM T (Res α)) (f : α → VM T (Res β)) : VM T (Res β) :=
  x >>= fun r => match r with
    | .ok a => f a
    | .error e => pure (.error e)

/-- Read the state. -/
def VM.get : VM T (St T) := fun s => (.ok s, s)
/-- Undefined behaviour unless `c`. -/
def VM.require (c : Bool) : VM T Unit := fun s => if c then (.ok (), s) else (.ub, s)
/-- Panic. -/
def VM.panic (m : String) : VM T α := fun s => (.panic m, s)

/-! ### raw memory -/

/-- `Vec::new`, `TryVec::new` src/vec.rs:90-92 and `default` 74-78: no allocation; the capacity of a vector of zero-sized elements is `usize::MAX`. -/
def RawVec.new (e : Env T) : RawVec T := ⟨if e.size = 0 then e.usizeMax else 0, 0, fun _ => none⟩

/-- `ptr::write(ptr.add(i), x)`: the slot must be inside the allocation.  src/vec.rs:547, 599, 608. -/
def writeSlot (i : Nat) (x : T) : VM T Unit := fun s =>
  if i < s.v.cap then (.ok (), { s with v := { s.v with mem := fun j => if j = i then some x else s.v.mem j } }) else (.ub, s)

/-- `set_len(n)`: its safety contract is `n <= capacity` and the first `n` slots initialised.
src/vec.rs:550, 603, 610, 639, 673. -/
def setLen (n : Nat) : VM T Unit := fun s =>
  if n ≤ s.v.cap ∧ (List.range n).all (fun i => (s.v.mem i).isSome) then (.ok (), { s with v := { s.v with len := n } })
  else (.ub, s)

/-- Run the destructor of an object held in a local variable. -/
def dropVal (e : Env T) (x : T) : VM T Unit := fun s =>
  (if e.dropPanics x then .panic "destructor panicked" else .ok (), { s with w := { s.w with dropped := s.w.dropped ++ [x] } })

/-- `drop_in_place(ptr.add(i))`: the slot must hold an object, afterwards it is uninitialised (also when the destructor
panics).  src/vec.rs:637. -/
def dropSlot (e : Env T) (i : Nat) : VM T Unit := fun s =>
  match s.v.mem i with
  | some x =>
    (if e.dropPanics x then .panic "destructor panicked" else .ok (),
      { v := { s.v with mem := fun j => if j = i then none else s.v.mem j },
        w := { s.w with dropped := s.w.dropped ++ [x] } })
  | none => (.ub, s)

/-! ### allocation -/

/-- The common part of growing to capacity `c`: size check, then one request. -/
def growTo (e : Env T) (c : Nat) : VM T (Res Unit) := fun s =>
  if e.isizeMax < c * e.size then (.ok (.error .capacityOverflow), s)
  else
    let (granted, a) := s.w.alloc.request
    let s := { s with w := { s.w with alloc := a } }
    if granted then (.ok (.ok ()), { s with v := { s.v with cap := c } })
    else (.ok (.error .allocError), s)

/-- Growing for `additional` more elements when there is no room, with the given policy (`grow_amortized`,
`grow_exact` of std's `RawVec`). -/
def growFor (e : Env T) (policy : Nat → Nat → Nat) (additional : Nat) : VM T (Res Unit) := fun s =>
  if e.size = 0 then (.ok (.error .capacityOverflow), s)
  else if e.usizeMax < s.v.len + additional then (.ok (.error .capacityOverflow), s)
  else growTo e (policy s.v.cap (s.v.len + additional)) s

/-- `Vec::try_reserve`. -/
def stdTryReserve (e : Env T) (additional : Nat) : VM T (Res Unit) := fun s =>
  if additional ≤ s.v.cap - s.v.len then (.ok (.ok ()), s) else growFor e e.grow additional s

/-- `Vec::try_reserve_exact`. -/
def stdTryReserveExact (e : Env T) (additional : Nat) : VM T (Res Unit) := fun s =>
  if additional ≤ s.v.cap - s.v.len then (.ok (.ok ()), s) else growFor e e.exact additional s

/-- `Vec::reserve`: like `try_reserve`, but failure panics or aborts.  A call that has to grow is counted. -/
def stdReserve (e : Env T) (additional : Nat) : VM T Unit := fun s =>
  if additional ≤ s.v.cap - s.v.len then (.ok (), s)
  else
    match growFor e e.grow additional { s with w := { s.w with aborting := s.w.aborting + 1 } } with
    | (.ok (.ok ()), s) => (.ok (), s)
    | (.ok (.error .capacityOverflow), s) => (.panic "capacity overflow", s)
    | (.ok (.error .allocError), s) => (.panic "memory allocation failed", s)
    | (.ub, s) => (.ub, s)
    | (.panic m, s) => (.panic m, s)

/-! ### the infallible methods of `Vec` that the crate calls -/

/-- `Vec::push`: grows if full, then writes the slot at `len`. -/
def stdPush (e : Env T) (x : T) : VM T Unit := do
  let s ← VM.get
  if s.v.len = s.v.cap then stdReserve e 1
  writeSlot s.v.len x
  setLen (s.v.len + 1)

/-- Shift the slots `i ..< len` up by one (`ptr::copy`), leaving slot `i` empty. -/
def shiftUp (i len : Nat) (mem : Nat → Option T) : Nat → Option T := fun j =>
  if j < i then mem j else if j = i then none else if j ≤ len then mem (j - 1) else mem j

/-- The `ptr::copy` of `Vec::insert`. -/
def shiftTail (i : Nat) : VM T Unit := fun s =>
  (.ok (), { s with v := { s.v with mem := shiftUp i s.v.len s.v.mem } })

/-- `Vec::insert`: panics if the index is beyond the end (the element is dropped while unwinding); grows if full; shifts the
tail. -/
def stdInsert (e : Env T) (index : Nat) (x : T) : VM T Unit := do
  let s ← VM.get
  if s.v.len < index then fun s => (.panic "insertion index should be <= len", (dropVal e x s).2)
  else do
    if s.v.len = s.v.cap then stdReserve e 1
    VM.require (decide (s.v.len < (← VM.get).v.cap))
    shiftTail index
    writeSlot index x
    setLen (s.v.len + 1)

/-- Append a sequence of bitwise copies, slot by slot (`ptr::copy_nonoverlapping` of all of them, then `set_len`). -/
def writeAll : List T → VM T Unit
  | [] => pure ()
  | x :: xs => do
    let s ← VM.get
    writeSlot s.v.len x
    setLen (s.v.len + 1)
    writeAll xs

/-- The objects a vector hands out as a slice (`as_slice`, src/vec.rs:112-114), and what it prints (`fmt` 83-85). -/
def RawVec.items (v : RawVec T) : List T := (List.range v.len).filterMap v.mem

/-- `Vec::append`: infallible reserve, move everything, `other.set_len(0)`. -/
def stdAppend (e : Env T) (other : RawVec T) : VM T (RawVec T) := do
  stdReserve e other.len
  writeAll other.items
  pure { other with len := 0, mem := fun i => if i < other.len then none else other.mem i }

/-- `Vec::extend_from_slice` for `Copy` elements. -/
def stdExtendFromSlice (e : Env T) (other : List T) : VM T Unit := do
  stdReserve e other.length
  writeAll other

/-- `Vec::truncate` of std for elements without destructor (`T: Copy`, as `try_resize` demands): the length is cut, the tail is
forgotten (logged as dropped). -/
def stdTruncate (n : Nat) : VM T Unit := fun s =>
  if s.v.len < n then (.ok (), s)
  else
    (.ok (), { v := { s.v with len := n, mem := fun i => if n ≤ i ∧ i < s.v.len then none else s.v.mem i },
               w := { s.w with dropped := s.w.dropped ++ (s.v.items.drop n) } })

/-- `Vec::resize` for `Copy` elements. -/
def stdResize (e : Env T) (newLen : Nat) (x : T) : VM T Unit := do
  let s ← VM.get
  if s.v.len < newLen then do
    stdReserve e (newLen - s.v.len)
    writeAll (List.replicate (newLen - s.v.len) x)
  else stdTruncate newLen

/-- Log an object that a closure of the caller produced. -/
def logMade (x : T) : VM T Unit := fun s => (.ok (), { s with w := { s.w with made := s.w.made ++ [x] } })

/-- The loop of `Vec::resize_with` when growing: call number `i` of the closure, write, length (std updates the length when
leaving the loop, also by unwinding, which is the same). -/
def fillWith (f : Nat → Except String T) : Nat → Nat → VM T Unit
  | _, 0 => pure ()
  | i, n + 1 => do
    match f i with
    | .error m => VM.panic m
    | .ok x => do
      logMade x
      let s ← VM.get
      writeSlot s.v.len x
      setLen (s.v.len + 1)
      fillWith f (i + 1) n

/-- `Drop for Vec`: run the destructors of the slots `i ..< len`, in order; every one of them must hold an object. (A
panicking destructor does not stop the others; the first panic is reported.  A second panic while the first one unwinds would
abort the process: the model goes on, so it says more than is needed.) -/
def dropFrom (e : Env T) : Nat → Nat → VM T Unit
  | _, 0 => pure ()
  | i, n + 1 => fun s =>
    match dropSlot e i s with
    | (.ub, s) => (.ub, s)
    | (.ok (), s) => dropFrom e (i + 1) n s
    | (.panic m, s) =>
      match dropFrom e (i + 1) n s with
      | (.ub, s) => (.ub, s)
      | (_, s) => (.panic m, s)

/-- `Vec::truncate` of std for elements with destructors: the length is cut first, then the tail is dropped front to back as a
slice (so that a panicking destructor leaves a sound vector).  `Vec::clear` is the case `n = 0`. -/
def stdCut (e : Env T) (n : Nat) : VM T Unit := fun s =>
  if s.v.len < n then (.ok (), s)
  else dropFrom e n (s.v.len - n) { s with v := { s.v with len := n } }

/-- `Vec::pop`: lower the length, then read the slot. -/
def stdPop : VM T (Option T) := fun s =>
  if s.v.len = 0 then (.ok none, s)
  else
    match s.v.mem (s.v.len - 1) with
    | none => (.ub, s)
    | some x => (.ok (some x),
        { s with v := { s.v with len := s.v.len - 1, mem := fun j => if j = s.v.len - 1 then none else s.v.mem j } })

/-- The assignment `v[i] = x` through a mutable slice: bounds check (`x` is dropped while unwinding), then the old object is
dropped and the new one written, also when the destructor panics. -/
def stdAssign (e : Env T) (i : Nat) (x : T) : VM T Unit := fun s =>
  if s.v.len ≤ i then (.panic "index out of bounds", (dropVal e x s).2)
  else
    match dropSlot e i s with
    | (.ub, s) => (.ub, s)
    | (r, s) => (r, { s with v := { s.v with mem := fun j => if j = i then some x else s.v.mem j } })

/-- `<[T]>::swap(i, j)`: bounds checks, then the two objects change places. -/
def stdSwap (i j : Nat) : VM T Unit := fun s =>
  if s.v.len ≤ i ∨ s.v.len ≤ j then (.panic "index out of bounds", s)
  else (.ok (), { s with v := { s.v with mem := fun k => if k = i then s.v.mem j else if k = j then s.v.mem i else s.v.mem k } })

/-- `Vec::resize_with`; the closure is given as the outcome of its `i`-th call (`error` is a panic). -/
def stdResizeWith (e : Env T) (newLen : Nat) (f : Nat → Except String T) : VM T Unit := do
  let s ← VM.get
  if s.v.len < newLen then do
    stdReserve e (newLen - s.v.len)
    fillWith f 0 (newLen - s.v.len)
  else stdCut e newLen

/-- `Drop for Vec`. -/
def dropVec (e : Env T) : VM T Unit := fun s => dropFrom e 0 s.v.len s

/-! ### `vec::IntoIter`, what `TryVec::into_iter` returns -/

/-- `alloc::vec::IntoIter`: the buffer and the range of slots still to be handed out. -/
structure IntoIter (T : Type) where
  buf : RawVec T
  start : Nat
  stop : Nat

/-- `IntoIter::next`: read the first slot of the range. -/
def IntoIter.next (it : IntoIter T) : Exec (Option T × IntoIter T) :=
  if it.start = it.stop then .ok (none, it)
  else
    match it.buf.mem it.start with
    | none => .ub
    | some x => .ok (some x,
        { it with buf := { it.buf with mem := fun j => if j = it.start then none else it.buf.mem j }, start := it.start + 1 })

/-- `IntoIter::next_back`: read the last slot of the range. -/
def IntoIter.nextBack (it : IntoIter T) : Exec (Option T × IntoIter T) :=
  if it.start = it.stop then .ok (none, it)
  else
    match it.buf.mem (it.stop - 1) with
    | none => .ub
    | some x => .ok (some x,
        { it with buf := { it.buf with mem := fun j => if j = it.stop - 1 then none else it.buf.mem j }, stop := it.stop - 1 })

/-- `Drop for IntoIter`: the objects of the range, front to back. -/
def IntoIter.drop (e : Env T) (it : IntoIter T) (w : World T) : Exec Unit × World T :=
  let r := dropFrom e it.start (it.stop - it.start) ⟨it.buf, w⟩
  (r.1, r.2.w)

end Verif.Vec
