import Verif.Vec.Fallible
/-
Model of the `std_io` part of src/vec.rs (214-277).  `Read`, `Take` and `Read::read_to_end` are std's; they are modelled after
the std source and belong to the trusted base.
-/
namespace Verif.Misc
open Verif Verif.Vec

/-- What one call of `Read::read` gives. -/
inductive ReadResult where
  | data (bs : List UInt8)
  | interrupted
  | fail (msg : String)

/-- A source: what its successive `read` calls will return, as functions of the buffer size they are given; after the last one
it reports end of file.  Logged: the bytes it has handed out, and whether it has reported end of file (0 bytes for a non-empty buffer). -/
structure Src where
  script : List (Nat → ReadResult)
  pulled : List UInt8
  eof : Bool

/-- The contract of `Read::read`: at most as many bytes as the buffer has. -/
def Src.OK (s : Src) : Prop := ∀ ev ∈ s.script, ∀ m bs, ev m = .data bs → bs.length ≤ m

/-- The errors of `std::io` that can come out. -/
inductive IoError where
  | limitTooLarge
  | reserveFailed
  | extendFailed
  | outOfMemory
  | source (msg : String)
deriving Repr, DecidableEq

/-- A stack of `Take` adaptors (outermost first) around a source: their remaining limits. -/
structure Take where
  limits : List Nat
  src : Src

/-- `read(buf)` on the stack, `buf` of size `m`, retried while interrupted: an adaptor with nothing left answers 0 bytes
without asking further; otherwise it offers at most what is left, and counts what it gets.  Model of: `Take::read`, and the
retry loops of `read_to_end`. -/
def Take.readRetry (limits : List Nat) (m : Nat) (pulled : List UInt8) (eof : Bool) :
    List (Nat → ReadResult) → Except IoError (List UInt8) × Take
  | [] =>
    if limits.any (· == 0) then (.ok [], ⟨limits, ⟨[], pulled, eof⟩⟩)
    else (.ok [], ⟨limits, ⟨[], pulled, true⟩⟩)
  | ev :: script =>
    if limits.any (· == 0) then (.ok [], ⟨limits, ⟨ev :: script, pulled, eof⟩⟩)
    else
      match ev (limits.foldr min m) with
      | .data bs => (.ok bs, ⟨limits.map (· - bs.length), ⟨script, pulled ++ bs, eof || (bs.isEmpty && limits.foldr min m != 0)⟩⟩)
      | .interrupted => Take.readRetry limits m pulled eof script
      | .fail msg => (.error (.source msg), ⟨limits, ⟨script, pulled, eof⟩⟩)

/-- The source being read and the buffer being filled. -/
structure RSt where
  take : Take
  s : St UInt8

/-- Code that reads. -/
abbrev RM (α : Type) := RSt → Exec α × RSt

/-- Statement sequencing. -/
def RM.bind {α β : Type} (x : RM α) (f : α → RM β) : RM β := fun s =>
  match x s with
  | (.ok a, s) => f a s
  | (.ub, s) => (.ub, s)
  | (.panic m, s) => (.panic m, s)

instance : Monad RM where
  pure a := fun s => (.ok a, s)
  bind := RM.bind

/-- Work on the buffer. -/
def RM.vec {α : Type} (x : VM UInt8 α) : RM α := fun s => ((x s.s).1, { s with s := (x s.s).2 })

/-- Read from the source. -/
def RM.read (m : Nat) : RM (Except IoError (List UInt8)) := fun s =>
  let r := Take.readRetry s.take.limits m s.take.src.pulled s.take.src.eof s.take.src.script
  (.ok r.1, { s with take := r.2 })

/-- Look at the state. -/
def RM.get : RM RSt := fun s => (.ok s, s)

/-- `small_probe_read` of std: read at most 32 bytes into a local buffer, then `Vec::extend_from_slice` (infallible). -/
def probe (e : Env UInt8) : RM (Except IoError Nat) := do
  match ← RM.read 32 with
  | .error er => pure (.error er)
  | .ok bs => do
    RM.vec (stdExtendFromSlice e bs)
    pure (.ok bs.length)

/-- Reading into the spare capacity, at most `chunk` bytes at a time, then `set_len`. -/
def readInto (chunk : Nat) : RM (Except IoError Nat) := do
  let s ← RM.get
  match ← RM.read (min (s.s.v.cap - s.s.v.len) chunk) with
  | .error er => pure (.error er)
  | .ok bs => do
    RM.vec (writeAll bs)
    pure (.ok bs.length)

/-- The loop of std's `default_read_to_end`.  `chunk i` is the (adaptive) limit per read of round `i`; the fuel is for
termination only (`C43` shows that it never runs out). -/
def readLoop (e : Env UInt8) (chunk : Nat → Nat) (startLen startCap : Nat) : Nat → RM (Except IoError Nat)
  | 0 => fun s => (.panic "out of fuel", s)
  | fuel + 1 => do
    let s ← RM.get
    let r ← (if s.s.v.len = s.s.v.cap ∧ s.s.v.cap = startCap then probe e else pure (.ok 1))
    match r with
    | .error er => pure (.error er)
    | .ok 0 => pure (.ok ((← RM.get).s.v.len - startLen))
    | .ok (_ + 1) => do
      let s ← RM.get
      let r ← (if s.s.v.len = s.s.v.cap then RM.vec (stdTryReserve e 32) else pure (.ok ()))
      match r with
      | .error _ => pure (.error .outOfMemory)
      | .ok () =>
        match ← readInto (chunk fuel) with
        | .error er => pure (.error er)
        | .ok 0 => pure (.ok ((← RM.get).s.v.len - startLen))
        | .ok (_ + 1) => readLoop e chunk startLen startCap fuel

/-- std's `default_read_to_end` without a size hint: first a probe if there is little room. -/
def readToEnd (e : Env UInt8) (chunk : Nat → Nat) : RM (Except IoError Nat) := do
  let s ← RM.get
  let r ← (if s.s.v.cap - s.s.v.len < 32 then probe e else pure (.ok 1))
  match r with
  | .error er => pure (.error er)
  | .ok 0 => pure (.ok 0)
  | .ok (_ + 1) => readLoop e chunk s.s.v.len s.s.v.cap (s.take.src.script.length + 1)

/-- src/vec.rs:252-264 `try_read_up_to` on the source `t` (which may itself be wrapped in `Take`s). -/
def tryReadUpTo (e : Env UInt8) (chunk : Nat → Nat) (limit : Nat) : RM (Except IoError Nat) := do
  if e.usizeMax < limit then pure (.error .limitTooLarge)
  else
    match ← RM.vec (tryReserve e limit) with
    | .error _ => pure (.error .reserveFailed)
    | .ok () => fun s =>
      -- `src.take(limit)`, dropped at the end
      let r := readToEnd e chunk { s with take := { s.take with limits := limit :: s.take.limits } }
      (r.1, { r.2 with take := { r.2.take with limits := r.2.take.limits.tail } })

/-- src/vec.rs:244-246 `TryRead::try_read_to_end` for `Take`: with the limit of the outermost `Take`. -/
def tryReadToEnd (e : Env UInt8) (chunk : Nat → Nat) : RM (Except IoError Nat) := fun s =>
  match s.take.limits with
  | [] => (.ub, s)  -- not a `Take`: does not type check
  | limit :: _ => tryReadUpTo e chunk limit s

/-- `try_clone` of `u8`.  src/try_clone.rs:10-20. -/
def cloneU8 : Cloner UInt8 := fun x a => (.ok (.ok x), a)

/-- src/vec.rs:267-271 `Write::write` for `TryVec<u8>`. -/
def write (e : Env UInt8) (bs : List UInt8) : VM UInt8 (Except IoError Nat) := do
  match ← tryExtendFromSliceNoCopy e cloneU8 bs with
  | .error _ => pure (.error .extendFailed)
  | .ok () => pure (.ok bs.length)

/-- src/vec.rs:223-227 `read_into_try_vec` on a `Take`. -/
def readIntoTryVec (e : Env UInt8) (chunk : Nat → Nat) (t : Take) (w : World UInt8) : Exec (Except IoError (RawVec UInt8)) × Take × World UInt8 :=
  match tryReadToEnd e chunk ⟨t, ⟨RawVec.new e, w⟩⟩ with
  | (.ok (.ok _), s) => (.ok (.ok s.s.v), s.take, s.s.w)
  | (.ok (.error er), s) => (.ok (.error er), s.take, (dropVec e s.s).2.w)
  | (.ub, s) => (.ub, s.take, s.s.w)
  | (.panic m, s) => (.panic m, s.take, (dropVec e s.s).2.w)

end Verif.Misc
