import Verif.Vec.Fallible
/-
Model of src/format.rs.  What the `Display` implementations behind `format_args!` do is arbitrary: they write pieces of text,
return an error, or panic.
-/
namespace Verif.Misc
open Verif Verif.Vec

/-- One step of a formatting run: `write_str` of a piece of text (as UTF-8 bytes), an error returned, or a panic.
Model of: what `write_fmt(args)` does, src/format.rs:17. -/
inductive Piece where
  | text (bs : List UInt8)
  | fail
  | panics (msg : String)
deriving Repr, DecidableEq

/-- `String::write_fmt`: every piece is pushed with `String::push_str`, i.e. with the infallible `Vec::extend_from_slice`;
the first error ends it (`false`).  src/format.rs:17. -/
def writeFmt (e : Env UInt8) : List Piece → VM UInt8 Bool
  | [] => pure true
  | .text bs :: ps => do
    stdExtendFromSlice e bs
    writeFmt e ps
  | .fail :: _ => pure false
  | .panics m :: _ => VM.panic m

/-- src/format.rs:15-21 `try_format` (and the macro `tryformat!` 31-35).  `from_utf8` of an empty vector succeeds. -/
def tryFormat (e : Env UInt8) (maxCapacity : Nat) (args : List Piece) (w : World UInt8) : Exec (Res (RawVec UInt8)) × World UInt8 :=
  match tryWithCapacity e maxCapacity w with
  | (.ok (.ok v), w) =>
    building e v (do
      let ok ← writeFmt e args
      if ok then pure (.ok ()) else VM.panic "a formatting trait implementation returned an error") w
  | (r, w) => (r, w)

end Verif.Misc
