import Verif.Vec.Fallible
/-
The specification vocabulary of the vector theorems: which list a vector holds, and what happens when one calls something
(a clone, a closure) for each element, left to right, until it fails.  Readable without the model.
-/
namespace Verif.Vec
open Verif

/-- Capacities a vector can have: within the machine, and `usize::MAX` for zero-sized elements. -/
structure Env.CapOK {T : Type} (e : Env T) (c : Nat) : Prop where
  word : c ≤ e.usizeMax
  bytes : c * e.size ≤ e.isizeMax
  zst : e.size = 0 → c = e.usizeMax

/-- A vector that holds exactly the list `l`: its length and capacity fit, the slots below `len` hold the elements in order,
and all other slots are uninitialised (so nothing is leaked there). -/
structure Holds {T : Type} (e : Env T) (v : RawVec T) (l : List T) : Prop where
  len : v.len = l.length
  mem : ∀ i, v.mem i = l[i]?
  fits : l.length ≤ v.cap
  cap : e.CapOK v.cap

/-- The world after one more destructor ran. -/
def World.drop1 {T : Type} (w : World T) (x : T) : World T := { w with dropped := w.dropped ++ [x] }
/-- The world after the destructors of a list ran, in order. -/
def World.dropMany {T : Type} (w : World T) (l : List T) : World T := { w with dropped := w.dropped ++ l }

/-- How a sequence of calls ended. -/
inductive Stop where
  | done
  | failed (e : TryReserveError)
  | panicked (m : String)
deriving Repr, DecidableEq

/-- Clone the elements left to right until a clone fails or panics: the clones made, how it ended, the allocator left. -/
def cloneAll {T : Type} (cl : Cloner T) : List T → Alloc → List T × Stop × Alloc
  | [], a => ([], .done, a)
  | x :: xs, a =>
    match cl x a with
    | (.error m, a) => ([], .panicked m, a)
    | (.ok (.error e), a) => ([], .failed e, a)
    | (.ok (.ok c), a) => (c :: (cloneAll cl xs a).1, (cloneAll cl xs a).2)

/-- The elements on which `cloneAll` called the cloner: those cloned, and the one that failed. -/
def asked {T : Type} (xs : List T) (made : List T) : Stop → List T
  | .done => xs
  | _ => xs.take (made.length + 1)

/-- Call a closure `n` times, its calls numbered from `i`: the results, and the panic that ended it, if any. -/
def callAll {T : Type} (f : Nat → Except String T) : Nat → Nat → List T × Stop
  | _, 0 => ([], .done)
  | i, n + 1 =>
    match f i with
    | .error m => ([], .panicked m)
    | .ok x => (x :: (callAll f (i + 1) n).1, (callAll f (i + 1) n).2)

/-- How a function ends whose calls ended in a certain way. -/
def Stop.out : Stop → Exec (Res Unit)
  | .done => .ok (.ok ())
  | .failed e => .ok (.error e)
  | .panicked m => .panic m

/-- How a function ends that, after its calls failed, runs a destructor: if that panics, its panic replaces the error. -/
def Stop.outAfter (dropPanics : Bool) : Stop → Exec (Res Unit)
  | .done => .ok (.ok ())
  | .failed e => if dropPanics then .panic "destructor panicked" else .ok (.error e)
  | .panicked m => .panic m

/-- A cloner that, when it succeeds, gives back an equal value. -/
def Faithful {T : Type} (cl : Cloner T) : Prop := ∀ x a c a', cl x a = (.ok (.ok c), a') → c = x

end Verif.Vec
