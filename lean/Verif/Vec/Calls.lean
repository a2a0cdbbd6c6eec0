import Verif.Vec.Spec
/-
Every `&mut self` method of `FallibleVec` as data, so that statements can range over all of them and over histories of calls.
-/
namespace Verif.Vec
open Verif

/-- A call of a `FallibleVec` (or `TryVec`) method with its arguments.  src/vec.rs:442-554 (`try_with_capacity` builds a new
vector and is not in the list); `pop` and `clear` of `TryVec` 146-148, 117-119; assignment and exchange of elements
through the mutable slices and references of `as_mut_slice` 107-109, `DerefMut` 391-395, `iter_mut` 132-136. -/
inductive Call (T : Type) where
  | reserve (n : Nat)
  | push (x : T)
  | pushGiveBack (x : T)
  | insert (i : Nat) (x : T)
  | append (other : RawVec T)
  | resize (n : Nat) (x : T)
  | resizeWith (n : Nat) (f : Nat → Except String T)
  | resizeNoCopy (cl : Cloner T) (n : Nat) (x : T)
  | extendFromSlice (xs : List T)
  | extendFromSliceNoCopy (cl : Cloner T) (xs : List T)
  | pop
  | clear
  | assign (i : Nat) (x : T)
  | swap (i j : Nat)

variable {T : Type}

/-- Run a call; the result is the list of objects the caller gets back (in an error value, or left in `other`). -/
def Call.run (e : Env T) : Call T → VM T (List T)
  | .reserve n => do let _ ← tryReserve e n; pure []
  | .push x => do let _ ← tryPush e x; pure []
  | .pushGiveBack x => do
    match ← tryPushGiveBack e x with
    | .ok () => pure []
    | .error (y, _) => pure [y]
  | .insert i x => do
    match ← tryInsert e i x with
    | .ok () => pure []
    | .error (y, _) => pure [y]
  | .append other => do
    let (_, other) ← tryAppend e other
    pure other.items
  | .resize n x => do let _ ← tryResize e n x; pure []
  | .resizeWith n f => do let _ ← tryResizeWith e n f; pure []
  | .resizeNoCopy cl n x => do let _ ← tryResizeNoCopy e cl n x; pure []
  | .extendFromSlice xs => do let _ ← tryExtendFromSlice e xs; pure []
  | .extendFromSliceNoCopy cl xs => do let _ ← tryExtendFromSliceNoCopy e cl xs; pure []
  | .pop => do
    match ← stdPop with
    | some x => pure [x]
    | none => pure []
  | .clear => do stdCut e 0; pure []
  | .assign i x => do stdAssign e i x; pure []
  | .swap i j => do stdSwap i j; pure []

/-- The objects the caller hands over. -/
def Call.given : Call T → List T
  | .push x | .pushGiveBack x | .insert _ x | .resizeNoCopy _ _ x | .assign _ x => [x]
  | .append other => other.items
  | _ => []

/-- The argument of `try_append` must be a vector. -/
def Call.OK (e : Env T) : Call T → Prop
  | .append other => ∃ l, Holds e other l
  | _ => True

/-- The methods for element types with destructors (the two others require `T: Copy`, whose copies nobody owns). -/
def Call.Owning : Call T → Prop
  | .resize .. | .extendFromSlice .. => False
  | _ => True

/-- What the caller gets back; nothing when the call panicked. -/
def back : Exec (List T) → List T
  | .ok xs => xs
  | _ => []

/-- Run calls one after the other, also after one of them panicked (the caller catches it); collect what came back. -/
def runCalls (e : Env T) : List (Call T) → St T → List T × St T
  | [], s => ([], s)
  | c :: cs, s =>
    let r := c.run e s
    let rs := runCalls e cs r.2
    (back r.1 ++ rs.1, rs.2)

end Verif.Vec
