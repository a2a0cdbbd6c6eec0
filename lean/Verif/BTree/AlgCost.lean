import Verif.BTree.AlgUnwind
/-
The set operations of src/btree/set.rs with a fixed number of comparisons of elements that may be made in all: each function hands back how many are left, and
`none` if it ran out, i.e. made more than there were.
-/
namespace Verif.BTree
open Verif
open Verif.Spec (AlgKind)

variable {T : Type}

/-- `n` calls of `next`, all of which draw on the same `cmps` comparisons. -/
def AlgView.runP [Ord T] : Nat → AlgView T → Nat → Exec (Option ((List (Option T) × AlgView T) × Nat))
  | 0, v, cmps => .ok (some (([], v), cmps))
  | n + 1, v, cmps => do
    match ← v.nextP cmps with
    | .unwound _ _ => .ok none
    | .done ((x, v), cmps) => do
      match ← AlgView.runP n v cmps with
      | none => .ok none
      | some ((xs, v), cmps) => .ok (some ((x :: xs, v), cmps))

/-- src/btree/set.rs:535-537 `is_disjoint`. -/
def BSet.isDisjointP [Ord T] (s o : BSet T) (cmps : Nat) : Exec (Option (Bool × Nat)) := do
  let i ← s.intersection o
  match ← i.nextP cmps with
  | .unwound _ _ => .ok none
  | .done ((x, _), cmps) => .ok (some (x.isNone, cmps))

/-- The stitching loop of `is_subset`: src/btree/set.rs:570-588. -/
def subsetStitchP [Ord T] : Nat → Option T → Option T → SetIter T → SetIter T → Nat → Exec (Option (Bool × Nat))
  | 0, _, _, _, _, _ => .panic "fuel"
  | fuel + 1, a, b, x, y, cmps =>
    match a with
    | none => .ok (some (true, cmps))
    | some a1 =>
      match b with
      | none => .ok (some (false, cmps))
      | some b1 =>
        match cmps with
        | 0 => .ok none
        | cmps + 1 =>
          match compare b1 a1 with
          | .lt => do
            let n ← y.next
            subsetStitchP fuel a n.1 x n.2 cmps
          | .gt => .ok (some (false, cmps))
          | .eq => do
            let n ← x.next
            let n' ← y.next
            subsetStitchP fuel n.1 n'.1 n.2 n'.2 cmps

/-- The searching loop of `is_subset`: src/btree/set.rs:592-598. -/
def subsetSearchP [Ord T] (o : BSet T) : Nat → SetIter T → Nat → Exec (Option (Bool × Nat))
  | 0, _, _ => .panic "fuel"
  | fuel + 1, i, cmps => do
    let n ← i.next
    match n.1 with
    | none => .ok (some (true, cmps))
    | some x => do
      match ← o.containsP id x cmps with
      | none => .ok none
      | some (true, cmps) => subsetSearchP o fuel n.2 cmps
      | some (false, cmps) => .ok (some (false, cmps))

/-- src/btree/set.rs:557-600 `is_subset`. -/
def BSet.isSubsetP [Ord T] (s o : BSet T) (cmps : Nat) : Exec (Option (Bool × Nat)) := do
  if o.len < s.len then .ok (some (false, cmps))
  else if o.len / TIPPING < s.len then do
    let x ← s.iter
    let y ← o.iter
    let a ← x.next
    let b ← y.next
    subsetStitchP (o.len + 1) a.1 b.1 a.2 b.2 cmps
  else do
    let x ← s.iter
    subsetSearchP o (s.len + 1) x cmps

/-- src/btree/set.rs:620-622 `is_superset`. -/
def BSet.isSupersetP [Ord T] (s o : BSet T) (cmps : Nat) : Exec (Option (Bool × Nat)) := o.isSubsetP s cmps

/-- src/btree/set.rs:646-648 `try_insert`: `none` if a comparison panicked. -/
def BSet.tryInsertP [Ord T] (s : BSet T) (x : T) (a : Alloc) (cmps : Nat) : Exec (Option ((Res Bool × BSet T × Alloc) × Nat)) := do
  match ← s.map.tryInsertP x () a cmps with
  | .unwound _ _ => .ok none
  | .done (r, cmps) =>
    match r.1 with
    | .error e => .ok (some ((.error e, ⟨r.2.1⟩, r.2.2), cmps))
    | .ok old => .ok (some ((.ok old.isNone, ⟨r.2.1⟩, r.2.2), cmps))

/-- `.cloned().collect()` of a set-algebra iterator into a set (src/btree/set.rs:874-878, 917-921): every item is cloned and inserted as it comes. -/
def AlgView.collectP [Ord T] (fk : T → T) : Nat → AlgView T → BSet T → Alloc → Nat → Exec (Option ((BSet T × Alloc) × Nat))
  | 0, _, _, _, _ => .panic "fuel"
  | fuel + 1, v, set, a, cmps => do
    match ← v.nextP cmps with
    | .unwound _ _ => .ok none
    | .done ((none, _), cmps) => .ok (some ((set, a), cmps))
    | .done ((some x, v), cmps) => do
      match ← set.tryInsertP (fk x) a cmps with
      | none => .ok none
      | some ((.error _, _, _), _) => .panic "Out of Mem"
      | some ((.ok _, set, a), cmps) => AlgView.collectP fk fuel v set a cmps

/-- src/btree/set.rs:956-958 `-`, 978-980 `^`, 1000-1002 `&`, 1022-1024 `|`. -/
def BSet.opP [Ord T] (s o : BSet T) (k : AlgKind) (fk : T → T) (a : Alloc) (cmps : Nat) : Exec (Option ((BSet T × Alloc) × Nat)) := do
  let v ← s.algView o k
  v.collectP fk (s.len + o.len + 1) BSet.new a cmps

/-- The same without counting: see `BSet.sub`, `BSet.bitxor`, `BSet.bitand`, `BSet.bitor`. -/
def BSet.op [Ord T] (s o : BSet T) (k : AlgKind) (fk : T → T) (a : Alloc) : Exec (BSet T × Alloc) :=
  match k with
  | .difference => s.sub o fk a
  | .symmetricDifference => s.bitxor o fk a
  | .intersection => s.bitand o fk a
  | .union => s.bitor o fk a

end Verif.BTree
