import Verif.BTree.Iter
/-
Model of src/btree/set.rs: `BTreeSet` as a `BTreeMap` with values `()`, its iterators, the set algebra and predicates.
An iterator that borrows a set carries that set.  The loops inside `next`, `is_subset` and `collect` get a fuel argument that is
at least the number of iterations the source can make (the theorems show that it is never used up: no result is
`"fuel"`).
-/
namespace Verif.BTree
open Verif Verif.Spec

variable {T Q : Type}

/-- src/btree/set.rs:62-64 `BTreeSet`. -/
structure BSet (T : Type) where
  map : Map T Unit

/-- src/btree/set.rs:257-261 `new`, 934-936 `default`. -/
def BSet.new : BSet T := ⟨Map.new⟩
/-- src/btree/set.rs:462-464 `clear`. -/
def BSet.clear (s : BSet T) : BSet T := ⟨s.map.clear⟩
/-- src/btree/set.rs:849-851 `len`. -/
def BSet.len (s : BSet T) : Nat := s.map.len
/-- src/btree/set.rs:867-869 `is_empty`. -/
def BSet.isEmpty (s : BSet T) : Bool := s.len == 0

/-! ### elements -/

/-- src/btree/set.rs:483-489 `contains`. -/
def BSet.contains [Ord Q] (s : BSet T) (bor : T → Q) (q : Q) : Exec Bool := s.map.containsKey bor q

/-- src/btree/set.rs:508-514 `get`; `Recover::get` src/btree/map.rs:306-311. -/
def BSet.get [Ord Q] (s : BSet T) (bor : T → Q) (q : Q) : Exec (Option T) := do
  match ← s.map.search bor q with
  | .found hd => do
    let kv ← s.map.kvAt hd
    .ok (some kv.1)
  | .goDown _ => .ok none

/-- src/btree/set.rs:646-648 `try_insert`. -/
def BSet.tryInsert [Ord T] (s : BSet T) (x : T) (a : Alloc) : Exec (Res Bool × BSet T × Alloc) := do
  let r ← s.map.tryInsert x () a
  match r.1 with
  | .error e => .ok (.error e, ⟨r.2.1⟩, r.2.2)
  | .ok old => .ok (.ok old.isNone, ⟨r.2.1⟩, r.2.2)

/-- src/btree/set.rs:667-669 `replace`. -/
def BSet.replace [Ord T] (s : BSet T) (x : T) (a : Alloc) : Exec (Res (Option T) × BSet T × Alloc) := do
  let r ← s.map.replaceKey x () a
  .ok (r.1, ⟨r.2.1⟩, r.2.2)

/-- src/btree/set.rs:691-697 `remove`. -/
def BSet.remove [Ord Q] (s : BSet T) (bor : T → Q) (q : Q) : Exec (Bool × BSet T) := do
  let r ← s.map.remove bor q
  .ok (r.1.isSome, ⟨r.2⟩)

/-- src/btree/set.rs:716-722 `take`; `Recover::take` src/btree/map.rs:313-326. -/
def BSet.take [Ord Q] (s : BSet T) (bor : T → Q) (q : Q) : Exec (Option T × BSet T) := do
  match ← s.map.search bor q with
  | .found hd => do
    let r ← s.map.removeKv hd
    .ok (some r.1.1, ⟨r.2⟩)
  | .goDown _ => .ok (none, s)

/-- src/btree/set.rs:754-756 `append`. -/
def BSet.append [Ord T] (s o : BSet T) (a : Alloc) : Exec (BSet T × BSet T × Alloc) := do
  let r ← s.map.append o.map a
  .ok (⟨r.1⟩, ⟨r.2.1⟩, r.2.2)

/-- src/btree/set.rs:789-796 `try_split_off`. -/
def BSet.trySplitOff [Ord Q] (s : BSet T) (bor : T → Q) (q : Q) (a : Alloc) : Exec (Res (BSet T) × BSet T × Alloc) := do
  let r ← s.map.splitOff bor q a
  match r.1 with
  | .error e => .ok (.error e, ⟨r.2.1⟩, r.2.2)
  | .ok right => .ok (.ok ⟨right⟩, ⟨r.2.1⟩, r.2.2)

/-- src/btree/set.rs:917-921 `extend` (and 926-928). -/
def BSet.extend [Ord T] (s : BSet T) : List T → Alloc → Exec (BSet T × Alloc)
  | [], a => .ok (s, a)
  | x :: xs, a => do
    let r ← s.tryInsert x a
    match r.1 with
    | .error _ => .panic "Out of Mem"
    | .ok _ => BSet.extend r.2.1 xs r.2.2

/-- src/btree/set.rs:874-878 `from_iter`. -/
def BSet.fromIter [Ord T] (l : List T) (a : Alloc) : Exec (BSet T × Alloc) := (BSet.new : BSet T).extend l a

/-- src/btree/set.rs:60 derived `Clone`. -/
def BSet.clone (s : BSet T) (fk : T → T) (a : Alloc) : Exec (BSet T × Alloc) := do
  let r ← s.map.clone fk id a
  .ok (⟨r.1⟩, r.2)

/-! ### iterating over one set -/

/-- src/btree/set.rs:74-76 `Iter`, with the set it borrows. -/
structure SetIter (T : Type) where
  set : BSet T
  it : Iter

/-- src/btree/set.rs:829-833 `iter`, 910-912. -/
def BSet.iter (s : BSet T) : Exec (SetIter T) := do
  let it ← s.map.iter
  .ok ⟨s, it⟩

/-- `next` (src/btree/set.rs:1046-1048) or `next_back` (1058-1060): the keys of the map. -/
def SetIter.step (i : SetIter T) (e : End) : Exec (Option T × SetIter T) := do
  let r ← i.it.stepMap (·.1) i.set.map e
  .ok (r.1, { i with it := r.2 })

/-- src/btree/set.rs:1046-1048 `next`. -/
def SetIter.next (i : SetIter T) : Exec (Option T × SetIter T) := i.step .front

/-- src/btree/set.rs:1051-1053 `size_hint`, 1065-1067 `len`. -/
def SetIter.len (i : SetIter T) : Nat := i.it.length

/-- Iterate over the whole set with `iter()` until `None`. -/
def BSet.items (s : BSet T) : Exec (List T) := do
  let l ← s.map.toListE
  .ok (l.map (·.1))

/-- `core::iter::Peekable` over `Iter`. -/
structure Peekable (T : Type) where
  iter : SetIter T
  peeked : Option (Option T)

/-- `Iterator::peekable` (core). -/
def SetIter.peekable (i : SetIter T) : Peekable T := ⟨i, none⟩

/-- `Peekable::next` (core): `match self.peeked.take() { Some(v) => v, None => self.iter.next() }`. -/
def Peekable.next (p : Peekable T) : Exec (Option T × Peekable T) :=
  match p.peeked with
  | some v => .ok (v, { p with peeked := none })
  | none => do
    let r ← p.iter.next
    .ok (r.1, { p with iter := r.2 })

/-- `Peekable::peek` (core): `self.peeked.get_or_insert_with(|| iter.next()).as_ref()`. -/
def Peekable.peek (p : Peekable T) : Exec (Option T × Peekable T) :=
  match p.peeked with
  | some v => .ok (v, p)
  | none => do
    let r ← p.iter.next
    .ok (r.1, ⟨r.2, some r.1⟩)

/-- `ExactSizeIterator::len` of `Peekable` (core): the underlying length plus one if an item was peeked; `0` once the end was
peeked. -/
def Peekable.len (p : Peekable T) : Nat :=
  match p.peeked with
  | some none => 0
  | some (some _) => p.iter.len + 1
  | none => p.iter.len

/-! ### difference -/

/-- src/btree/set.rs:242. -/
def TIPPING : Nat := 16

/-- src/btree/set.rs:118-130 `Difference`. -/
inductive Difference (T : Type) where
  | stitch (self : SetIter T) (other : Peekable T)
  | search (self : SetIter T) (other : BSet T)

/-- src/btree/set.rs:319-340 `difference`. -/
def BSet.difference (s o : BSet T) : Exec (Difference T) := do
  if o.len / TIPPING < s.len then do
    let i ← s.iter
    let j ← o.iter
    .ok (.stitch i j.peekable)
  else do
    let i ← s.iter
    .ok (.search i o)

/-- The loop of `next` when stitching: src/btree/set.rs:1171-1185; `x` is `self_next`. -/
def differenceStitch [Ord T] : Nat → T → SetIter T → Peekable T → Exec (Option T × Difference T)
  | 0, _, _, _ => .panic "fuel"
  | fuel + 1, x, i, j => do
    let p ← j.peek
    match p.1.elim .lt (fun y => compare x y) with
    | .lt => .ok (some x, .stitch i p.2)
    | .eq => do
      let n ← i.next
      match n.1 with
      | none => .ok (none, .stitch n.2 p.2)
      | some x' => do
        let j' ← p.2.next
        differenceStitch fuel x' n.2 j'.2
    | .gt => do
      let j' ← p.2.next
      differenceStitch fuel x i j'.2

/-- The loop of `next` when searching: src/btree/set.rs:1190-1195. -/
def differenceSearch [Ord T] (o : BSet T) : Nat → SetIter T → Exec (Option T × Difference T)
  | 0, _ => .panic "fuel"
  | fuel + 1, i => do
    let n ← i.next
    match n.1 with
    | none => .ok (none, .search n.2 o)
    | some x => do
      let c ← o.contains id x
      if c then differenceSearch o fuel n.2 else .ok (some x, .search n.2 o)

/-- src/btree/set.rs:1164-1197 `Difference::next`. -/
def Difference.next [Ord T] : Difference T → Exec (Option T × Difference T)
  | .stitch i j => do
    let n ← i.next
    match n.1 with
    | none => .ok (none, .stitch n.2 j)
    | some x => differenceStitch (j.len + 1) x n.2 j
  | .search i o => differenceSearch o (i.len + 1) i

/-- src/btree/set.rs:1199-1211 `Difference::size_hint`. -/
def Difference.sizeHint : Difference T → Nat × Option Nat
  | .stitch i j => (i.len - j.len, some i.len)
  | .search i o => (i.len - o.len, some i.len)

/-! ### symmetric difference and union -/

/-- src/btree/set.rs:159-162 `SymmetricDifference`, 222-225 `Union`. -/
structure TwoIters (T : Type) where
  a : Peekable T
  b : Peekable T

/-- src/btree/set.rs:363-371 `symmetric_difference`, 441-446 `union`. -/
def BSet.twoIters (s o : BSet T) : Exec (TwoIters T) := do
  let i ← s.iter
  let j ← o.iter
  .ok ⟨i.peekable, j.peekable⟩

/-- src/btree/set.rs:1130-1136 `cmp_opt`. -/
def cmpOpt [Ord T] (x y : Option T) (short long : Ordering) : Ordering :=
  match x, y with
  | none, _ => short
  | some _, none => long
  | some x, some y => compare x y

/-- The loop of `SymmetricDifference::next`: src/btree/set.rs:1228-1239. -/
def symDiffLoop [Ord T] : Nat → TwoIters T → Exec (Option T × TwoIters T)
  | 0, _ => .panic "fuel"
  | fuel + 1, t => do
    let p ← t.a.peek
    let q ← t.b.peek
    match cmpOpt p.1 q.1 .gt .lt with
    | .lt => do
      let n ← p.2.next
      .ok (n.1, ⟨n.2, q.2⟩)
    | .eq => do
      let n ← p.2.next
      let n' ← q.2.next
      symDiffLoop fuel ⟨n.2, n'.2⟩
    | .gt => do
      let n ← q.2.next
      .ok (n.1, ⟨p.2, n.2⟩)

/-- src/btree/set.rs:1228-1239 `SymmetricDifference::next`. -/
def TwoIters.symDiffNext [Ord T] (t : TwoIters T) : Exec (Option T × TwoIters T) := symDiffLoop (t.a.len + t.b.len + 1) t

/-- src/btree/set.rs:1242-1244 `SymmetricDifference::size_hint`. -/
def TwoIters.symDiffHint (t : TwoIters T) : Nat × Option Nat := (0, some (t.a.len + t.b.len))

/-- src/btree/set.rs:1328-1337 `Union::next`. -/
def TwoIters.unionNext [Ord T] (t : TwoIters T) : Exec (Option T × TwoIters T) := do
  let p ← t.a.peek
  let q ← t.b.peek
  match cmpOpt p.1 q.1 .gt .lt with
  | .lt => do
    let n ← p.2.next
    .ok (n.1, ⟨n.2, q.2⟩)
  | .eq => do
    let n' ← q.2.next
    let n ← p.2.next
    .ok (n.1, ⟨n.2, n'.2⟩)
  | .gt => do
    let n ← q.2.next
    .ok (n.1, ⟨p.2, n.2⟩)

/-- src/btree/set.rs:1339-1343 `Union::size_hint`. -/
def TwoIters.unionHint (t : TwoIters T) : Nat × Option Nat := (max t.a.len t.b.len, some (t.a.len + t.b.len))

/-! ### intersection -/

/-- src/btree/set.rs:181-193 `Intersection`. -/
inductive Intersection (T : Type) where
  | stitch (small : SetIter T) (other : SetIter T)
  | search (small : SetIter T) (large : BSet T)

/-- src/btree/set.rs:394-419 `intersection`. -/
def BSet.intersection (s o : BSet T) : Exec (Intersection T) := do
  let (small, other) := if s.len ≤ o.len then (s, o) else (o, s)
  if other.len / TIPPING < small.len then do
    let i ← small.iter
    let j ← other.iter
    .ok (.stitch i j)
  else do
    let i ← small.iter
    .ok (.search i other)

/-- The loop of `next` when stitching: src/btree/set.rs:1283-1289. -/
def intersectionStitch [Ord T] : Nat → T → T → SetIter T → SetIter T → Exec (Option T × Intersection T)
  | 0, _, _, _, _ => .panic "fuel"
  | fuel + 1, x, y, i, j =>
    match compare x y with
    | .lt => do
      let n ← i.next
      match n.1 with
      | none => .ok (none, .stitch n.2 j)
      | some x' => intersectionStitch fuel x' y n.2 j
    | .gt => do
      let n ← j.next
      match n.1 with
      | none => .ok (none, .stitch i n.2)
      | some y' => intersectionStitch fuel x y' i n.2
    | .eq => .ok (some x, .stitch i j)

/-- The loop of `next` when searching: src/btree/set.rs:1294-1299. -/
def intersectionSearch [Ord T] (o : BSet T) : Nat → SetIter T → Exec (Option T × Intersection T)
  | 0, _ => .panic "fuel"
  | fuel + 1, i => do
    let n ← i.next
    match n.1 with
    | none => .ok (none, .search n.2 o)
    | some x => do
      let c ← o.contains id x
      if c then .ok (some x, .search n.2 o) else intersectionSearch o fuel n.2

/-- src/btree/set.rs:1275-1301 `Intersection::next`. -/
def Intersection.next [Ord T] : Intersection T → Exec (Option T × Intersection T)
  | .stitch i j => do
    let n ← i.next
    match n.1 with
    | none => .ok (none, .stitch n.2 j)
    | some x => do
      let n' ← j.next
      match n'.1 with
      | none => .ok (none, .stitch n.2 n'.2)
      | some y => intersectionStitch (n.2.len + n'.2.len + 1) x y n.2 n'.2
  | .search i o => intersectionSearch o (i.len + 1) i

/-- src/btree/set.rs:1304-1310 `Intersection::size_hint`. -/
def Intersection.sizeHint : Intersection T → Nat × Option Nat
  | .stitch i _ => (0, some i.len)
  | .search i _ => (0, some i.len)

/-! ### predicates -/

/-- src/btree/set.rs:535-537 `is_disjoint`. -/
def BSet.isDisjoint [Ord T] (s o : BSet T) : Exec Bool := do
  let i ← s.intersection o
  let r ← i.next
  .ok r.1.isNone

/-- The stitching loop of `is_subset`: src/btree/set.rs:570-588. -/
def subsetStitch [Ord T] : Nat → Option T → Option T → SetIter T → SetIter T → Exec Bool
  | 0, _, _, _, _ => .panic "fuel"
  | fuel + 1, a, b, x, y =>
    match a with
    | none => .ok true
    | some a1 =>
      match b with
      | none => .ok false
      | some b1 =>
        match compare b1 a1 with
        | .lt => do
          let n ← y.next
          subsetStitch fuel a n.1 x n.2
        | .gt => .ok false
        | .eq => do
          let n ← x.next
          let n' ← y.next
          subsetStitch fuel n.1 n'.1 n.2 n'.2

/-- The searching loop of `is_subset`: src/btree/set.rs:592-598. -/
def subsetSearch [Ord T] (o : BSet T) : Nat → SetIter T → Exec Bool
  | 0, _ => .panic "fuel"
  | fuel + 1, i => do
    let n ← i.next
    match n.1 with
    | none => .ok true
    | some x => do
      let c ← o.contains id x
      if c then subsetSearch o fuel n.2 else .ok false

/-- src/btree/set.rs:557-600 `is_subset`. -/
def BSet.isSubset [Ord T] (s o : BSet T) : Exec Bool := do
  if o.len < s.len then .ok false
  else if o.len / TIPPING < s.len then do
    let x ← s.iter
    let y ← o.iter
    let a ← x.next
    let b ← y.next
    subsetStitch (o.len + 1) a.1 b.1 a.2 b.2
  else do
    let x ← s.iter
    subsetSearch o (s.len + 1) x

/-- src/btree/set.rs:620-622 `is_superset`. -/
def BSet.isSuperset [Ord T] (s o : BSet T) : Exec Bool := o.isSubset s

/-! ### running an iterator -/

/-- `n` calls of `next`. -/
def runN {S : Type} (next : S → Exec (Option T × S)) : Nat → S → Exec (List (Option T) × S)
  | 0, s => .ok ([], s)
  | n + 1, s => do
    let r ← next s
    let rest ← runN next n r.2
    .ok (r.1 :: rest.1, rest.2)

/-- `.cloned().collect()` into a set, i.e. `from_iter` (src/btree/set.rs:874-878, 917-921) pulling from an
iterator: every item is cloned and inserted as it comes. -/
def collectSet [Ord T] {S : Type} (next : S → Exec (Option T × S)) (fk : T → T) : Nat → S → BSet T → Alloc → Exec (BSet T × Alloc)
  | 0, _, _, _ => .panic "fuel"
  | fuel + 1, s, set, a => do
    let r ← next s
    match r.1 with
    | none => .ok (set, a)
    | some x => do
      let p ← set.tryInsert (fk x) a
      match p.1 with
      | .error _ => .panic "Out of Mem"
      | .ok _ => collectSet next fk fuel r.2 p.2.1 p.2.2

/-- src/btree/set.rs:956-958 `-`. -/
def BSet.sub [Ord T] (s o : BSet T) (fk : T → T) (a : Alloc) : Exec (BSet T × Alloc) := do
  let d ← s.difference o
  collectSet Difference.next fk (s.len + 1) d BSet.new a

/-- src/btree/set.rs:978-980 `^`. -/
def BSet.bitxor [Ord T] (s o : BSet T) (fk : T → T) (a : Alloc) : Exec (BSet T × Alloc) := do
  let d ← s.twoIters o
  collectSet TwoIters.symDiffNext fk (s.len + o.len + 1) d BSet.new a

/-- src/btree/set.rs:1000-1002 `&`. -/
def BSet.bitand [Ord T] (s o : BSet T) (fk : T → T) (a : Alloc) : Exec (BSet T × Alloc) := do
  let d ← s.intersection o
  collectSet Intersection.next fk (s.len + 1) d BSet.new a

/-- src/btree/set.rs:1022-1024 `|`. -/
def BSet.bitor [Ord T] (s o : BSet T) (fk : T → T) (a : Alloc) : Exec (BSet T × Alloc) := do
  let d ← s.twoIters o
  collectSet TwoIters.unionNext fk (s.len + o.len + 1) d BSet.new a

/-! ### the sets a safe program can have -/

/-- Sets obtainable by API calls in which no insertion returned `Err`, with a lawful order.  src/btree/set.rs: the
`pub fn`s of `BTreeSet`. -/
inductive SetReach {T : Type} [Ord T] : BSet T → Prop
  | new : SetReach BSet.new
  | insert {s s' x a b a'} : SetReach s → s.tryInsert x a = .ok (.ok b, s', a') → SetReach s'
  | replace {s s' x a b a'} : SetReach s → s.replace x a = .ok (.ok b, s', a') → SetReach s'
  | remove {Q : Type} [Ord Q] [Std.TransOrd Q] {bor : T → Q} {s s' q b} : BorrowOK bor → SetReach s →
      s.remove bor q = .ok (b, s') → SetReach s'
  | take {Q : Type} [Ord Q] [Std.TransOrd Q] {bor : T → Q} {s s' q r} : BorrowOK bor → SetReach s →
      s.take bor q = .ok (r, s') → SetReach s'
  | appendSelf {s o s' o' a a'} : SetReach s → SetReach o → s.append o a = .ok (s', o', a') → SetReach s'
  | appendOther {s o s' o' a a'} : SetReach s → SetReach o → s.append o a = .ok (s', o', a') → SetReach o'
  | splitSelf {Q : Type} [Ord Q] [Std.TransOrd Q] {bor : T → Q} {s q a r s' a'} : BorrowOK bor → SetReach s →
      s.trySplitOff bor q a = .ok (r, s', a') → SetReach s'
  | splitRight {Q : Type} [Ord Q] [Std.TransOrd Q] {bor : T → Q} {s q a right s' a'} : BorrowOK bor → SetReach s →
      s.trySplitOff bor q a = .ok (.ok right, s', a') → SetReach right
  | extend {s l a s' a'} : SetReach s → s.extend l a = .ok (s', a') → SetReach s'
  | clone {s fk a s' a'} : (∀ x, compare x (fk x) = .eq) → SetReach s → s.clone fk a = .ok (s', a') → SetReach s'

/-- The same, but every single call may use a different and completely arbitrary comparison function, `Borrow` and `Clone` may
be wrong as well. -/
inductive SetReachAny {T : Type} : BSet T → Prop
  | new : SetReachAny BSet.new
  | insert [Ord T] {s s' x a b a'} : SetReachAny s → s.tryInsert x a = .ok (.ok b, s', a') → SetReachAny s'
  | replace [Ord T] {s s' x a b a'} : SetReachAny s → s.replace x a = .ok (.ok b, s', a') → SetReachAny s'
  | remove {Q : Type} [Ord Q] {bor : T → Q} {s s' q b} : SetReachAny s → s.remove bor q = .ok (b, s') → SetReachAny s'
  | take {Q : Type} [Ord Q] {bor : T → Q} {s s' q r} : SetReachAny s → s.take bor q = .ok (r, s') → SetReachAny s'
  | appendSelf [Ord T] {s o s' o' a a'} : SetReachAny s → SetReachAny o → s.append o a = .ok (s', o', a') → SetReachAny s'
  | appendOther [Ord T] {s o s' o' a a'} : SetReachAny s → SetReachAny o → s.append o a = .ok (s', o', a') → SetReachAny o'
  | splitSelf {Q : Type} [Ord Q] {bor : T → Q} {s q a r s' a'} : SetReachAny s →
      s.trySplitOff bor q a = .ok (r, s', a') → SetReachAny s'
  | splitRight {Q : Type} [Ord Q] {bor : T → Q} {s q a right s' a'} : SetReachAny s →
      s.trySplitOff bor q a = .ok (.ok right, s', a') → SetReachAny right
  | extend [Ord T] {s l a s' a'} : SetReachAny s → s.extend l a = .ok (s', a') → SetReachAny s'
  | clone {s fk a s' a'} : SetReachAny s → s.clone fk a = .ok (s', a') → SetReachAny s'

end Verif.BTree
