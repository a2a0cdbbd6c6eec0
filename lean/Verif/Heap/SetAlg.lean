import Verif.Heap.Views
import Verif.Heap.Unwind
import Verif.BTree.AlgViews
/-
Level-2 model of the set algebra of src/btree/set.rs: the iterators over two sets in memory, their predicates, their clones, their `Debug`, and the operators, which
build a new set while they walk through the two.  The code is that of Verif/BTree/Set.lean, but every step of an iterator and every search reads the memory.  A
`BTreeSet<T>` is the `BTreeMap<T, ()>` inside.
-/
namespace Verif.Heap
open Verif
open Verif.BTree (TIPPING cmpOpt)
open Verif.Spec (End AlgKind AlgAct AlgSeen Shown SetAsk SetTold)

variable {T α : Type}

/-- src/btree/set.rs:74-76 `Iter`, with the set it borrows. -/
structure HSetIter where
  set : HMap
  it : HIter

/-- src/btree/set.rs:829-833 `iter`, 910-912. -/
def HMap.setIter (m : HMap) : HM T Unit HSetIter := do
  let it ← m.iter
  pure ⟨m, it⟩

/-- src/btree/set.rs:1046-1048 `next`. -/
def HSetIter.next (i : HSetIter) : HM T Unit (Option T × HSetIter) := do
  let x ← i.it.step i.set.root.height .front
  pure (x.1.map (·.1), { i with it := x.2 })

/-- src/btree/set.rs:1051-1053 `size_hint`, 1065-1067 `len`. -/
def HSetIter.len (i : HSetIter) : Nat := i.it.length

/-- src/btree/set.rs:1035-1039 `Iter::clone`. -/
def HSetIter.clone (i : HSetIter) : HSetIter := ⟨i.set, i.it.clone⟩

/-- src/btree/set.rs:483-489 `contains`, src/btree/map.rs:687-693 `contains_key`. -/
def HMap.setContains [Ord T] (m : HMap) (x : T) : HM T Unit Bool := do
  let r ← m.getKeyValue id x
  pure r.isSome

/-! ### `Peekable` (core) -/

/-- `core::iter::Peekable` over `Iter`. -/
structure HPeekable (T : Type) where
  iter : HSetIter
  peeked : Option (Option T)

/-- `Iterator::peekable` (core). -/
def HSetIter.peekable (i : HSetIter) : HPeekable T := ⟨i, none⟩

/-- `Peekable::next` (core); see Verif/BTree/Set.lean. -/
def HPeekable.next (p : HPeekable T) : HM T Unit (Option T × HPeekable T) :=
  match p.peeked with
  | some v => pure (v, { p with peeked := none })
  | none => do
    let r ← p.iter.next
    pure (r.1, { p with iter := r.2 })

/-- `Peekable::peek` (core). -/
def HPeekable.peek (p : HPeekable T) : HM T Unit (Option T × HPeekable T) :=
  match p.peeked with
  | some v => pure (v, p)
  | none => do
    let r ← p.iter.next
    pure (r.1, ⟨r.2, some r.1⟩)

/-- `ExactSizeIterator::len` of `Peekable` (core). -/
def HPeekable.len (p : HPeekable T) : Nat :=
  match p.peeked with
  | some none => 0
  | some (some _) => p.iter.len + 1
  | none => p.iter.len

/-- `Peekable::clone` (core, derived). -/
def HPeekable.clone (p : HPeekable T) : HPeekable T := ⟨p.iter.clone, p.peeked⟩

/-! ### difference -/

/-- src/btree/set.rs:118-130 `Difference`. -/
inductive HDifference (T : Type) where
  | stitch (self : HSetIter) (other : HPeekable T)
  | search (self : HSetIter) (other : HMap)

/-- src/btree/set.rs:319-340 `difference`. -/
def HMap.difference (s o : HMap) : HM T Unit (HDifference T) :=
  if o.length / TIPPING < s.length then do
    let i ← s.setIter
    let j ← o.setIter
    pure (.stitch i j.peekable)
  else do
    let i ← s.setIter
    pure (.search i o)

/-- The loop of `next` when stitching: src/btree/set.rs:1171-1185; `x` is `self_next`. -/
def hdifferenceStitch [Ord T] : Nat → T → HSetIter → HPeekable T → HM T Unit (Option T × HDifference T)
  | 0, _, _, _ => HM.panic "fuel"
  | fuel + 1, x, i, j => do
    let p ← j.peek
    match p.1.elim .lt (fun y => compare x y) with
    | .lt => pure (some x, .stitch i p.2)
    | .eq => do
      let n ← i.next
      match n.1 with
      | none => pure (none, .stitch n.2 p.2)
      | some x' => do
        let j' ← p.2.next
        hdifferenceStitch fuel x' n.2 j'.2
    | .gt => do
      let j' ← p.2.next
      hdifferenceStitch fuel x i j'.2

/-- The loop of `next` when searching: src/btree/set.rs:1190-1195. -/
def hdifferenceSearch [Ord T] (o : HMap) : Nat → HSetIter → HM T Unit (Option T × HDifference T)
  | 0, _ => HM.panic "fuel"
  | fuel + 1, i => do
    let n ← i.next
    match n.1 with
    | none => pure (none, .search n.2 o)
    | some x => do
      let c ← o.setContains x
      if c then hdifferenceSearch o fuel n.2 else pure (some x, .search n.2 o)

/-- src/btree/set.rs:1164-1197 `Difference::next`. -/
def HDifference.next [Ord T] : HDifference T → HM T Unit (Option T × HDifference T)
  | .stitch i j => do
    let n ← i.next
    match n.1 with
    | none => pure (none, .stitch n.2 j)
    | some x => hdifferenceStitch (j.len + 1) x n.2 j
  | .search i o => hdifferenceSearch o (i.len + 1) i

/-- src/btree/set.rs:1199-1211 `Difference::size_hint`. -/
def HDifference.sizeHint : HDifference T → Nat × Option Nat
  | .stitch i j => (i.len - j.len, some i.len)
  | .search i o => (i.len - o.length, some i.len)

/-- src/btree/set.rs:1139-1158 `Difference::clone`. -/
def HDifference.clone : HDifference T → HDifference T
  | .stitch i j => .stitch i.clone j.clone
  | .search i o => .search i.clone o

/-! ### symmetric difference and union -/

/-- src/btree/set.rs:159-162 `SymmetricDifference`, 222-225 `Union`. -/
structure HTwoIters (T : Type) where
  a : HPeekable T
  b : HPeekable T

/-- src/btree/set.rs:363-371 `symmetric_difference`, 441-446 `union`. -/
def HMap.twoIters (s o : HMap) : HM T Unit (HTwoIters T) := do
  let i ← s.setIter
  let j ← o.setIter
  pure ⟨i.peekable, j.peekable⟩

/-- The loop of `SymmetricDifference::next`: src/btree/set.rs:1228-1239. -/
def hsymDiffLoop [Ord T] : Nat → HTwoIters T → HM T Unit (Option T × HTwoIters T)
  | 0, _ => HM.panic "fuel"
  | fuel + 1, t => do
    let p ← t.a.peek
    let q ← t.b.peek
    match cmpOpt p.1 q.1 .gt .lt with
    | .lt => do
      let n ← p.2.next
      pure (n.1, ⟨n.2, q.2⟩)
    | .eq => do
      let n ← p.2.next
      let n' ← q.2.next
      hsymDiffLoop fuel ⟨n.2, n'.2⟩
    | .gt => do
      let n ← q.2.next
      pure (n.1, ⟨p.2, n.2⟩)

/-- src/btree/set.rs:1228-1239 `SymmetricDifference::next`. -/
def HTwoIters.symDiffNext [Ord T] (t : HTwoIters T) : HM T Unit (Option T × HTwoIters T) := hsymDiffLoop (t.a.len + t.b.len + 1) t

/-- src/btree/set.rs:1242-1244 `SymmetricDifference::size_hint`. -/
def HTwoIters.symDiffHint (t : HTwoIters T) : Nat × Option Nat := (0, some (t.a.len + t.b.len))

/-- src/btree/set.rs:1328-1337 `Union::next`. -/
def HTwoIters.unionNext [Ord T] (t : HTwoIters T) : HM T Unit (Option T × HTwoIters T) := do
  let p ← t.a.peek
  let q ← t.b.peek
  match cmpOpt p.1 q.1 .gt .lt with
  | .lt => do
    let n ← p.2.next
    pure (n.1, ⟨n.2, q.2⟩)
  | .eq => do
    let n' ← q.2.next
    let n ← p.2.next
    pure (n.1, ⟨n.2, n'.2⟩)
  | .gt => do
    let n ← q.2.next
    pure (n.1, ⟨p.2, n.2⟩)

/-- src/btree/set.rs:1339-1343 `Union::size_hint`. -/
def HTwoIters.unionHint (t : HTwoIters T) : Nat × Option Nat := (max t.a.len t.b.len, some (t.a.len + t.b.len))

/-- src/btree/set.rs:1217-1222 `SymmetricDifference::clone`, 1317-1322 `Union::clone`. -/
def HTwoIters.clone (t : HTwoIters T) : HTwoIters T := ⟨t.a.clone, t.b.clone⟩

/-! ### intersection -/

/-- src/btree/set.rs:181-193 `Intersection`. -/
inductive HIntersection where
  | stitch (small : HSetIter) (other : HSetIter)
  | search (small : HSetIter) (large : HMap)

/-- src/btree/set.rs:400-419: the body of `intersection` once the smaller set is known. -/
def HMap.intersectionOf (small other : HMap) : HM T Unit HIntersection :=
  if other.length / TIPPING < small.length then do
    let i ← small.setIter
    let j ← other.setIter
    pure (.stitch i j)
  else do
    let i ← small.setIter
    pure (.search i other)

/-- src/btree/set.rs:394-419 `intersection`. -/
def HMap.intersection (s o : HMap) : HM T Unit HIntersection :=
  if s.length ≤ o.length then s.intersectionOf o else o.intersectionOf s

/-- The loop of `next` when stitching: src/btree/set.rs:1283-1289. -/
def hintersectionStitch [Ord T] : Nat → T → T → HSetIter → HSetIter → HM T Unit (Option T × HIntersection)
  | 0, _, _, _, _ => HM.panic "fuel"
  | fuel + 1, x, y, i, j =>
    match compare x y with
    | .lt => do
      let n ← i.next
      match n.1 with
      | none => pure (none, .stitch n.2 j)
      | some x' => hintersectionStitch fuel x' y n.2 j
    | .gt => do
      let n ← j.next
      match n.1 with
      | none => pure (none, .stitch i n.2)
      | some y' => hintersectionStitch fuel x y' i n.2
    | .eq => pure (some x, .stitch i j)

/-- The loop of `next` when searching: src/btree/set.rs:1294-1299. -/
def hintersectionSearch [Ord T] (o : HMap) : Nat → HSetIter → HM T Unit (Option T × HIntersection)
  | 0, _ => HM.panic "fuel"
  | fuel + 1, i => do
    let n ← i.next
    match n.1 with
    | none => pure (none, .search n.2 o)
    | some x => do
      let c ← o.setContains x
      if c then pure (some x, .search n.2 o) else hintersectionSearch o fuel n.2

/-- src/btree/set.rs:1275-1301 `Intersection::next`. -/
def HIntersection.next [Ord T] : HIntersection → HM T Unit (Option T × HIntersection)
  | .stitch i j => do
    let n ← i.next
    match n.1 with
    | none => pure (none, .stitch n.2 j)
    | some x => do
      let n' ← j.next
      match n'.1 with
      | none => pure (none, .stitch n.2 n'.2)
      | some y => hintersectionStitch (n.2.len + n'.2.len + 1) x y n.2 n'.2
  | .search i o => hintersectionSearch o (i.len + 1) i

/-- src/btree/set.rs:1304-1310 `Intersection::size_hint`. -/
def HIntersection.sizeHint : HIntersection → Nat × Option Nat
  | .stitch i _ => (0, some i.len)
  | .search i _ => (0, some i.len)

/-- src/btree/set.rs:1250-1269 `Intersection::clone`. -/
def HIntersection.clone : HIntersection → HIntersection
  | .stitch i j => .stitch i.clone j.clone
  | .search i o => .search i.clone o

/-! ### predicates -/

/-- src/btree/set.rs:535-537 `is_disjoint`. -/
def HMap.isDisjoint [Ord T] (s o : HMap) : HM T Unit Bool := do
  let i ← s.intersection o
  let r ← i.next
  pure r.1.isNone

/-- The stitching loop of `is_subset`: src/btree/set.rs:570-588. -/
def hsubsetStitch [Ord T] : Nat → Option T → Option T → HSetIter → HSetIter → HM T Unit Bool
  | 0, _, _, _, _ => HM.panic "fuel"
  | fuel + 1, a, b, x, y =>
    match a with
    | none => pure true
    | some a1 =>
      match b with
      | none => pure false
      | some b1 =>
        match compare b1 a1 with
        | .lt => do
          let n ← y.next
          hsubsetStitch fuel a n.1 x n.2
        | .gt => pure false
        | .eq => do
          let n ← x.next
          let n' ← y.next
          hsubsetStitch fuel n.1 n'.1 n.2 n'.2

/-- The searching loop of `is_subset`: src/btree/set.rs:592-598. -/
def hsubsetSearch [Ord T] (o : HMap) : Nat → HSetIter → HM T Unit Bool
  | 0, _ => HM.panic "fuel"
  | fuel + 1, i => do
    let n ← i.next
    match n.1 with
    | none => pure true
    | some x => do
      let c ← o.setContains x
      if c then hsubsetSearch o fuel n.2 else pure false

/-- src/btree/set.rs:557-600 `is_subset`. -/
def HMap.isSubset [Ord T] (s o : HMap) : HM T Unit Bool :=
  if o.length < s.length then pure false
  else if o.length / TIPPING < s.length then do
    let x ← s.setIter
    let y ← o.setIter
    let a ← x.next
    let b ← y.next
    hsubsetStitch (o.length + 1) a.1 b.1 a.2 b.2
  else do
    let x ← s.setIter
    hsubsetSearch o (s.length + 1) x

/-- src/btree/set.rs:620-622 `is_superset`. -/
def HMap.isSuperset [Ord T] (s o : HMap) : HM T Unit Bool := o.isSubset s

/-! ### printing -/

/-- `f.debug_list().entries(iter)`: the loop calls `next` until `None`. -/
def HSetIter.drain : Nat → HSetIter → HM T Unit (List T)
  | 0, _ => HM.panic "fuel"
  | fuel + 1, i => do
    let n ← i.next
    match n.1 with
    | none => pure []
    | some x => do
      let xs ← n.2.drain fuel
      pure (x :: xs)

/-- src/btree/set.rs:79-81 `Debug` of `Iter`, src/btree/map.rs:416-418 of `Keys`. -/
def HSetIter.debug (i : HSetIter) : HM T Unit (List T) := i.clone.drain (i.len + 1)

/-- `Debug` of `Peekable` (core, derived). -/
def HPeekable.debug (p : HPeekable T) : HM T Unit (Shown T) := do
  let l ← p.iter.debug
  pure (.peekable l p.peeked)

/-- src/btree/set.rs:132-149 `Debug` of `Difference`. -/
def HDifference.debug : HDifference T → HM T Unit (List (Shown T))
  | .stitch i j => do
    let l ← i.debug
    let r ← j.debug
    pure [.iter l, r]
  | .search i _ => do
    let l ← i.debug
    pure [.iter l]

/-- src/btree/set.rs:195-212 `Debug` of `Intersection`. -/
def HIntersection.debug : HIntersection → HM T Unit (List (Shown T))
  | .stitch i j => do
    let l ← i.debug
    let r ← j.debug
    pure [.iter l, .iter r]
  | .search i _ => do
    let l ← i.debug
    pure [.iter l]

/-- src/btree/set.rs:164-171 `Debug` of `SymmetricDifference`, 227-234 of `Union`. -/
def HTwoIters.debug (t : HTwoIters T) : HM T Unit (List (Shown T)) := do
  let l ← t.a.debug
  let r ← t.b.debug
  pure [l, r]

/-- src/btree/set.rs:1027-1031 `Debug` of `BTreeSet`: `f.debug_set().entries(self.iter())`. -/
def HMap.setDebug (m : HMap) : HM T Unit (List T) := do
  let i ← m.setIter
  i.drain (m.length + 1)

/-! ### programs that use several of the iterators at once -/

/-- A set-algebra iterator. -/
inductive HAlgView (T : Type) where
  | difference (d : HDifference T)
  | symmetricDifference (t : HTwoIters T)
  | intersection (d : HIntersection)
  | union (t : HTwoIters T)

/-- src/btree/set.rs:319-340 `difference`, 363-371 `symmetric_difference`, 394-419 `intersection`, 441-446 `union`. -/
def HMap.algView (s o : HMap) : AlgKind → HM T Unit (HAlgView T)
  | .difference => do
    let d ← s.difference o
    pure (.difference d)
  | .symmetricDifference => do
    let t ← s.twoIters o
    pure (.symmetricDifference t)
  | .intersection => do
    let d ← s.intersection o
    pure (.intersection d)
  | .union => do
    let t ← s.twoIters o
    pure (.union t)

/-- `clone`: see the four functions above. -/
def HAlgView.clone : HAlgView T → HAlgView T
  | .difference d => .difference d.clone
  | .symmetricDifference t => .symmetricDifference t.clone
  | .intersection d => .intersection d.clone
  | .union t => .union t.clone

/-- `next`: src/btree/set.rs:1164-1197, 1228-1239, 1275-1301, 1328-1337. -/
def HAlgView.next [Ord T] : HAlgView T → HM T Unit (Option T × HAlgView T)
  | .difference d => do
    let r ← d.next
    pure (r.1, .difference r.2)
  | .symmetricDifference t => do
    let r ← t.symDiffNext
    pure (r.1, .symmetricDifference r.2)
  | .intersection d => do
    let r ← d.next
    pure (r.1, .intersection r.2)
  | .union t => do
    let r ← t.unionNext
    pure (r.1, .union r.2)

/-- `size_hint`: src/btree/set.rs:1199-1211, 1242-1244, 1304-1310, 1339-1343. -/
def HAlgView.sizeHint : HAlgView T → Nat × Option Nat
  | .difference d => d.sizeHint
  | .symmetricDifference t => t.symDiffHint
  | .intersection d => d.sizeHint
  | .union t => t.unionHint

/-- `Debug`: see the functions above. -/
def HAlgView.debug : HAlgView T → HM T Unit (List (Shown T))
  | .difference d => d.debug
  | .symmetricDifference t => t.debug
  | .intersection d => d.debug
  | .union t => t.debug

/-- Look at iterator number `i`. -/
def onHAlg (p : List (HAlgView T)) (i : Nat) (f : HAlgView T → HM T Unit (AlgSeen T × List (HAlgView T))) : HM T Unit (AlgSeen T × List (HAlgView T)) :=
  match p[i]? with
  | none => pure (.skipped, p)
  | some v => f v

/-- One step of a program using several iterators over the sets `s` and `o`, which may be the same. -/
def AlgAct.hrun [Ord T] (s o : HMap) (p : List (HAlgView T)) : AlgAct → HM T Unit (AlgSeen T × List (HAlgView T))
  | .start k => do
    let v ← s.algView o k
    pure (.opened, p ++ [v])
  | .clone i => onHAlg p i fun v => pure (.opened, p ++ [v.clone])
  | .next i => onHAlg p i fun v => do
      let r ← v.next
      pure (.item r.1, p.set i r.2)
  | .hint i => onHAlg p i fun v => pure (.hint v.sizeHint, p)
  | .debug i => onHAlg p i fun v => do
      let l ← v.debug
      pure (.printed l, p)

/-- A whole program: the answers. -/
def AlgAct.hruns [Ord T] (s o : HMap) : List AlgAct → List (HAlgView T) → HM T Unit (List (AlgSeen T))
  | [], _ => pure []
  | a :: as, p => do
    let x ← AlgAct.hrun s o p a
    let xs ← AlgAct.hruns s o as x.2
    pure (x.1 :: xs)

/-- One question about the sets of a pool. -/
def SetAsk.hrun [Ord T] (p : List HMap) : SetAsk → HM T Unit (SetTold T)
  | .algebra i j acts =>
    match p[i]?, p[j]? with
    | some m, some n => do
      let xs ← AlgAct.hruns m n acts []
      pure (.seen xs)
    | _, _ => pure .skipped
  | .subset i j =>
    match p[i]?, p[j]? with
    | some m, some n => do
      let b ← m.isSubset n
      pure (.bool b)
    | _, _ => pure .skipped
  | .superset i j =>
    match p[i]?, p[j]? with
    | some m, some n => do
      let b ← m.isSuperset n
      pure (.bool b)
    | _, _ => pure .skipped
  | .disjoint i j =>
    match p[i]?, p[j]? with
    | some m, some n => do
      let b ← m.isDisjoint n
      pure (.bool b)
    | _, _ => pure .skipped
  | .debug i =>
    match p[i]? with
    | some m => do
      let l ← m.setDebug
      pure (.elements l)
    | none => pure .skipped

/-- Several questions. -/
def SetAsk.hruns [Ord T] (p : List HMap) : List SetAsk → HM T Unit (List (SetTold T))
  | [] => pure []
  | a :: as => do
    let t ← SetAsk.hrun p a
    let ts ← SetAsk.hruns p as
    pure (t :: ts)

/-! ### the operators -/

/-- `.cloned().collect()` into a set: `from_iter` (src/btree/set.rs:874-878, 917-921) pulling from an iterator: every item is cloned and inserted as it comes.  `false` if
`expect("Out of Mem")` (919) panicked; the set so far. -/
def hcollectSet [Ord T] {S : Type} (next : S → HM T Unit (Option T × S)) (fk : T → T) : Nat → S → HMap → HM T Unit (Bool × HMap)
  | 0, _, _ => HM.panic "fuel"
  | fuel + 1, s, m => do
    let r ← next s
    match r.1 with
    | none => pure (true, m)
    | some x => do
      let p ← m.tryInsert (fk x) ()
      match p.1 with
      | none => pure (false, p.2)
      | some _ => hcollectSet next fk fuel r.2 p.2

/-- The end of `collect`: the new set, or, after the panic, `None`, the unfinished set having been dropped by unwinding (src/btree/set.rs:875). -/
def hcollectEnd (x : Bool × HMap) : HM T Unit (Option HMap) :=
  if x.1 then pure (some x.2)
  else do
    let _ ← x.2.drop
    pure none

/-- The operators `-` (src/btree/set.rs:956-958), `^` (978-980), `&` (1000-1002), `|` (1022-1024). -/
def HMap.operator [Ord T] (s o : HMap) (fk : T → T) : AlgKind → HM T Unit (Option HMap)
  | .difference => do
    let d ← s.difference o
    let x ← hcollectSet HDifference.next fk (s.length + 1) d HMap.new
    hcollectEnd x
  | .symmetricDifference => do
    let d ← s.twoIters o
    let x ← hcollectSet HTwoIters.symDiffNext fk (s.length + o.length + 1) d HMap.new
    hcollectEnd x
  | .intersection => do
    let d ← s.intersection o
    let x ← hcollectSet HIntersection.next fk (s.length + 1) d HMap.new
    hcollectEnd x
  | .union => do
    let d ← s.twoIters o
    let x ← hcollectSet HTwoIters.unionNext fk (s.length + o.length + 1) d HMap.new
    hcollectEnd x

end Verif.Heap
