import Verif.BTree.Bulk
import Verif.Spec
/-
Level-1 model of iteration in src/btree/map.rs: Range, RangeMut, Iter, IterMut, IntoIter, `range_search`,
and the operations defined through iteration.
-/
namespace Verif.BTree
open Verif
open Verif.Spec (Bound End MutAct)

variable {K V Q : Type}

/-! ### leaf edges -/

/-- src/btree/map.rs:1872-1883 `first_leaf_edge` of the root. -/
def firstLeafEdge (h : Nat) (t : Tree K V) : Exec Handle := do
  let p ← firstLeafPath h t
  .ok ⟨p.reverse, 0⟩

/-- src/btree/map.rs:1885-1896 `last_leaf_edge` of the root. -/
def lastLeafEdge (h : Nat) (t : Tree K V) : Exec Handle := do
  let (p, i) ← lastLeafPath h t
  .ok ⟨p.reverse, i⟩

/-- The ascending loop of `next_unchecked`: `up` is the path of the node just left.  Returns the handle of the pair
and the new front edge.  `unwrap_unchecked(ascend().ok())` at the root is `ub`.
src/btree/map.rs:1616-1628 (Range), 1718-1732 (RangeMut), 1411-1423 (IntoIter, which also frees each node left). -/
def nextLoop (h : Nat) (t : Tree K V) : List Nat → Exec (Handle × Handle)
  | [] => .ub
  | i :: up => do
    match ← nodeAt h t up.reverse with
    | ⟨0, _⟩ => .ub
    | ⟨hn + 1, n⟩ =>
      if i < n.len then do
        let c ← getE n.edges (i + 1)
        let p ← firstLeafPath hn c
        .ok (⟨up, i⟩, ⟨p.reverse ++ (i + 1) :: up, 0⟩)
      else nextLoop h t up

/-- `next_unchecked`: src/btree/map.rs:1601-1629 (Range), 1701-1733 (RangeMut), 1397-1423 (IntoIter). -/
def nextUnchecked (h : Nat) (t : Tree K V) (front : Handle) : Exec (Handle × Handle) := do
  let n ← nodeAt h t front.up.reverse
  if front.idx < n.2.len then .ok (front, ⟨front.up, front.idx + 1⟩)
  else nextLoop h t front.up

/-- The ascending loop of `next_back_unchecked`: src/btree/map.rs:1659-1671, 1767-1781, 1454-1466. -/
def nextBackLoop (h : Nat) (t : Tree K V) : List Nat → Exec (Handle × Handle)
  | [] => .ub
  | i :: up => do
    match ← nodeAt h t up.reverse with
    | ⟨0, _⟩ => .ub
    | ⟨hn + 1, n⟩ =>
      if 0 < i then do
        let c ← getE n.edges (i - 1)
        let (p, j) ← lastLeafPath hn c
        .ok (⟨up, i - 1⟩, ⟨p.reverse ++ (i - 1) :: up, j⟩)
      else nextBackLoop h t up

/-- `next_back_unchecked`: src/btree/map.rs:1644-1672 (Range), 1750-1782 (RangeMut), 1440-1466 (IntoIter). -/
def nextBackUnchecked (h : Nat) (t : Tree K V) (back : Handle) : Exec (Handle × Handle) := do
  if 0 < back.idx then .ok (⟨back.up, back.idx - 1⟩, ⟨back.up, back.idx - 1⟩)
  else nextBackLoop h t back.up

/-! ### Range and RangeMut -/

/-- src/btree/map.rs:460-463 `Range`, 479-485 `RangeMut`. -/
structure Range where
  front : Handle
  back : Handle
deriving Repr, DecidableEq

/-- src/btree/map.rs:1691-1697 `RangeMut::next`: the pair is given by its handle (it can be read and its value
written). -/
def Range.nextH (m : Map K V) (r : Range) : Exec (Option Handle × Range) :=
  if r.front = r.back then .ok (none, r)
  else do
    let (kv, front) ← nextUnchecked m.height m.root r.front
    .ok (some kv, { r with front := front })

/-- src/btree/map.rs:1738-1744 `RangeMut::next_back`. -/
def Range.nextBackH (m : Map K V) (r : Range) : Exec (Option Handle × Range) :=
  if r.front = r.back then .ok (none, r)
  else do
    let (kv, back) ← nextBackUnchecked m.height m.root r.back
    .ok (some kv, { r with back := back })

/-- Read the pair behind an optional handle (`into_kv`). -/
def Map.readOpt (m : Map K V) : Option Handle → Exec (Option (K × V))
  | none => .ok none
  | some hd => do
    let kv ← m.kvAt hd
    .ok (some kv)

/-- src/btree/map.rs:1561-1567 `Range::next`. -/
def Range.next (m : Map K V) (r : Range) : Exec (Option (K × V) × Range) := do
  let (hd, r) ← r.nextH m
  let kv ← m.readOpt hd
  .ok (kv, r)

/-- src/btree/map.rs:1634-1640 `Range::next_back`. -/
def Range.nextBack (m : Map K V) (r : Range) : Exec (Option (K × V) × Range) := do
  let (hd, r) ← r.nextBackH m
  let kv ← m.readOpt hd
  .ok (kv, r)

/-- The validity check at the top of `range_search`: src/btree/map.rs:1910-1923.  `s == e` and `s > e` are
`PartialEq`/`PartialOrd` of `Q`, taken to agree with `Ord` as the trait demands. -/
def rangeCheck [Ord Q] (s e : Bound Q) : Exec Unit :=
  match s, e with
  | .excluded s, .excluded e =>
    match compare s e with
    | .eq => .panic "range start and end are equal and excluded in BTreeMap"
    | .gt => .panic "range start is greater than range end in BTreeMap"
    | .lt => .ok ()
  | .included s, .included e | .included s, .excluded e | .excluded s, .included e =>
    match compare s e with
    | .gt => .panic "range start is greater than range end in BTreeMap"
    | _ => .ok ()
  | _, _ => .ok ()

/-- `min_edge` and the new `min_found`: src/btree/map.rs:1932-1950. -/
def minEdge [Ord Q] (bor : K → Q) (found : Bool) (s : Bound Q) (kvs : List (K × V)) : Nat × Bool :=
  match found, s with
  | false, .included q => searchLinear bor q kvs
  | false, .excluded q =>
    match searchLinear bor q kvs with
    | (i, true) => (i + 1, true)
    | (i, false) => (i, false)
  | f, .unbounded => (0, f)
  | true, .included _ => (kvs.length, true)
  | true, .excluded _ => (0, true)

/-- `max_edge` and the new `max_found`: src/btree/map.rs:1952-1970. -/
def maxEdge [Ord Q] (bor : K → Q) (found : Bool) (e : Bound Q) (kvs : List (K × V)) : Nat × Bool :=
  match found, e with
  | false, .included q =>
    match searchLinear bor q kvs with
    | (i, true) => (i + 1, true)
    | (i, false) => (i, false)
  | false, .excluded q => searchLinear bor q kvs
  | f, .unbounded => (kvs.length, f)
  | true, .included _ => (0, true)
  | true, .excluded _ => (kvs.length, true)

/-- The loop of `range_search`: src/btree/map.rs:1931-1993.  `upMin`, `upMax` are the paths so far. -/
def rangeLoop [Ord Q] (bor : K → Q) (s e : Bound Q) :
    (h : Nat) → (tmin tmax : Tree K V) → (minFound maxFound diverged : Bool) → (upMin upMax : List Nat) →
      Exec Range
  | 0, tmin, tmax, mf, xf, dv, upMin, upMax =>
    let (lo, _) := minEdge bor mf s tmin.kvs
    let (hi, _) := maxEdge bor xf e tmax.kvs
    if !dv && hi < lo then .panic "Ord is ill-defined in BTreeMap range"
    else .ok ⟨⟨upMin, lo⟩, ⟨upMax, hi⟩⟩
  | h + 1, tmin, tmax, mf, xf, dv, upMin, upMax =>
    let (lo, mf) := minEdge bor mf s tmin.kvs
    let (hi, xf) := maxEdge bor xf e tmax.kvs
    if !dv && hi < lo then .panic "Ord is ill-defined in BTreeMap range"
    else do
      let dv := dv || lo != hi
      let cmin ← getE tmin.edges lo
      let cmax ← getE tmax.edges hi
      rangeLoop bor s e h cmin cmax mf xf dv (lo :: upMin) (hi :: upMax)

/-- src/btree/map.rs:885-896 `range`, 929-944 `range_mut`; `range_search` 1898-1994. -/
def Map.range [Ord Q] (m : Map K V) (bor : K → Q) (s e : Bound Q) : Exec Range := do
  rangeCheck s e
  rangeLoop bor s e m.height m.root m.root false false false [] []

/-! ### Iter and IterMut -/

/-- src/btree/map.rs:354-357 `Iter`, 374-377 `IterMut`. -/
structure Iter where
  range : Range
  length : Nat
deriving Repr, DecidableEq

/-- src/btree/map.rs:2030-2038 `iter`, 2062-2073 `iter_mut`. -/
def Map.iter (m : Map K V) : Exec Iter := do
  let f ← firstLeafEdge m.height m.root
  let b ← lastLeafEdge m.height m.root
  .ok ⟨⟨f, b⟩, m.length⟩

/-- src/btree/map.rs:1315-1322 `IterMut::next`: the pair is given by its handle. -/
def Iter.nextH (m : Map K V) (it : Iter) : Exec (Option Handle × Iter) :=
  if it.length = 0 then .ok (none, it)
  else do
    let (kv, front) ← nextUnchecked m.height m.root it.range.front
    .ok (some kv, ⟨{ it.range with front := front }, it.length - 1⟩)

/-- src/btree/map.rs:1331-1338 `IterMut::next_back`. -/
def Iter.nextBackH (m : Map K V) (it : Iter) : Exec (Option Handle × Iter) :=
  if it.length = 0 then .ok (none, it)
  else do
    let (kv, back) ← nextBackUnchecked m.height m.root it.range.back
    .ok (some kv, ⟨{ it.range with back := back }, it.length - 1⟩)

/-- src/btree/map.rs:1257-1264 `Iter::next`. -/
def Iter.next (m : Map K V) (it : Iter) : Exec (Option (K × V) × Iter) := do
  let (hd, it) ← it.nextH m
  let kv ← m.readOpt hd
  .ok (kv, it)

/-- src/btree/map.rs:1275-1282 `Iter::next_back`. -/
def Iter.nextBack (m : Map K V) (it : Iter) : Exec (Option (K × V) × Iter) := do
  let (hd, it) ← it.nextBackH m
  let kv ← m.readOpt hd
  .ok (kv, it)

/-- src/btree/map.rs:1267-1269 `size_hint`, 1286-1289 `ExactSizeIterator::len`. -/
def Iter.sizeHint (it : Iter) : Nat × Option Nat := (it.length, some it.length)

/-- Call `next` `fuel` times or until it answers `None`, collecting the pairs. -/
def Iter.collect (m : Map K V) : Nat → Iter → Exec (List (K × V))
  | 0, _ => .ok []
  | fuel + 1, it => do
    let (r, it) ← it.next m
    match r with
    | none => .ok []
    | some kv => do
      let rest ← Iter.collect m fuel it
      .ok (kv :: rest)

/-- Iterate over the whole map with `iter()` until `None` (the iterator yields at most `length` items, so the fuel
`length + 1` always reaches `None`). -/
def Map.toListE (m : Map K V) : Exec (List (K × V)) := do
  let it ← m.iter
  it.collect m (m.length + 1)

/-! ### one step in either direction -/

/-- `next` or `next_back` of `Iter`. -/
def Iter.step (m : Map K V) : End → Iter → Exec (Option (K × V) × Iter)
  | .front, it => it.next m
  | .back, it => it.nextBack m

/-- `next` or `next_back` of `IterMut`: handles. -/
def Iter.stepH (m : Map K V) : End → Iter → Exec (Option Handle × Iter)
  | .front, it => it.nextH m
  | .back, it => it.nextBackH m

/-- `next` or `next_back` of `Range`. -/
def Range.step (m : Map K V) : End → Range → Exec (Option (K × V) × Range)
  | .front, r => r.next m
  | .back, r => r.nextBack m

/-- `next` or `next_back` of `RangeMut`: handles. -/
def Range.stepH (m : Map K V) : End → Range → Exec (Option Handle × Range)
  | .front, r => r.nextH m
  | .back, r => r.nextBackH m

/-- A sequence of `next`/`next_back` calls on `Iter`. -/
def Iter.run (m : Map K V) : List End → Iter → Exec (List (Option (K × V)) × Iter)
  | [], it => .ok ([], it)
  | e :: es, it => do
    let (x, it) ← it.step m e
    let (xs, it) ← Iter.run m es it
    .ok (x :: xs, it)

/-- A sequence of `next`/`next_back` calls on `Range`. -/
def Range.run (m : Map K V) : List End → Range → Exec (List (Option (K × V)) × Range)
  | [], r => .ok ([], r)
  | e :: es, r => do
    let (x, r) ← r.step m e
    let (xs, r) ← Range.run m es r
    .ok (x :: xs, r)

/-- `next`/`next_back` of `Keys` (`f` the key) and `Values` (`f` the value): `self.inner.next().map(..)`.
src/btree/map.rs:1483-1485, 1495-1497 (Keys), 1522-1524, 1534-1536 (Values); their `len` 1502-1504, 1541-1543 is that of the `Iter` inside. -/
def Iter.stepMap {β : Type} (f : K × V → β) (m : Map K V) (e : End) (it : Iter) : Exec (Option β × Iter) := do
  let (x, it) ← it.step m e
  .ok (x.map f, it)

/-- A sequence of calls on `Keys`/`Values`. -/
def Iter.runMap {β : Type} (f : K × V → β) (m : Map K V) : List End → Iter → Exec (List (Option β) × Iter)
  | [], it => .ok ([], it)
  | e :: es, it => do
    let (x, it) ← it.stepMap f m e
    let (xs, it) ← Iter.runMap f m es it
    .ok (x :: xs, it)

/-- A program using `IterMut` (`S = Iter`, `step = Iter.stepH`) or `RangeMut` (`S = Range`, `step = Range.stepH`): takes
from either end, interleaved with writes through the references handed out so far (`refs`, as handles).  The borrow
checker lets a program keep all of them alive at once: the items have the map's lifetime (src/btree/map.rs:1312-1338,
1688-1744).  A `take` reports what the new reference reads. -/
def mutRun {S : Type} (step : Map K V → End → S → Exec (Option Handle × S)) :
    List (MutAct V) → Map K V → S → List Handle → Exec (List (Option (K × V)) × Map K V × List Handle)
  | [], m, _, refs => .ok ([], m, refs)
  | .take e :: as, m, it, refs => do
    let (hd, it) ← step m e it
    let x ← m.readOpt hd
    let (xs, m, refs) ← mutRun step as m it (refs ++ hd.toList)
    .ok (x :: xs, m, refs)
  | .write i f :: as, m, it, refs =>
    match refs[i]? with
    | none => do  -- no such reference: not a program that compiles
      let (xs, m, refs) ← mutRun step as m it refs
      .ok (none :: xs, m, refs)
    | some hd => do
      let kv ← m.kvAt hd
      let (m, _) ← m.setVal hd (f kv.2)
      let (xs, m, refs) ← mutRun step as m it refs
      .ok (none :: xs, m, refs)

/-! ### operations defined by iteration -/

/-- src/btree/map.rs:830-853 `append`: `(self, other)` afterwards.  The two `into_iter` drains yield what iteration
yields (`IntoIter`, see Verif/BTree/IntoIter). -/
def Map.append [Ord K] (m other : Map K V) (a : Alloc) : Exec (Map K V × Map K V × Alloc) :=
  if other.len = 0 then .ok (m, other, a)
  else if m.len = 0 then .ok (other, m, a)
  else do
    let l ← m.toListE
    let r ← other.toListE
    let (m, a) ← Map.ofSorted (mergeIter l r) a
    .ok (m, Map.new, a)

/-- src/btree/map.rs:1796-1800 `extend`. -/
def Map.extend [Ord K] (m : Map K V) : List (K × V) → Alloc → Exec (Map K V × Alloc)
  | [], a => .ok (m, a)
  | (k, v) :: rest, a => do
    let (r, m, a) ← m.tryInsert k v a
    match r with
    | .error _ => .panic "Out of Mem"
    | .ok _ => m.extend rest a

/-- src/btree/map.rs:1787-1791 `from_iter`. -/
def Map.fromIter [Ord K] (l : List (K × V)) (a : Alloc) : Exec (Map K V × Alloc) :=
  (Map.new : Map K V).extend l a

/-- `self.iter().zip(other).all(|(a, b)| a == b)` on the two item sequences. -/
def zipAll {α : Type} (eq : α → α → Bool) : List α → List α → Bool
  | a :: as, b :: bs => eq a b && zipAll eq as bs
  | _, _ => true

/-- src/btree/map.rs:1827-1829 `PartialEq::eq`. -/
def Map.eq (m o : Map K V) (eqK : K → K → Bool) (eqV : V → V → Bool) : Exec Bool := do
  if m.len = o.len then do
    let l ← m.toListE
    let r ← o.toListE
    .ok (zipAll (fun a b => eqK a.1 b.1 && eqV a.2 b.2) l r)
  else .ok false

/-- `Iterator::cmp` (core): lexicographic comparison. -/
def lexCmp {α : Type} (cmp : α → α → Ordering) : List α → List α → Ordering
  | [], [] => .eq
  | [], _ :: _ => .lt
  | _ :: _, [] => .gt
  | a :: as, b :: bs =>
    match cmp a b with
    | .eq => lexCmp cmp as bs
    | o => o

/-- `Iterator::partial_cmp` (core): the same, until a comparison does not answer `Some(Equal)`. -/
def lexPartial {α : Type} (cmp : α → α → Option Ordering) : List α → List α → Option Ordering
  | [], [] => some .eq
  | [], _ :: _ => some .lt
  | _ :: _, [] => some .gt
  | a :: as, b :: bs =>
    match cmp a b with
    | some .eq => lexPartial cmp as bs
    | o => o

/-- `partial_cmp` of pairs (core): keys first, then values. -/
def pairPartial (cmpK : K → K → Option Ordering) (cmpV : V → V → Option Ordering) (a b : K × V) : Option Ordering :=
  match cmpK a.1 b.1 with
  | some .eq => cmpV a.2 b.2
  | c => c

/-- src/btree/map.rs:1836-1838 `partial_cmp`. -/
def Map.partialCmp (m o : Map K V) (cmpK : K → K → Option Ordering) (cmpV : V → V → Option Ordering) : Exec (Option Ordering) := do
  let l ← m.toListE
  let r ← o.toListE
  .ok (lexPartial (pairPartial cmpK cmpV) l r)

/-- src/btree/map.rs:1843-1845 `Ord::cmp`; tuples compare lexicographically. -/
def Map.cmp (m o : Map K V) (cmpK : K → K → Ordering) (cmpV : V → V → Ordering) : Exec Ordering := do
  let l ← m.toListE
  let r ← o.toListE
  .ok (lexCmp (fun a b => (cmpK a.1 b.1).then (cmpV a.2 b.2)) l r)

/-- src/btree/map.rs:1811-1815 `Hash::hash`: the elements are fed to the hasher in iteration order. -/
def Map.hash {S : Type} (m : Map K V) (feed : S → K × V → S) (s : S) : Exec S := do
  let l ← m.toListE
  .ok (l.foldl feed s)

end Verif.BTree
