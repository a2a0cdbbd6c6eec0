import Verif.BTree.AlgViews
import Verif.BTree.Unwind
/-
The set-algebra iterators of src/btree/set.rs when a comparison of elements panics in `next` and the caller catches the panic and goes on with the iterator.
`cmps` is the number of comparisons that still return; the next one panics.  What is left of the iterator is what the code had stored in it at that moment:
local variables (`self_next`, `small_next`, `other_next`) are lost.
-/
namespace Verif.BTree
open Verif
open Verif.Spec (AlgKind)

variable {T Q : Type}

/-- `contains` (src/btree/set.rs:483-489, src/btree/map.rs:687-693, 630-639): `none` if a comparison of the search panicked. -/
def BSet.containsP [Ord Q] (s : BSet T) (bor : T → Q) (q : Q) (cmps : Nat) : Exec (Option (Bool × Nat)) := do
  match ← s.map.searchP bor q cmps with
  | none => .ok none
  | some (.found hd, cmps) => do
    let _ ← s.map.kvAt hd
    .ok (some (true, cmps))
  | some (.goDown _, cmps) => .ok (some (false, cmps))

/-- A comparison made on optional items, `none` if it panicked.  No comparison is made when an item is missing: src/btree/set.rs:1130-1136, 1172-1175. -/
def cmpP [Ord T] (x y : Option T) (short long : Ordering) (cmps : Nat) : Option (Ordering × Nat) :=
  match x, y, cmps with
  | none, _, cmps => some (short, cmps)
  | some _, none, cmps => some (long, cmps)
  | some _, some _, 0 => none
  | some x, some y, cmps + 1 => some (compare x y, cmps)

/-- src/btree/set.rs:1328-1337 `Union::next`: both items are peeked, hence still there, when the comparison panics. -/
def TwoIters.unionNextP [Ord T] (t : TwoIters T) (cmps : Nat) : Exec (Outcome (TwoIters T) ((Option T × TwoIters T) × Nat)) := do
  let p ← t.a.peek
  let q ← t.b.peek
  match cmpP p.1 q.1 .gt .lt cmps with
  | none => .ok (.unwound ⟨p.2, q.2⟩ .cmp)
  | some (.lt, cmps) => do
    let n ← p.2.next
    .ok (.done ((n.1, ⟨n.2, q.2⟩), cmps))
  | some (.eq, cmps) => do
    let n' ← q.2.next
    let n ← p.2.next
    .ok (.done ((n.1, ⟨n.2, n'.2⟩), cmps))
  | some (.gt, cmps) => do
    let n ← q.2.next
    .ok (.done ((n.1, ⟨p.2, n.2⟩), cmps))

/-- The loop of `SymmetricDifference::next`: src/btree/set.rs:1228-1239. -/
def symDiffLoopP [Ord T] : Nat → TwoIters T → Nat → Exec (Outcome (TwoIters T) ((Option T × TwoIters T) × Nat))
  | 0, _, _ => .panic "fuel"
  | fuel + 1, t, cmps => do
    let p ← t.a.peek
    let q ← t.b.peek
    match cmpP p.1 q.1 .gt .lt cmps with
    | none => .ok (.unwound ⟨p.2, q.2⟩ .cmp)
    | some (.lt, cmps) => do
      let n ← p.2.next
      .ok (.done ((n.1, ⟨n.2, q.2⟩), cmps))
    | some (.eq, cmps) => do
      let n ← p.2.next
      let n' ← q.2.next
      symDiffLoopP fuel ⟨n.2, n'.2⟩ cmps
    | some (.gt, cmps) => do
      let n ← q.2.next
      .ok (.done ((n.1, ⟨p.2, n.2⟩), cmps))

/-- The loop of `Difference::next` when stitching: src/btree/set.rs:1171-1185.  `x` (`self_next`) has been taken out of `self_iter` and is lost. -/
def differenceStitchP [Ord T] : Nat → T → SetIter T → Peekable T → Nat → Exec (Outcome (Difference T) ((Option T × Difference T) × Nat))
  | 0, _, _, _, _ => .panic "fuel"
  | fuel + 1, x, i, j, cmps => do
    let p ← j.peek
    match cmpP (some x) p.1 .lt .lt cmps with
    | none => .ok (.unwound (.stitch i p.2) .cmp)
    | some (.lt, cmps) => .ok (.done ((some x, .stitch i p.2), cmps))
    | some (.eq, cmps) => do
      let n ← i.next
      match n.1 with
      | none => .ok (.done ((none, .stitch n.2 p.2), cmps))
      | some x' => do
        let j' ← p.2.next
        differenceStitchP fuel x' n.2 j'.2 cmps
    | some (.gt, cmps) => do
      let j' ← p.2.next
      differenceStitchP fuel x i j'.2 cmps

/-- The loop of `Difference::next` when searching: src/btree/set.rs:1190-1195. -/
def differenceSearchP [Ord T] (o : BSet T) : Nat → SetIter T → Nat → Exec (Outcome (Difference T) ((Option T × Difference T) × Nat))
  | 0, _, _ => .panic "fuel"
  | fuel + 1, i, cmps => do
    let n ← i.next
    match n.1 with
    | none => .ok (.done ((none, .search n.2 o), cmps))
    | some x => do
      match ← o.containsP id x cmps with
      | none => .ok (.unwound (.search n.2 o) .cmp)
      | some (true, cmps) => differenceSearchP o fuel n.2 cmps
      | some (false, cmps) => .ok (.done ((some x, .search n.2 o), cmps))

/-- src/btree/set.rs:1164-1197 `Difference::next`. -/
def Difference.nextP [Ord T] : Difference T → Nat → Exec (Outcome (Difference T) ((Option T × Difference T) × Nat))
  | .stitch i j, cmps => do
    let n ← i.next
    match n.1 with
    | none => .ok (.done ((none, .stitch n.2 j), cmps))
    | some x => differenceStitchP (j.len + 1) x n.2 j cmps
  | .search i o, cmps => differenceSearchP o (i.len + 1) i cmps

/-- The loop of `Intersection::next` when stitching: src/btree/set.rs:1283-1289.  `x` and `y` (`small_next`, `other_next`) are lost. -/
def intersectionStitchP [Ord T] : Nat → T → T → SetIter T → SetIter T → Nat → Exec (Outcome (Intersection T) ((Option T × Intersection T) × Nat))
  | 0, _, _, _, _, _ => .panic "fuel"
  | fuel + 1, x, y, i, j, cmps =>
    match cmpP (some x) (some y) .lt .lt cmps with
    | none => .ok (.unwound (.stitch i j) .cmp)
    | some (.lt, cmps) => do
      let n ← i.next
      match n.1 with
      | none => .ok (.done ((none, .stitch n.2 j), cmps))
      | some x' => intersectionStitchP fuel x' y n.2 j cmps
    | some (.gt, cmps) => do
      let n ← j.next
      match n.1 with
      | none => .ok (.done ((none, .stitch i n.2), cmps))
      | some y' => intersectionStitchP fuel x y' i n.2 cmps
    | some (.eq, cmps) => .ok (.done ((some x, .stitch i j), cmps))

/-- The loop of `Intersection::next` when searching: src/btree/set.rs:1294-1299. -/
def intersectionSearchP [Ord T] (o : BSet T) : Nat → SetIter T → Nat → Exec (Outcome (Intersection T) ((Option T × Intersection T) × Nat))
  | 0, _, _ => .panic "fuel"
  | fuel + 1, i, cmps => do
    let n ← i.next
    match n.1 with
    | none => .ok (.done ((none, .search n.2 o), cmps))
    | some x => do
      match ← o.containsP id x cmps with
      | none => .ok (.unwound (.search n.2 o) .cmp)
      | some (true, cmps) => .ok (.done ((some x, .search n.2 o), cmps))
      | some (false, cmps) => intersectionSearchP o fuel n.2 cmps

/-- src/btree/set.rs:1275-1301 `Intersection::next`. -/
def Intersection.nextP [Ord T] : Intersection T → Nat → Exec (Outcome (Intersection T) ((Option T × Intersection T) × Nat))
  | .stitch i j, cmps => do
    let n ← i.next
    match n.1 with
    | none => .ok (.done ((none, .stitch n.2 j), cmps))
    | some x => do
      let n' ← j.next
      match n'.1 with
      | none => .ok (.done ((none, .stitch n.2 n'.2), cmps))
      | some y => intersectionStitchP (n.2.len + n'.2.len + 1) x y n.2 n'.2 cmps
  | .search i o, cmps => intersectionSearchP o (i.len + 1) i cmps

/-- What is left of an iterator of kind `f`. -/
def Outcome.wrap {σ τ : Type} (f : σ → τ) : Outcome σ ((Option T × σ) × Nat) → Outcome τ ((Option T × τ) × Nat)
  | .done ((x, s), n) => .done ((x, f s), n)
  | .unwound s w => .unwound (f s) w

/-- `next` of the four. -/
def AlgView.nextP [Ord T] : AlgView T → Nat → Exec (Outcome (AlgView T) ((Option T × AlgView T) × Nat))
  | .difference d, cmps => do
    let r ← d.nextP cmps
    .ok (r.wrap .difference)
  | .symmetricDifference t, cmps => do
    let r ← symDiffLoopP (t.a.len + t.b.len + 1) t cmps
    .ok (r.wrap .symmetricDifference)
  | .intersection d, cmps => do
    let r ← d.nextP cmps
    .ok (r.wrap .intersection)
  | .union t, cmps => do
    let r ← t.unionNextP cmps
    .ok (r.wrap .union)

/-- Calls of `next`, each with its own number of comparisons that return; `none` is a call that panicked and was caught. -/
def AlgView.callsP [Ord T] : List Nat → AlgView T → Exec (List (Option (Option T)) × AlgView T)
  | [], v => .ok ([], v)
  | c :: cs, v => do
    match ← v.nextP c with
    | .done ((x, v), _) => do
      let r ← AlgView.callsP cs v
      .ok (some x :: r.1, r.2)
    | .unwound v _ => do
      let r ← AlgView.callsP cs v
      .ok (none :: r.1, r.2)

end Verif.BTree
