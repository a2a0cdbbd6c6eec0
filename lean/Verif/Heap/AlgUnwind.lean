import Verif.Heap.SetAlg
import Verif.Heap.UnwindOps
import Verif.BTree.AlgCost
/-
The set algebra of src/btree/set.rs in memory, when a comparison of elements panics.  The functions are those of Verif/Heap/SetAlg.lean; `cmps` is the number of
comparisons that still return, the next one panics.  What is left of an iterator whose `next` was unwound is what the code had stored in it at that moment: local
variables (`self_next`, `small_next`, `other_next`) are lost.  An operator that is unwound drops the iterator, which is nothing, and the unfinished set.
-/
namespace Verif.Heap
open Verif
open Verif.BTree (TIPPING cmpP)
open Verif.Spec (AlgKind)

variable {T : Type}

/-- What is left of an iterator of kind `f`. -/
abbrev wrapU {T σ τ : Type} (f : σ → τ) (o : BTree.Outcome σ ((Option T × σ) × Nat)) : BTree.Outcome τ ((Option T × τ) × Nat) := o.wrap f

/-- src/btree/set.rs:483-489 `contains`, src/btree/map.rs:687-693 `contains_key`: `none` if a comparison of the search panicked. -/
def HMap.setContainsU [Ord T] (m : HMap) (x : T) (cmps : Nat) : HM T Unit (Option (Bool × Nat)) := do
  let r ← m.getKeyValueU id x cmps
  match r with
  | none => pure none
  | some (r, cmps) => pure (some (r.isSome, cmps))

/-! ### `next` -/

/-- The loop of `Difference::next` when stitching: src/btree/set.rs:1171-1185.  `x` (`self_next`) has been taken out of `self_iter` and is lost. -/
def hdifferenceStitchU [Ord T] : Nat → T → HSetIter → HPeekable T → Nat → HM T Unit (BTree.Outcome (HDifference T) ((Option T × HDifference T) × Nat))
  | 0, _, _, _, _ => HM.panic "fuel"
  | fuel + 1, x, i, j, cmps => do
    let p ← j.peek
    match cmpP (some x) p.1 .lt .lt cmps with
    | none => pure (.unwound (.stitch i p.2) .cmp)
    | some (.lt, cmps) => pure (.done ((some x, .stitch i p.2), cmps))
    | some (.eq, cmps) => do
      let n ← i.next
      match n.1 with
      | none => pure (.done ((none, .stitch n.2 p.2), cmps))
      | some x' => do
        let j' ← p.2.next
        hdifferenceStitchU fuel x' n.2 j'.2 cmps
    | some (.gt, cmps) => do
      let j' ← p.2.next
      hdifferenceStitchU fuel x i j'.2 cmps

/-- The loop of `Difference::next` when searching: src/btree/set.rs:1190-1195. -/
def hdifferenceSearchU [Ord T] (o : HMap) : Nat → HSetIter → Nat → HM T Unit (BTree.Outcome (HDifference T) ((Option T × HDifference T) × Nat))
  | 0, _, _ => HM.panic "fuel"
  | fuel + 1, i, cmps => do
    let n ← i.next
    match n.1 with
    | none => pure (.done ((none, .search n.2 o), cmps))
    | some x => do
      let c ← o.setContainsU x cmps
      match c with
      | none => pure (.unwound (.search n.2 o) .cmp)
      | some (true, cmps) => hdifferenceSearchU o fuel n.2 cmps
      | some (false, cmps) => pure (.done ((some x, .search n.2 o), cmps))

/-- src/btree/set.rs:1164-1197 `Difference::next`. -/
def HDifference.nextU [Ord T] : HDifference T → Nat → HM T Unit (BTree.Outcome (HDifference T) ((Option T × HDifference T) × Nat))
  | .stitch i j, cmps => do
    let n ← i.next
    match n.1 with
    | none => pure (.done ((none, .stitch n.2 j), cmps))
    | some x => hdifferenceStitchU (j.len + 1) x n.2 j cmps
  | .search i o, cmps => hdifferenceSearchU o (i.len + 1) i cmps

/-- The loop of `SymmetricDifference::next`: src/btree/set.rs:1228-1239. -/
def hsymDiffLoopU [Ord T] : Nat → HTwoIters T → Nat → HM T Unit (BTree.Outcome (HTwoIters T) ((Option T × HTwoIters T) × Nat))
  | 0, _, _ => HM.panic "fuel"
  | fuel + 1, t, cmps => do
    let p ← t.a.peek
    let q ← t.b.peek
    match cmpP p.1 q.1 .gt .lt cmps with
    | none => pure (.unwound ⟨p.2, q.2⟩ .cmp)
    | some (.lt, cmps) => do
      let n ← p.2.next
      pure (.done ((n.1, ⟨n.2, q.2⟩), cmps))
    | some (.eq, cmps) => do
      let n ← p.2.next
      let n' ← q.2.next
      hsymDiffLoopU fuel ⟨n.2, n'.2⟩ cmps
    | some (.gt, cmps) => do
      let n ← q.2.next
      pure (.done ((n.1, ⟨p.2, n.2⟩), cmps))

/-- src/btree/set.rs:1228-1239 `SymmetricDifference::next`. -/
def HTwoIters.symDiffNextU [Ord T] (t : HTwoIters T) (cmps : Nat) : HM T Unit (BTree.Outcome (HTwoIters T) ((Option T × HTwoIters T) × Nat)) :=
  hsymDiffLoopU (t.a.len + t.b.len + 1) t cmps

/-- src/btree/set.rs:1328-1337 `Union::next`. -/
def HTwoIters.unionNextU [Ord T] (t : HTwoIters T) (cmps : Nat) : HM T Unit (BTree.Outcome (HTwoIters T) ((Option T × HTwoIters T) × Nat)) := do
  let p ← t.a.peek
  let q ← t.b.peek
  match cmpP p.1 q.1 .gt .lt cmps with
  | none => pure (.unwound ⟨p.2, q.2⟩ .cmp)
  | some (.lt, cmps) => do
    let n ← p.2.next
    pure (.done ((n.1, ⟨n.2, q.2⟩), cmps))
  | some (.eq, cmps) => do
    let n' ← q.2.next
    let n ← p.2.next
    pure (.done ((n.1, ⟨n.2, n'.2⟩), cmps))
  | some (.gt, cmps) => do
    let n ← q.2.next
    pure (.done ((n.1, ⟨p.2, n.2⟩), cmps))

/-- The loop of `Intersection::next` when stitching: src/btree/set.rs:1283-1289.  `x` and `y` (`small_next`, `other_next`) are lost. -/
def hintersectionStitchU [Ord T] : Nat → T → T → HSetIter → HSetIter → Nat → HM T Unit (BTree.Outcome HIntersection ((Option T × HIntersection) × Nat))
  | 0, _, _, _, _, _ => HM.panic "fuel"
  | fuel + 1, x, y, i, j, cmps =>
    match cmpP (some x) (some y) .lt .lt cmps with
    | none => pure (.unwound (.stitch i j) .cmp)
    | some (.lt, cmps) => do
      let n ← i.next
      match n.1 with
      | none => pure (.done ((none, .stitch n.2 j), cmps))
      | some x' => hintersectionStitchU fuel x' y n.2 j cmps
    | some (.gt, cmps) => do
      let n ← j.next
      match n.1 with
      | none => pure (.done ((none, .stitch i n.2), cmps))
      | some y' => hintersectionStitchU fuel x y' i n.2 cmps
    | some (.eq, cmps) => pure (.done ((some x, .stitch i j), cmps))

/-- The loop of `Intersection::next` when searching: src/btree/set.rs:1294-1299. -/
def hintersectionSearchU [Ord T] (o : HMap) : Nat → HSetIter → Nat → HM T Unit (BTree.Outcome HIntersection ((Option T × HIntersection) × Nat))
  | 0, _, _ => HM.panic "fuel"
  | fuel + 1, i, cmps => do
    let n ← i.next
    match n.1 with
    | none => pure (.done ((none, .search n.2 o), cmps))
    | some x => do
      let c ← o.setContainsU x cmps
      match c with
      | none => pure (.unwound (.search n.2 o) .cmp)
      | some (true, cmps) => pure (.done ((some x, .search n.2 o), cmps))
      | some (false, cmps) => hintersectionSearchU o fuel n.2 cmps

/-- src/btree/set.rs:1275-1301 `Intersection::next`. -/
def HIntersection.nextU [Ord T] : HIntersection → Nat → HM T Unit (BTree.Outcome HIntersection ((Option T × HIntersection) × Nat))
  | .stitch i j, cmps => do
    let n ← i.next
    match n.1 with
    | none => pure (.done ((none, .stitch n.2 j), cmps))
    | some x => do
      let n' ← j.next
      match n'.1 with
      | none => pure (.done ((none, .stitch n.2 n'.2), cmps))
      | some y => hintersectionStitchU (n.2.len + n'.2.len + 1) x y n.2 n'.2 cmps
  | .search i o, cmps => hintersectionSearchU o (i.len + 1) i cmps

/-- `next` of the four. -/
def HAlgView.nextU [Ord T] : HAlgView T → Nat → HM T Unit (BTree.Outcome (HAlgView T) ((Option T × HAlgView T) × Nat))
  | .difference d, cmps => do
    let r ← d.nextU cmps
    pure (wrapU .difference r)
  | .symmetricDifference t, cmps => do
    let r ← t.symDiffNextU cmps
    pure (wrapU .symmetricDifference r)
  | .intersection d, cmps => do
    let r ← d.nextU cmps
    pure (wrapU .intersection r)
  | .union t, cmps => do
    let r ← t.unionNextU cmps
    pure (wrapU .union r)

/-- Calls of `next`, each with its own number of comparisons that return; `none` is a call that panicked and was caught. -/
def HAlgView.callsU [Ord T] : List Nat → HAlgView T → HM T Unit (List (Option (Option T)) × HAlgView T)
  | [], v => pure ([], v)
  | c :: cs, v => do
    let r ← v.nextU c
    match r with
    | .done ((x, v), _) => do
      let r ← HAlgView.callsU cs v
      pure (some x :: r.1, r.2)
    | .unwound v _ => do
      let r ← HAlgView.callsU cs v
      pure (none :: r.1, r.2)

/-- `n` calls of `next` that are left undisturbed. -/
def HAlgView.rest [Ord T] : Nat → HAlgView T → HM T Unit (List (Option T))
  | 0, _ => pure []
  | n + 1, v => do
    let r ← v.next
    let xs ← r.2.rest n
    pure (r.1 :: xs)

/-! ### predicates -/

/-- src/btree/set.rs:535-537 `is_disjoint`. -/
def HMap.isDisjointU [Ord T] (s o : HMap) (cmps : Nat) : HM T Unit (Option (Bool × Nat)) := do
  let i ← s.intersection o
  let r ← i.nextU cmps
  match r with
  | .unwound _ _ => pure none
  | .done ((x, _), cmps) => pure (some (x.isNone, cmps))

/-- The stitching loop of `is_subset`: src/btree/set.rs:570-588. -/
def hsubsetStitchU [Ord T] : Nat → Option T → Option T → HSetIter → HSetIter → Nat → HM T Unit (Option (Bool × Nat))
  | 0, _, _, _, _, _ => HM.panic "fuel"
  | fuel + 1, a, b, x, y, cmps =>
    match a with
    | none => pure (some (true, cmps))
    | some a1 =>
      match b with
      | none => pure (some (false, cmps))
      | some b1 =>
        match cmps with
        | 0 => pure none
        | cmps + 1 =>
          match compare b1 a1 with
          | .lt => do
            let n ← y.next
            hsubsetStitchU fuel a n.1 x n.2 cmps
          | .gt => pure (some (false, cmps))
          | .eq => do
            let n ← x.next
            let n' ← y.next
            hsubsetStitchU fuel n.1 n'.1 n.2 n'.2 cmps

/-- The searching loop of `is_subset`: src/btree/set.rs:592-598. -/
def hsubsetSearchU [Ord T] (o : HMap) : Nat → HSetIter → Nat → HM T Unit (Option (Bool × Nat))
  | 0, _, _ => HM.panic "fuel"
  | fuel + 1, i, cmps => do
    let n ← i.next
    match n.1 with
    | none => pure (some (true, cmps))
    | some x => do
      let c ← o.setContainsU x cmps
      match c with
      | none => pure none
      | some (true, cmps) => hsubsetSearchU o fuel n.2 cmps
      | some (false, cmps) => pure (some (false, cmps))

/-- src/btree/set.rs:557-600 `is_subset`. -/
def HMap.isSubsetU [Ord T] (s o : HMap) (cmps : Nat) : HM T Unit (Option (Bool × Nat)) :=
  if o.length < s.length then pure (some (false, cmps))
  else if o.length / TIPPING < s.length then do
    let x ← s.setIter
    let y ← o.setIter
    let a ← x.next
    let b ← y.next
    hsubsetStitchU (o.length + 1) a.1 b.1 a.2 b.2 cmps
  else do
    let x ← s.setIter
    hsubsetSearchU o (s.length + 1) x cmps

/-- src/btree/set.rs:620-622 `is_superset`. -/
def HMap.isSupersetU [Ord T] (s o : HMap) (cmps : Nat) : HM T Unit (Option (Bool × Nat)) := o.isSubsetU s cmps

/-! ### the operators -/

/-- `.cloned().collect()` into a set (src/btree/set.rs:874-878, 917-921): `none` if a comparison panicked, of the iterator or of the insertion; the set so far. -/
def hcollectSetU [Ord T] {S : Type} (next : S → Nat → HM T Unit (BTree.Outcome S ((Option T × S) × Nat))) (fk : T → T) :
    Nat → S → HMap → Nat → HM T Unit (Option (Bool × Nat) × HMap)
  | 0, _, _, _ => HM.panic "fuel"
  | fuel + 1, s, m, cmps => do
    let r ← next s cmps
    match r with
    | .unwound _ _ => pure (none, m)
    | .done ((none, _), cmps) => pure (some (true, cmps), m)
    | .done ((some x, s), cmps) => do
      let p ← m.tryInsertU (fk x) () cmps
      match p with
      | (none, m) => pure (none, m)
      | (some (none, cmps), m) => pure (some (false, cmps), m)
      | (some (some _, cmps), m) => hcollectSetU next fk fuel s m cmps

/-- The end of `collect`: when it was unwound, the unfinished set is dropped (src/btree/set.rs:875); `none`: a comparison panicked. -/
def hcollectEndU (x : Option (Bool × Nat) × HMap) : HM T Unit (Option (Option HMap)) :=
  match x with
  | (none, m) => do
    let _ ← m.drop
    pure none
  | (some (b, _), m) => do
    let r ← hcollectEnd (b, m)
    pure (some r)

/-- The operators `-` (src/btree/set.rs:956-958), `^` (978-980), `&` (1000-1002), `|` (1022-1024): `none` if a comparison panicked. -/
def HMap.operatorU [Ord T] (s o : HMap) (fk : T → T) (k : AlgKind) (cmps : Nat) : HM T Unit (Option (Option HMap)) :=
  match k with
  | .difference => do
    let d ← s.difference o
    let x ← hcollectSetU HDifference.nextU fk (s.length + 1) d HMap.new cmps
    hcollectEndU x
  | .symmetricDifference => do
    let d ← s.twoIters o
    let x ← hcollectSetU HTwoIters.symDiffNextU fk (s.length + o.length + 1) d HMap.new cmps
    hcollectEndU x
  | .intersection => do
    let d ← s.intersection o
    let x ← hcollectSetU HIntersection.nextU fk (s.length + 1) d HMap.new cmps
    hcollectEndU x
  | .union => do
    let d ← s.twoIters o
    let x ← hcollectSetU HTwoIters.unionNextU fk (s.length + o.length + 1) d HMap.new cmps
    hcollectEndU x

end Verif.Heap
