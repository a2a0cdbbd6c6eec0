import Verif.Heap.Api
import Verif.Heap.Append
import Verif.BTree.Unwind
/-
Unwinding in memory: what is left, and what the destructors that run while the stack unwinds do, when a call of
src/btree/map.rs panics half-way.  A flag or `none` in the result stands for "the call panicked, and unwinding has left
it"; in Verif/Heap/Api.lean a panic ends the run.
-/
namespace Verif.Heap
open Verif
open Verif.Spec (End Op Out)
open Verif.BTree (CAPACITY Why)

variable {K V Q : Type}

/-- src/btree/map.rs:1796-1800 `extend`: whether it came to its end, and the map.  `expect("Out of Mem")` (1799) panics after `try_insert`
returned its error; the map belongs to the caller. -/
def HMap.extendU [Ord K] (m : HMap) : List (K × V) → HM K V (Bool × HMap)
  | [] => pure (true, m)
  | (k, v) :: rest => do
    let (r, m) ← m.tryInsert k v
    match r with
    | none => pure (false, m)
    | some _ => m.extendU rest

/-- src/btree/map.rs:1787-1791 `from_iter` (and src/btree/set.rs:874-878, and `collect`).  If `extend` panics the local variable `map` (1788)
is dropped while the stack unwinds; `none` if unwinding got past that. -/
def HMap.fromIterU [Ord K] (items : List (K × V)) : HM K V (Option HMap) := do
  let (b, m) ← HMap.new.extendU items
  if b then pure (some m)
  else do
    let _ ← m.drop
    pure none

/-! ### `append`

`fuel` is the number of comparisons of keys that still return; the next one panics.  `dropped` collects the pairs whose destructors have run. -/

/-- src/btree/map.rs:2662-2684 `MergeIter::next`: `none` if the comparison (2667) panicked, before anything was taken; otherwise the result, the
pair of the left map dropped (2680), and the comparisons left. -/
def HMerge.nextU [Ord K] (m : HMerge K V) (fuel : Nat) : HM K V (Option (Option (K × V) × List (K × V) × Nat) × HMerge K V) := do
  let a ← m.left.peek
  let b ← m.right.peek
  match a.1, b.1 with
  | none, none => pure (some (none, [], fuel), ⟨a.2, b.2⟩)
  | some _, none => do
    let x ← a.2.next
    pure (some (x.1, [], fuel), ⟨x.2, b.2⟩)
  | none, some _ => do
    let y ← b.2.next
    pure (some (y.1, [], fuel), ⟨a.2, y.2⟩)
  | some u, some v =>
    match fuel with
    | 0 => pure (none, ⟨a.2, b.2⟩)
    | fuel + 1 =>
      match compare u.1 v.1 with
      | .lt => do
        let x ← a.2.next
        pure (some (x.1, [], fuel), ⟨x.2, b.2⟩)
      | .gt => do
        let y ← b.2.next
        pure (some (y.1, [], fuel), ⟨a.2, y.2⟩)
      | .eq => do
        let x ← a.2.next
        let y ← b.2.next
        pure (some (y.1, x.1.toList, fuel), ⟨x.2, y.2⟩)

/-- One round of the search for a node with room: src/btree/map.rs:996-1013.  `.inr none`: `push_level` (1010) was refused. -/
def climbStepU (root : NRef) (cur : NRef) : HM K V (NRef ⊕ Option (NRef × NRef)) := do
  let p ← ascend cur
  match p with
  | some p => do
    let len ← lenOf p.node
    if len < CAPACITY then pure (.inr (some (p.ref, root)))
    else pure (.inl p.ref)
  | none => do
    let r ← pushLevel root
    match r with
    | none => pure (.inr none)
    | some r => pure (.inr (some (r, r)))

/-- src/btree/map.rs:1015-1025: `none` if a request for the new right subtree was refused; `right_tree` is a `Root`, which has no destructor, so
the nodes it already has are lost. -/
def growRightU (opn : NRef) (kv : K × V) : HM K V (Option NRef) := do
  let r ← newLeaf
  match r with
  | none => pure none
  | some r => do
    let x ← pushLevels (opn.height - 1) r
    if x.2 then do
      pushInternal opn kv x.1
      let e ← lastLeafEdge opn.height opn.node
      pure (some e.ref)
    else pure none

/-- The body of the `for` loop of `from_sorted_iter`: `cur_node` afterwards (`none` if it panicked), and the root, which `push_level` changes
in place.  src/btree/map.rs:988-1026. -/
def sortedPushU (root cur : NRef) (kv : K × V) : HM K V (Option NRef × NRef) := do
  let len ← lenOf cur.node
  if len < CAPACITY then do
    pushLeaf cur.node kv
    pure (some cur, root)
  else do
    let r ← loopN (climbStepU root) (root.height + 1) cur
    let r ← ended r
    match r with
    | none => pure (none, root)
    | some r => do
      let cur ← growRightU r.1 kv
      pure (cur, r.2)

/-- The state of the `for` loop of `from_sorted_iter`. -/
structure BuildingU (K V : Type) where
  iter : HMerge K V
  root : NRef
  cur : NRef
  length : Nat
  fuel : Nat
  dropped : List (K × V)

/-- One round of the `for` loop of `from_sorted_iter`, src/btree/map.rs:987-1029; when it ends, why it was unwound, if it was.  If it panics for want of
memory the pair `(key, value)` is dropped. -/
def buildStepU [Ord K] (s : BuildingU K V) : HM K V (BuildingU K V ⊕ (Option Why × BuildingU K V)) := do
  let x ← s.iter.nextU s.fuel
  match x.1 with
  | none => pure (.inr (some .cmp, { s with iter := x.2 }))
  | some (none, d, f) => pure (.inr (none, { s with iter := x.2, fuel := f, dropped := s.dropped ++ d }))
  | some (some kv, d, f) => do
    let r ← sortedPushU s.root s.cur kv
    match r.1 with
    | some c => pure (.inl ⟨x.2, r.2, c, s.length + 1, f, s.dropped ++ d⟩)
    | none => pure (.inr (some .mem, ⟨x.2, r.2, s.cur, s.length, f, s.dropped ++ d ++ [kv]⟩))

/-- src/btree/map.rs:983-1030 `from_sorted_iter` on the map `m`; `bnd` bounds the number of items the iterator still has.  The iterator is
dropped at the end of the loop as well as while unwinding: first `left`, then `right`. -/
def HMap.fromSortedIterU [Ord K] (m : HMap) (iter : HMerge K V) (bnd fuel : Nat) : HM K V (Option Why × HMap × List (K × V)) := do
  let r ← m.ensureRootIsOwned
  match r with
  | none => do
    let l ← iter.left.drop
    let r ← iter.right.drop
    pure (some .mem, m, l ++ r)
  | some m => do
    let e ← lastLeafEdge m.root.height m.root.node
    let r ← loopN buildStepU (bnd + 1) ⟨iter, m.root, e.ref, m.length, fuel, []⟩
    let x ← ended r
    let l ← x.2.iter.left.drop
    let r ← x.2.iter.right.drop
    pure (x.1, ⟨x.2.root, x.2.length⟩, x.2.dropped ++ l ++ r)

/-- src/btree/map.rs:830-853 `append`: `none` if it returned, otherwise why it was unwound; `self` and `other` afterwards, and the pairs dropped. -/
def HMap.appendU [Ord K] (m o : HMap) (fuel : Nat) : HM K V (Option Why × HMap × HMap × List (K × V)) :=
  if o.length = 0 then pure (none, m, o, [])
  else if m.length = 0 then pure (none, o, m, [])
  else do
    let l ← m.intoIter
    let r ← o.intoIter
    let n ← HMap.new.fromSortedIterU ⟨⟨l, m.root.height, none⟩, ⟨r, o.root.height, none⟩⟩ (m.length + o.length) fuel
    match n.1 with
    | none => do
      fixRightEdge n.2.1.root.height n.2.1.root.node
      pure (none, n.2.1, HMap.new, n.2.2)
    | some w => pure (some w, n.2.1, HMap.new, n.2.2)

/-! ### destructors that panic

`calm` is the number of destructors of pairs that still return; the next one panics.  (If a second one panics while the stack
unwinds, the process aborts.) -/

/-- `self.for_each(drop)`, src/btree/map.rs:1370: the pairs whose destructors ran, the last of them being the one that panicked unless the flag is `true`. -/
def HIntoIter.drainP (bnd : Nat) : (n : Nat) → (calm : Nat) → HIntoIter → HM K V (List (K × V) × Bool × HIntoIter)
  | 0, _, _ => HM.ub
  | n + 1, calm, it => do
    let (x, it) ← it.next bnd
    match x with
    | none => pure ([], true, it)
    | some kv =>
      match calm with
      | 0 => pure ([kv], false, it)
      | calm + 1 => do
        let (l, b, it) ← HIntoIter.drainP bnd n calm it
        pure (kv :: l, b, it)

/-- src/btree/map.rs:1368-1386 `Drop for IntoIter`: nothing guards the loop, so if it panics the items and nodes left are leaked (the fields of the
iterator have no destructor). -/
def HIntoIter.dropP (bnd calm : Nat) (it : HIntoIter) : HM K V (List (K × V) × Bool) := do
  let (l, b, it) ← it.drainP bnd (it.length + 1) calm
  if b then do
    if it.front.node = SHARED then pure (l, true)
    else do
      let r ← loopN freeUpStep (bnd + 1) it.front.ref
      ended r
      pure (l, true)
  else pure (l, false)

/-- src/btree/map.rs:129-135 `Drop for BTreeMap`. -/
def HMap.dropP (m : HMap) (calm : Nat) : HM K V (List (K × V) × Bool) := do
  let it ← m.intoIter
  it.dropP m.root.height calm

/-- src/btree/map.rs:608-610 `clear`: the pairs dropped, whether it returned, and the map.  The assignment stores the new map also if dropping the old one panics. -/
def HMap.clearP (m : HMap) (calm : Nat) : HM K V (List (K × V) × Bool × HMap) := do
  let (l, b) ← m.dropP calm
  pure (l, b, HMap.new)

/-- `into_iter` asked at the given ends and then dropped, src/btree/map.rs:1350-1467: what was handed out, the pairs dropped, and whether dropping returned. -/
def HMap.intoIterP (m : HMap) (es : List End) (calm : Nat) : HM K V (List (Option (K × V)) × List (K × V) × Bool) := do
  let it ← m.intoIter
  let xs ← it.asks m.root.height es
  let (l, b) ← xs.2.dropP m.root.height calm
  pure (xs.1, l, b)

/-- One call of a program in which `calm` destructors return and the next one panics, if the call is one of those that drop the entries of a map; the panic is
caught.  The answer, the pairs dropped by `clear` or by the iterator, whether the call returned, and the maps. -/
def Op.hcall [Ord K] [Ord Q] (bor : K → Q) (p : List HMap) : Op K V Q → Nat → HM K V (Out K V × List (K × V) × Bool × List HMap)
  | .clear i, calm =>
    match p[i]? with
    | some m => do
      let (l, b, m) ← m.clearP calm
      pure (.done, l, b, p.set i m)
    | none => pure (.skipped, [], true, p)
  | .intoIter i es, calm =>
    match p[i]? with
    | some m => do
      let (xs, l, b) ← m.intoIterP es calm
      pure (.items xs, l, b, p.set i HMap.new)
    | none => pure (.skipped, [], true, p)
  | op, _ => do
    let (o, p) ← Op.hrun bor p op
    pure (o, [], true, p)

/-- A program of such calls, up to the first insertion that fails: for each call the answer, the pairs dropped, and whether it returned; whether the program came to its end; its maps. -/
def Op.hcalls [Ord K] [Ord Q] (bor : K → Q) : List (Op K V Q × Nat) → List HMap → HM K V (List (Out K V × List (K × V) × Bool) × Bool × List HMap)
  | [], p => pure ([], true, p)
  | (op, calm) :: ops, p => do
    let r ← Op.hcall bor p op calm
    if Op.spoils op r.1 then pure ([(r.1, r.2.1, r.2.2.1)], false, r.2.2.2)
    else do
      let rs ← Op.hcalls bor ops r.2.2.2
      pure ((r.1, r.2.1, r.2.2.1) :: rs.1, rs.2)

end Verif.Heap
