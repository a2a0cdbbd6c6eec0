import Verif.Heap.Bulk
/-
Level-2 model of `append` (src/btree/map.rs:830-853, 983-1052, 2662-2684) on memory: the two consuming iterators that
take the old trees apart, the merge of what they yield, and the tree built from it from left to right.
-/
namespace Verif.Heap
open Verif
open Verif.BTree (B MIN_LEN CAPACITY)

variable {K V Q σ ρ : Type}

/-- `iter::Peekable<IntoIter<K, V>>` as `MergeIter` uses it (src/btree/map.rs:842-845); `bnd` is the height of the tree
taken apart (see `HIntoIter.next`). -/
structure Peek (K V : Type) where
  it : HIntoIter
  bnd : Nat
  peeked : Option (Option (K × V))

/-- `Peekable::peek`: ask the iterator unless it has been asked already. -/
def Peek.peek (p : Peek K V) : HM K V (Option (K × V) × Peek K V) :=
  match p.peeked with
  | some x => pure (x, p)
  | none => do
    let x ← p.it.next p.bnd
    pure (x.1, { p with it := x.2, peeked := some x.1 })

/-- `Peekable::next`. -/
def Peek.next (p : Peek K V) : HM K V (Option (K × V) × Peek K V) :=
  match p.peeked with
  | some x => pure (x, { p with peeked := none })
  | none => do
    let x ← p.it.next p.bnd
    pure (x.1, { p with it := x.2 })

/-- src/btree/map.rs:565-568 `MergeIter`. -/
structure HMerge (K V : Type) where
  left : Peek K V
  right : Peek K V

/-- src/btree/map.rs:2662-2684 `MergeIter::next`. -/
def HMerge.next [Ord K] (m : HMerge K V) : HM K V (Option (K × V) × HMerge K V) := do
  let a ← m.left.peek
  let b ← m.right.peek
  match a.1, b.1 with
  | none, none => pure (none, ⟨a.2, b.2⟩)
  | some _, none => do
    let x ← a.2.next
    pure (x.1, ⟨x.2, b.2⟩)
  | none, some _ => do
    let y ← b.2.next
    pure (y.1, ⟨a.2, y.2⟩)
  | some u, some v =>
    match compare u.1 v.1 with
    | .lt => do
      let x ← a.2.next
      pure (x.1, ⟨x.2, b.2⟩)
    | .gt => do
      let y ← b.2.next
      pure (y.1, ⟨a.2, y.2⟩)
    | .eq => do
      let x ← a.2.next
      let y ← b.2.next
      pure (y.1, ⟨x.2, y.2⟩)

/-- Dropping a `Peekable`: what was dropped. -/
def Peek.drop (p : Peek K V) : HM K V (List (K × V)) := do
  let l ← p.it.drop p.bnd
  match p.peeked with
  | some (some x) => pure (l ++ [x])
  | _ => pure l

/-- One round of the loop of `from_sorted_iter` that looks for a node with room, starting from the full node `cur`; the result
is `open_node` and the map's root.  src/btree/map.rs:996-1013. -/
def climbStep (root : NRef) (cur : NRef) : HM K V (NRef ⊕ (NRef × NRef)) := do
  let p ← ascend cur
  match p with
  | some p => do
    let len ← lenOf p.node
    if len < CAPACITY then pure (.inr (p.ref, root))
    else pure (.inl p.ref)
  | none => do
    let r ← pushLevel root
    match r with
    | none => HM.panic "Out of Mem"
    | some r => pure (.inr (r, r))

/-- Push the pair and a new empty right subtree into `open_node`, then go down to the last leaf.
src/btree/map.rs:1015-1025. -/
def growRight (opn : NRef) (kv : K × V) : HM K V NRef := do
  let r ← newLeaf
  match r with
  | none => HM.panic "Out of Mem"
  | some r => do
    let x ← pushLevels (opn.height - 1) r
    if x.2 then do
      pushInternal opn kv x.1
      let e ← lastLeafEdge opn.height opn.node
      pure e.ref
    else HM.panic "Out of Mem"

/-- The body of the `for` loop of `from_sorted_iter`: `cur_node` and the root afterwards.  src/btree/map.rs:988-1026. -/
def sortedPush (root cur : NRef) (kv : K × V) : HM K V (NRef × NRef) := do
  let len ← lenOf cur.node
  if len < CAPACITY then do
    pushLeaf cur.node kv
    pure (cur, root)
  else do
    let r ← loopN (climbStep root) (root.height + 1) cur
    let r ← ended r
    let cur ← growRight r.1 kv
    pure (cur, r.2)

/-- The state of the `for` loop of `from_sorted_iter`. -/
structure Building (K V : Type) where
  iter : HMerge K V
  root : NRef
  cur : NRef
  length : Nat

/-- One round of the `for` loop of `from_sorted_iter`, src/btree/map.rs:987-1029. -/
def buildStep [Ord K] (s : Building K V) : HM K V (Building K V ⊕ Building K V) := do
  let x ← s.iter.next
  match x.1 with
  | none => pure (.inr { s with iter := x.2 })
  | some kv => do
    let r ← sortedPush s.root s.cur kv
    pure (.inl ⟨x.2, r.2, r.1, s.length + 1⟩)

/-- src/btree/map.rs:983-1030 `from_sorted_iter` on the map `m`; `bnd` bounds the number of items the iterator still has.  The
iterator, given by value, is dropped at the end of the loop. -/
def HMap.fromSortedIter [Ord K] (m : HMap) (iter : HMerge K V) (bnd : Nat) : HM K V HMap := do
  let r ← m.ensureRootIsOwned
  match r with
  | none => HM.panic "Out Of Mem"
  | some m => do
    let e ← lastLeafEdge m.root.height m.root.node
    let r ← loopN buildStep (bnd + 1) ⟨iter, m.root, e.ref, m.length⟩
    let s ← ended r
    let _ ← s.iter.left.drop
    let _ ← s.iter.right.drop
    pure ⟨s.root, s.length⟩

/-- src/btree/map.rs:1032-1052 `fix_right_edge` from the node of height `h` at `a`. -/
def fixRightEdge : (h : Nat) → (a : Addr) → HM K V Unit
  | 0, _ => pure ()
  | h + 1, a => do
    let len ← lenOf a
    let e ← newEdge ⟨h + 1, a⟩ len
    let c ← descend e
    let rl ← lenOf c.node
    if rl < MIN_LEN then do
      if 0 < e.idx then bulkStealLeft ⟨h + 1, a, e.idx - 1⟩ (MIN_LEN - rl)
      else HM.panic "internal error: entered unreachable code"
      let e ← newEdge ⟨h + 1, a⟩ (e.idx - 1 + 1)
      let c ← descend e
      fixRightEdge h c.node
    else do
      let c ← descend e
      fixRightEdge h c.node

/-- src/btree/map.rs:830-853 `append`: `(self, other)` afterwards. -/
def HMap.append [Ord K] (m o : HMap) : HM K V (HMap × HMap) :=
  if o.length = 0 then pure (m, o)
  else if m.length = 0 then pure (o, m)
  else do
    let l ← m.intoIter
    let r ← o.intoIter
    let n ← HMap.new.fromSortedIter ⟨⟨l, m.root.height, none⟩, ⟨r, o.root.height, none⟩⟩ (m.length + o.length)
    fixRightEdge n.root.height n.root.node
    pure (n, HMap.new)

end Verif.Heap
