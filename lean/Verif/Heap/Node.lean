import Verif.Heap.Mem
/-
Level-2 model of the node operations of src/btree/node.rs, statement by statement, on memory.
-/
namespace Verif.Heap
open Verif
open Verif.BTree (B MIN_LEN CAPACITY)

variable {K V : Type}

/-- src/btree/node.rs:152 `[_; 2 * B]`: the number of edge slots. -/
abbrev EDGES : Nat := 2 * B

/-- `NodeRef`, src/btree/node.rs:344-350 (the `root` pointer is passed as a value where it is needed, so `into_root_mut` 615-617 is the map's own root), and
`Root`/`BoxedNode` 173-175, 204-207.  The functions that only change the type of a reference give the same `NRef`: `as_ptr` 197-199, `as_ref` 237-244, `as_mut` 246-253,
`into_ref` 255-262, `clone` 354-356, `forget_type` 392-399, `reborrow` 402-409, `cast_unchecked` 514-521, `reborrow_mut` 533-540.  The field `height` is `height()`
386-388, and `force` 839-860 is the test `height = 0`. -/
structure NRef where
  height : Nat
  node : Addr
deriving Repr, DecidableEq

/-- `Handle`, src/btree/node.rs:871-875: a node and the index of an edge or of a pair.  `clone` 881-883, `reborrow` 927-934, `reborrow_mut` 948-957 and `cast_unchecked`
1058-1062 give the same handle; `force` 1578-1596 is the test `height = 0`. -/
structure HRef where
  height : Nat
  node : Addr
  idx : Nat
deriving Repr, DecidableEq

/-- The node of a handle, `into_node`, src/btree/node.rs:890-892. -/
def HRef.ref (h : HRef) : NRef := ⟨h.height, h.node⟩

/-- src/btree/node.rs:963-972 `Handle::new_edge`: `debug_assert!(idx <= node.len())`.  With the indices `0` and `len` it is `first_edge` 459-461 and `last_edge` 463-466; with those
of a pair and one more, `left_edge` 906-908 and `right_edge` 910-912. -/
def newEdge (r : NRef) (idx : Nat) : HM K V HRef := do
  let n ← lenOf r.node
  HM.req (idx ≤ n)
  pure ⟨r.height, r.node, idx⟩

/-- src/btree/node.rs:895-904 `Handle::new_kv`: `debug_assert!(idx < node.len())`.  `left_kv` 974-980 and `right_kv` 982-988 are this after a test of the index, which is
written out where they are called. -/
def newKv (r : NRef) (idx : Nat) : HM K V HRef := do
  let n ← lenOf r.node
  HM.req (idx < n)
  pure ⟨r.height, r.node, idx⟩

/-- src/btree/node.rs:438-457 `ascend`: the edge of the parent that points to this node, `none` at the root. -/
def ascend (r : NRef) : HM K V (Option HRef) :=
  if r.node = SHARED then pure none  -- the header of the shared root has a null parent
  else do
    let n ← getNode r.node
    match n.parent with
    | none => pure none
    | some p =>
      match n.pidx with
      | some i => pure (some ⟨r.height + 1, p, i⟩)
      | none => HM.ub  -- reading an uninitialised `parent_idx`

/-- Reading the pointer in edge slot `i` of an internal node (`as_internal().edges.get_unchecked(i)`, `as_internal` src/btree/node.rs:366-368 and `as_internal_mut` 372-374). -/
def Node.peekEdge (n : Node K V) (i : Nat) : Exec Addr :=
  if n.lay = .internal then n.edges.peek EDGES i else .ub

/-- src/btree/node.rs:1132-1147 `descend`. -/
def descend (h : HRef) : HM K V NRef := do
  HM.req (0 < h.height)  -- `self.node.height - 1`
  let n ← getNode h.node
  let c ← HM.lift (n.peekEdge h.idx)
  pure ⟨h.height - 1, c⟩

/-- src/btree/node.rs:1046-1054 `correct_parent_link` (with `new_edge`'s `debug_assert`). -/
def correctParentLink (a : Addr) (i : Nat) : HM K V Unit := do
  let n ← getNode a
  HM.req (i ≤ n.len)
  let c ← HM.lift (n.peekEdge i)
  atNode c (fun m => .ok ((), { m with parent := some a, pidx := some i }))

/-- `for i in first..first + n { Handle::new_edge(node, i).correct_parent_link() }`,
src/btree/node.rs:722-726 `correct_childrens_parent_links`, 728-731 `correct_all_childrens_parent_links`, and the inlined copies of that loop. -/
def correctLinks (a : Addr) : (first n : Nat) → HM K V Unit
  | _, 0 => pure ()
  | i, n + 1 => do
    correctParentLink a i
    correctLinks a (i + 1) n

/-- `(*node.as_leaf_mut()).parent = ptr::null()`. -/
def setParentNull (a : Addr) : HM K V Unit :=
  atNode a (fun n => .ok ((), { n with parent := none }))

/-! ### operations on the fields of one node -/

/-- Leaf `insert_fit`, src/btree/node.rs:997-1010 (also run on internal nodes, 1073). -/
def Node.insertKv (n : Node K V) (idx : Nat) (k : K) (v : V) : Exec (Node K V) := do
  require (n.len < CAPACITY)
  let keys ← n.keys.sliceInsert CAPACITY n.len idx k
  let vals ← n.vals.sliceInsert CAPACITY n.len idx v
  .ok { n with keys := keys, vals := vals, len := n.len + 1 }

/-- `slice_insert` on the first `slen` edges, src/btree/node.rs:1075-1082, 744-751. -/
def Node.insertEdge (n : Node K V) (slen idx : Nat) (e : Addr) : Exec (Node K V) :=
  if n.lay = .internal then do
    let edges ← n.edges.sliceInsert EDGES slen idx e
    .ok { n with edges := edges }
  else .ub

/-- `slice_remove` on the first `slen` edges, src/btree/node.rs:807-813, 1364. -/
def Node.removeEdge (n : Node K V) (slen idx : Nat) : Exec (Addr × Node K V) :=
  if n.lay = .internal then do
    let (e, edges) ← n.edges.sliceRemove EDGES slen idx
    .ok (e, { n with edges := edges })
  else .ub

/-- `slice_remove` of key and value (`len` is adjusted by the caller). -/
def Node.removeKv (n : Node K V) (idx : Nat) : Exec ((K × V) × Node K V) := do
  let (k, keys) ← n.keys.sliceRemove CAPACITY n.len idx
  let (v, vals) ← n.vals.sliceRemove CAPACITY n.len idx
  .ok ((k, v), { n with keys := keys, vals := vals })

/-- `ptr::read` of key and value at `idx`. -/
def Node.takeKv (n : Node K V) (idx : Nat) : Exec ((K × V) × Node K V) := do
  let (k, keys) ← n.keys.take CAPACITY idx
  let (v, vals) ← n.vals.take CAPACITY idx
  .ok ((k, v), { n with keys := keys, vals := vals })

/-- `ptr::write` of key and value at `idx`. -/
def Node.putKv (n : Node K V) (idx : Nat) (kv : K × V) : Exec (Node K V) := do
  let keys ← n.keys.put CAPACITY idx kv.1
  let vals ← n.vals.put CAPACITY idx kv.2
  .ok { n with keys := keys, vals := vals }

/-- References to key and value at `idx`: `into_kv`, src/btree/node.rs:1149-1153, through `vals` 428-430, `into_val_slice` 598-604 and `into_slices` 606-609. -/
def Node.peekKv (n : Node K V) (idx : Nat) : Exec (K × V) := do
  let k ← n.keys.peek CAPACITY idx
  let v ← n.vals.peek CAPACITY idx
  .ok (k, v)

/-- `mem::replace` of key and value at `idx` through `into_kv_mut`, src/btree/node.rs:1157-1165 (with
`vals_mut` 552-554, `into_val_slice_mut` 634-642, `into_slices_mut` 644-660). -/
def Node.replaceKv (n : Node K V) (idx : Nat) (kv : K × V) : Exec ((K × V) × Node K V) := do
  require (idx < n.len)
  let (old, n) ← n.takeKv idx
  let n ← n.putKv idx kv
  .ok (old, n)

/-- `len = new`. -/
def Node.setLen (n : Node K V) (len : Nat) : Node K V := { n with len := len }

/-- Moving `count` pairs inside a node: the two `ptr::copy` on keys and vals. -/
def Node.shiftKv (n : Node K V) (i j count : Nat) : Exec (Node K V) := do
  let keys ← n.keys.copyWithin CAPACITY i j count
  let vals ← n.vals.copyWithin CAPACITY i j count
  .ok { n with keys := keys, vals := vals }

/-- Moving `count` edges inside a node: `ptr::copy` on edges, src/btree/node.rs:1473, 1533. -/
def Node.shiftEdges (n : Node K V) (i j count : Nat) : Exec (Node K V) :=
  if n.lay = .internal then do
    let edges ← n.edges.copyWithin EDGES i j count
    .ok { n with edges := edges }
  else .ub

/-- src/btree/node.rs:1545-1554 `move_kv` (and the pairs of `copy_nonoverlapping` in `split`, `merge`). -/
def moveKv (src dst : Addr) (i j count : Nat) : HM K V Unit :=
  atNodes src dst (fun s d => do
    let (sk, dk) ← s.keys.moveTo d.keys CAPACITY i j count
    let (sv, dv) ← s.vals.moveTo d.vals CAPACITY i j count
    .ok ({ s with keys := sk, vals := sv }, { d with keys := dk, vals := dv }))

/-- `copy_nonoverlapping` on edges. -/
def moveEdgesRaw (src dst : Addr) (i j count : Nat) : HM K V Unit :=
  atNodes src dst (fun s d =>
    if s.lay = .internal ∧ d.lay = .internal then do
      let (se, de) ← s.edges.moveTo d.edges EDGES i j count
      .ok ({ s with edges := se }, { d with edges := de })
    else .ub)

/-- src/btree/node.rs:1557-1572 `move_edges`. -/
def moveEdges (src dst : Addr) (i j count : Nat) : HM K V Unit := do
  moveEdgesRaw src dst i j count
  correctLinks dst j count

/-! ### push, pop -/

/-- `NodeRef<Mut, Leaf>::push`, src/btree/node.rs:665-678. -/
def pushLeaf (a : Addr) (kv : K × V) : HM K V Unit :=
  atNode a (fun n => do
    require (n.len < CAPACITY)
    let n' ← n.putKv n.len kv
    .ok ((), n'.setLen (n.len + 1)))

/-- `NodeRef<Mut, Internal>::push`, src/btree/node.rs:698-720. -/
def pushInternal (r : NRef) (kv : K × V) (e : NRef) : HM K V Unit := do
  HM.req (e.height + 1 = r.height)
  let idx ← lenOf r.node
  HM.req (idx < CAPACITY)
  atNode r.node (fun n => do
    let n ← n.putKv idx kv
    if n.lay = .internal then do
      let edges ← n.edges.put EDGES (idx + 1) e.node
      .ok ((), { n with edges := edges, len := idx + 1 })
    else .ub)
  correctParentLink r.node (idx + 1)

/-- `NodeRef<Mut, Leaf>::push_front`, src/btree/node.rs:681-692. -/
def pushFrontLeaf (a : Addr) (kv : K × V) : HM K V Unit :=
  atNode a (fun n => do
    let n ← n.insertKv 0 kv.1 kv.2
    .ok ((), n))

/-- `NodeRef<Mut, Internal>::push_front`, src/btree/node.rs:735-756. -/
def pushFrontInternal (r : NRef) (kv : K × V) (e : NRef) : HM K V Unit := do
  HM.req (e.height + 1 = r.height)
  let len ← lenOf r.node
  atNode r.node (fun n => do
    require (n.len < CAPACITY)
    let keys ← n.keys.sliceInsert CAPACITY n.len 0 kv.1
    let vals ← n.vals.sliceInsert CAPACITY n.len 0 kv.2
    let n ← ({ n with keys := keys, vals := vals } : Node K V).insertEdge (n.len + 1) 0 e.node
    .ok ((), n.setLen (n.len + 1)))
  correctLinks r.node 0 (len + 2)  -- correct_all_childrens_parent_links, 728-731

/-- `NodeRef::pop`, src/btree/node.rs:762-788. -/
def pop (r : NRef) : HM K V ((K × V) × Option NRef) := do
  let len ← lenOf r.node
  HM.req (0 < len)
  let kv ← atNode r.node (fun n => n.takeKv (len - 1))
  let e ← (if r.height = 0 then pure none
    else do
      let e ← atNode r.node (fun n =>
        if n.lay = .internal then do
          let (e, edges) ← n.edges.take EDGES len
          .ok (e, { n with edges := edges })
        else .ub)
      setParentNull e
      pure (some ⟨r.height - 1, e⟩))
  atNode r.node (fun n => .ok ((), n.setLen (len - 1)))
  pure (kv, e)

/-- `NodeRef::pop_front`, src/btree/node.rs:792-830. -/
def popFront (r : NRef) : HM K V ((K × V) × Option NRef) := do
  let len ← lenOf r.node
  HM.req (0 < len)
  let kv ← atNode r.node (fun n => n.removeKv 0)
  let e ← (if r.height = 0 then pure none
    else do
      let e ← atNode r.node (fun n => n.removeEdge (len + 1) 0)
      setParentNull e
      correctLinks r.node 0 len
      pure (some ⟨r.height - 1, e⟩))
  atNode r.node (fun n => .ok ((), n.setLen (len - 1)))
  pure (kv, e)

/-! ### insert, split -/

/-- Internal `insert_fit`, src/btree/node.rs:1067-1089. -/
def insertFitInternal (h : HRef) (kv : K × V) (e : NRef) : HM K V Unit := do
  HM.req (e.height + 1 = h.height)
  let len ← lenOf h.node
  atNode h.node (fun n => do
    let n ← n.insertKv h.idx kv.1 kv.2
    .ok ((), n))
  atNode h.node (fun n => do
    let n ← n.insertEdge n.len (h.idx + 1) e.node
    .ok ((), n))
  correctLinks h.node (h.idx + 1) ((len + 1 + 1) - (h.idx + 1))

/-- Leaf `insert_fit`, src/btree/node.rs:997-1010. -/
def insertFitLeaf (h : HRef) (kv : K × V) : HM K V Unit :=
  atNode h.node (fun n => do
    let n ← n.insertKv h.idx kv.1 kv.2
    .ok ((), n))

/-- Leaf `split`, src/btree/node.rs:1189-1233: the pair at the handle and the new right node; `none`: out of
memory, nothing changed. -/
def splitLeaf (h : HRef) : HM K V (Option ((K × V) × NRef)) := do
  let new ← allocNode .leaf
  match new with
  | none => pure none
  | some new => do
    let len ← lenOf h.node
    HM.req (h.idx < len)
    let kv ← atNode h.node (fun n => n.takeKv h.idx)
    let newLen := len - h.idx - 1
    moveKv h.node new (h.idx + 1) 0 newLen
    atNode h.node (fun n => .ok ((), n.setLen h.idx))
    atNode new (fun n => .ok ((), n.setLen newLen))
    pure (some (kv, ⟨0, new⟩))

/-- Internal `split`, src/btree/node.rs:1262-1312. -/
def splitInternal (h : HRef) : HM K V (Option ((K × V) × NRef)) := do
  let new ← allocNode .internal
  match new with
  | none => pure none
  | some new => do
    let len ← lenOf h.node
    HM.req (h.idx < len)
    let kv ← atNode h.node (fun n => n.takeKv h.idx)
    let newLen := len - h.idx - 1
    moveKv h.node new (h.idx + 1) 0 newLen
    moveEdgesRaw h.node new (h.idx + 1) 0 (newLen + 1)
    atNode h.node (fun n => .ok ((), n.setLen h.idx))
    atNode new (fun n => .ok ((), n.setLen newLen))
    correctLinks new 0 (newLen + 1)
    pure (some (kv, ⟨h.height, new⟩))

/-- The result of an insertion step, `InsertResult` src/btree/node.rs:1641-1644 without the handles the callers drop;
`pos` is where the newly inserted pair of this step is (`*mut V`). -/
inductive Ins (K V : Type) where
  | fit (pos : HRef)
  | split (left : NRef) (kv : K × V) (right : NRef) (pos : HRef)
  | oom

/-- Leaf `insert`, src/btree/node.rs:1016-1041. -/
def insertLeaf (h : HRef) (kv : K × V) : HM K V (Ins K V) := do
  let len ← lenOf h.node
  if len < CAPACITY then do
    insertFitLeaf h kv
    pure (.fit h)
  else do
    let mid ← newKv h.ref B
    let r ← splitLeaf mid
    match r with
    | none => pure .oom
    | some (kv', right) =>
      if h.idx ≤ B then do
        let e ← newEdge h.ref h.idx
        insertFitLeaf e kv
        pure (.split h.ref kv' right e)
      else do
        let e ← newEdge right (h.idx - (B + 1))
        insertFitLeaf e kv
        pure (.split h.ref kv' right e)

/-- Internal `insert`, src/btree/node.rs:1094-1125. -/
def insertInternal (h : HRef) (kv : K × V) (edge : NRef) : HM K V (Ins K V) := do
  HM.req (edge.height + 1 = h.height)
  let len ← lenOf h.node
  if len < CAPACITY then do
    insertFitInternal h kv edge
    pure (.fit h)
  else do
    let mid ← newKv h.ref B
    let r ← splitInternal mid
    match r with
    | none => pure .oom
    | some (kv', right) =>
      if h.idx ≤ B then do
        let e ← newEdge h.ref h.idx
        insertFitInternal e kv edge
        pure (.split h.ref kv' right e)
      else do
        let e ← newEdge right (h.idx - (B + 1))
        insertFitInternal e kv edge
        pure (.split h.ref kv' right e)

/-- Leaf `remove`, src/btree/node.rs:1237-1251. -/
def removeLeaf (h : HRef) : HM K V (K × V) :=
  atNode h.node (fun n => do
    let (kv, n') ← n.removeKv h.idx
    require (0 < n.len)
    .ok (kv, n'.setLen (n.len - 1)))

/-! ### rebalancing -/

/-- Left and right child of the pair `h`: `left_edge().descend()`, `right_edge().descend()`. -/
def children (h : HRef) : HM K V (NRef × NRef) := do
  let le ← newEdge h.ref h.idx
  let l ← descend le
  let re ← newEdge h.ref (h.idx + 1)
  let r ← descend re
  pure (l, r)

/-- src/btree/node.rs:1317-1322 `can_merge`. -/
def canMerge (h : HRef) : HM K V Bool := do
  let (l, r) ← children h
  let ll ← lenOf l.node
  let rl ← lenOf r.node
  pure (decide (ll + rl + 1 ≤ CAPACITY))

/-- src/btree/node.rs:1329-1394 `merge`. -/
def merge (h : HRef) : HM K V HRef := do
  let (l, r) ← children h
  let ll ← lenOf l.node
  let rl ← lenOf r.node
  HM.req (ll + rl + 1 ≤ CAPACITY)
  let len ← lenOf h.node
  let kv ← atNode h.node (fun n => n.removeKv h.idx)
  atNode l.node (fun n => do
    let n ← n.putKv ll kv
    .ok ((), n))
  moveKv r.node l.node 0 (ll + 1) rl
  let _ ← atNode h.node (fun n => n.removeEdge EDGES (h.idx + 1))
  correctLinks h.node (h.idx + 1) (len - (h.idx + 1))
  atNode h.node (fun n => .ok ((), n.setLen (len - 1)))
  atNode l.node (fun n => .ok ((), n.setLen (ll + (rl + 1))))
  if 1 < h.height then do
    moveEdgesRaw r.node l.node 0 (ll + 1) (rl + 1)
    correctLinks l.node (ll + 1) (rl + 1)
    freeNode r.node .internal
  else
    freeNode r.node .leaf
  newEdge h.ref h.idx

/-- `push_front` / `push` as dispatched by `force()` in `steal_left` and `steal_right`; `edge.unwrap()`. -/
def pushFrontAny (r : NRef) (kv : K × V) (e : Option NRef) : HM K V Unit :=
  if r.height = 0 then pushFrontLeaf r.node kv
  else match e with
    | some e => pushFrontInternal r kv e
    | none => HM.panic "called `Option::unwrap()` on a `None` value"

/-- See `pushFrontAny`; src/btree/node.rs:1423-1426. -/
def pushAny (r : NRef) (kv : K × V) (e : Option NRef) : HM K V Unit :=
  if r.height = 0 then pushLeaf r.node kv
  else match e with
    | some e => pushInternal r kv e
    | none => HM.panic "called `Option::unwrap()` on a `None` value"

/-- src/btree/node.rs:1399-1411 `steal_left`. -/
def stealLeft (h : HRef) : HM K V Unit := do
  let le ← newEdge h.ref h.idx
  let l ← descend le
  let (kv, e) ← pop l
  let old ← atNode h.node (fun n => n.replaceKv h.idx kv)
  let re ← newEdge h.ref (h.idx + 1)
  let r ← descend re
  pushFrontAny r old e

/-- src/btree/node.rs:1416-1428 `steal_right`. -/
def stealRight (h : HRef) : HM K V Unit := do
  let re ← newEdge h.ref (h.idx + 1)
  let r ← descend re
  let (kv, e) ← popFront r
  let old ← atNode h.node (fun n => n.replaceKv h.idx kv)
  let le ← newEdge h.ref h.idx
  let l ← descend le
  pushAny l old e

/-- The pointer `parent_kv` of `bulk_steal_*` (from `into_kv_pointers_mut`, src/btree/node.rs:832-834): moving the pair of the parent out. -/
def takeKvAt (a : Addr) (i : Nat) : HM K V (K × V) := atNode a (fun n => n.takeKv i)

/-- Writing a pair to a slot that has been moved out of. -/
def putKvAt (a : Addr) (i : Nat) (kv : K × V) : HM K V Unit :=
  atNode a (fun n => do
    let n ← n.putKv i kv
    .ok ((), n))

/-- src/btree/node.rs:1431-1485 `bulk_steal_left`. -/
def bulkStealLeft (h : HRef) (count : Nat) : HM K V Unit := do
  let (l, r) ← children h
  let ll ← lenOf l.node
  let rl ← lenOf r.node
  HM.req (rl + count ≤ CAPACITY)
  HM.req (count ≤ ll)
  HM.req (0 < count)  -- `count - 1`, 1458
  let newLeft := ll - count
  -- Make room for stolen elements in the right child.
  atNode r.node (fun n => do
    let n ← n.shiftKv 0 count rl
    .ok ((), n))
  -- Move elements from the left child to the right one.
  moveKv l.node r.node (newLeft + 1) 0 (count - 1)
  -- Move parent's key/value pair to the right child.
  let pkv ← takeKvAt h.node h.idx
  putKvAt r.node (count - 1) pkv
  -- Move the left-most stolen pair to the parent.
  let lkv ← takeKvAt l.node newLeft
  putKvAt h.node h.idx lkv
  atNode l.node (fun n => .ok ((), n.setLen (ll - count)))
  atNode r.node (fun n => .ok ((), n.setLen (rl + count)))
  if 0 < l.height ∧ 0 < r.height then do
    atNode r.node (fun n => do
      let n ← n.shiftEdges 0 count (rl + 1)
      .ok ((), n))
    correctLinks r.node count (rl + 1)
    moveEdges l.node r.node (newLeft + 1) 0 count
  else if l.height = 0 ∧ r.height = 0 then pure ()
  else HM.panic "internal error: entered unreachable code"

/-- src/btree/node.rs:1488-1542 `bulk_steal_right`. -/
def bulkStealRight (h : HRef) (count : Nat) : HM K V Unit := do
  let (l, r) ← children h
  let ll ← lenOf l.node
  let rl ← lenOf r.node
  HM.req (ll + count ≤ CAPACITY)
  HM.req (count ≤ rl)
  HM.req (0 < count)
  let newRight := rl - count
  -- Move parent's key/value pair to the left child.
  let pkv ← takeKvAt h.node h.idx
  putKvAt l.node ll pkv
  -- Move elements from the right child to the left one.
  moveKv r.node l.node 0 (ll + 1) (count - 1)
  -- Move the right-most stolen pair to the parent.
  let rkv ← takeKvAt r.node (count - 1)
  putKvAt h.node h.idx rkv
  -- Fix right indexing
  atNode r.node (fun n => do
    let n ← n.shiftKv count 0 newRight
    .ok ((), n))
  atNode l.node (fun n => .ok ((), n.setLen (ll + count)))
  atNode r.node (fun n => .ok ((), n.setLen (rl - count)))
  if 0 < l.height ∧ 0 < r.height then do
    moveEdges r.node l.node 0 (ll + 1) count
    atNode r.node (fun n => do
      let n ← n.shiftEdges count 0 (newRight + 1)
      .ok ((), n))
    correctLinks r.node 0 (newRight + 1)
  else if l.height = 0 ∧ r.height = 0 then pure ()
  else HM.panic "internal error: entered unreachable code"

/-- src/btree/node.rs:1602-1634 `move_suffix`. -/
def moveSuffix (h : HRef) (right : NRef) : HM K V Unit := do
  let ll ← lenOf h.node
  HM.req (h.idx ≤ ll)
  let rightNew := ll - h.idx
  let rl ← lenOf right.node
  HM.req (rl = 0)
  HM.req (h.height = right.height)
  moveKv h.node right.node h.idx 0 rightNew
  atNode h.node (fun n => .ok ((), n.setLen h.idx))
  atNode right.node (fun n => .ok ((), n.setLen rightNew))
  if 0 < h.height ∧ 0 < right.height then
    moveEdges h.node right.node (h.idx + 1) 1 rightNew
  else if h.height = 0 ∧ right.height = 0 then pure ()
  else HM.panic "internal error: entered unreachable code"

/-! ### root -/

/-- src/btree/node.rs:228-235 `Root::new_leaf`. -/
def newLeaf : HM K V (Option NRef) := do
  let a ← allocNode .leaf
  pure (a.map fun a => ⟨0, a⟩)

/-- src/btree/node.rs:264-289 `push_level`: the new root, or `none` (nothing changed) if out of memory. -/
def pushLevel (root : NRef) : HM K V (Option NRef) := do
  HM.req (root.node ≠ SHARED)
  let a ← allocNode .internal
  match a with
  | none => pure none
  | some a => do
    atNode a (fun n => do
      let edges ← n.edges.put EDGES 0 root.node
      .ok ((), { n with edges := edges }))
    correctParentLink a 0
    pure (some ⟨root.height + 1, a⟩)

/-- src/btree/node.rs:294-319 `pop_level`. -/
def popLevel (root : NRef) : HM K V NRef := do
  HM.req (0 < root.height)
  let e ← newEdge root 0
  let c ← descend e
  setParentNull c.node
  freeNode root.node .internal
  pure c

/-- src/btree/node.rs:487-496 and 502-510 `deallocate_and_ascend` of a leaf and of an internal node. -/
def deallocateAndAscend (r : NRef) : HM K V (Option HRef) := do
  HM.req (r.node ≠ SHARED)
  let p ← ascend r
  freeNode r.node (if r.height = 0 then .leaf else .internal)
  pure p

end Verif.Heap
