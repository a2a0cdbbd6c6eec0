import Verif.Exec
/-
Level-1 model of src/btree/node.rs and src/btree/search.rs: nodes, trees of uniform height,
handles, and the node primitives.

Simplifications of level 1 (removed again at the slot/heap level, see Verif/Heap):
* the parallel arrays `keys`/`vals` are one list of pairs, holding exactly the first `len` slots;
* `edges` holds exactly the initialised edges;
* parent pointers are implicit: a `NodeRef` is the stack of edge indices leading to it from the root.
-/
namespace Verif.BTree
open Verif

/-- src/btree/node.rs:44 `const B`. -/
abbrev B : Nat := 6
/-- src/btree/node.rs:45 `MIN_LEN = B - 1`. -/
abbrev MIN_LEN : Nat := B - 1
/-- src/btree/node.rs:46 `CAPACITY = 2 * B - 1`. -/
abbrev CAPACITY : Nat := 2 * B - 1

/-- A node with everything below it: the first `len` key/value pairs and the initialised edges.  As in Rust
(`repr(C)`, `InternalNode` starts with `LeafNode`) the node itself does not know whether it is a leaf: the height
kept in `Root`/`NodeRef` decides, and a leaf has no edges.
Model of: `LeafNode` src/btree/node.rs:81-102, `InternalNode` 144-151, `BoxedNode` 169-175. -/
structure Tree (K V : Type) where
  kvs : List (K × V)
  edges : List (Tree K V)

variable {K V Q : Type}

/-- src/btree/node.rs:380-382 `NodeRef::len`. -/
def Tree.len (t : Tree K V) : Nat := t.kvs.length

/-- An empty leaf.  src/btree/node.rs:107-117 `LeafNode::new`, 228-235 `Root::new_leaf`. -/
def emptyLeaf : Tree K V := ⟨[], []⟩

/-- A position inside a node: the path of edge indices from the root to the node (innermost first, so the
head is the node's `parent_idx`) and an index of a pair or edge.
Model of: `NodeRef` src/btree/node.rs:344-350 and `Handle` src/btree/node.rs:871-875. -/
structure Handle where
  up : List Nat
  idx : Nat
deriving Repr, DecidableEq

/-- The same position seen from one level higher, through edge `i` of the new top node. -/
def Handle.under (hd : Handle) (i : Nat) : Handle := { hd with up := hd.up ++ [i] }

/-! ### search.rs -/

/-- The loop of `search_linear`, having already passed `i` keys.  src/btree/search.rs:58-65. -/
def searchFrom [Ord Q] (bor : K → Q) (q : Q) (i : Nat) : List (K × V) → Nat × Bool
  | [] => (i, false)
  | kv :: rest =>
    match compare q (bor kv.1) with
    | .gt => searchFrom bor q (i + 1) rest
    | .eq => (i, true)
    | .lt => (i, false)

/-- src/btree/search.rs:49-66 `search_linear`. `bor` is `Borrow::borrow`. -/
def searchLinear [Ord Q] (bor : K → Q) (q : Q) (kvs : List (K × V)) : Nat × Bool :=
  searchFrom bor q 0 kvs

/-- src/btree/search.rs:9-12 `SearchResult`. -/
inductive SearchResult where
  | found (h : Handle)
  | goDown (h : Handle)
deriving Repr, DecidableEq

/-- src/btree/search.rs:14-34 `search_tree` (with `search_node`, 36-47, inlined): at each node search linearly,
descend until found or at a leaf.  `up` is the path so far.  Recursion on the height replaces the loop. -/
def searchTree [Ord Q] (bor : K → Q) (q : Q) : (h : Nat) → Tree K V → List Nat → Exec SearchResult
  | 0, t, up =>
    match searchLinear bor q t.kvs with
    | (i, true) => .ok (.found ⟨up, i⟩)
    | (i, false) => .ok (.goDown ⟨up, i⟩)
  | h + 1, t, up =>
    match searchLinear bor q t.kvs with
    | (i, true) => .ok (.found ⟨up, i⟩)
    | (i, false) => do
      let c ← getE t.edges i
      searchTree bor q h c (i :: up)

/-! ### slices -/

/-- src/btree/node.rs:1662-1669 `slice_insert`. -/
def sliceInsert {α : Type} (l : List α) (idx : Nat) (x : α) : Exec (List α) :=
  if idx ≤ l.length then .ok (l.take idx ++ x :: l.drop idx) else .ub

/-- src/btree/node.rs:1671-1679 `slice_remove`: the removed element and the remaining list. -/
def sliceRemove {α : Type} (l : List α) (idx : Nat) : Exec (α × List α) := do
  let x ← getE l idx
  .ok (x, l.take idx ++ l.drop (idx + 1))

/-- Overwrite slot `idx` (`*ptr = x` / `mem::replace` on an initialised slot). -/
def setE {α : Type} (l : List α) (idx : Nat) (x : α) : Exec (List α) :=
  if idx < l.length then .ok (l.set idx x) else .ub

/-! ### node primitives -/

/-- Leaf `insert_fit`: src/btree/node.rs:997-1010. -/
def Tree.insertFitLeaf (t : Tree K V) (idx : Nat) (kv : K × V) : Exec (Tree K V) := do
  require (t.len < CAPACITY)
  let kvs ← sliceInsert t.kvs idx kv
  .ok { t with kvs := kvs }

/-- Internal `insert_fit`: the pair at `idx`, the edge at `idx + 1`.  src/btree/node.rs:1067-1089. -/
def Tree.insertFitInternal (t : Tree K V) (idx : Nat) (kv : K × V) (e : Tree K V) : Exec (Tree K V) := do
  require (t.len < CAPACITY)
  let kvs ← sliceInsert t.kvs idx kv
  let edges ← sliceInsert t.edges (idx + 1) e
  .ok { kvs := kvs, edges := edges }

/-- Leaf `split` at pair `idx` (allocation handled by the caller).  src/btree/node.rs:1189-1233. -/
def Tree.splitLeaf (t : Tree K V) (idx : Nat) : Exec (Tree K V × (K × V) × Tree K V) := do
  let kv ← getE t.kvs idx
  .ok ({ t with kvs := t.kvs.take idx }, kv, { kvs := t.kvs.drop (idx + 1), edges := [] })

/-- Internal `split` at pair `idx` (allocation handled by the caller).  src/btree/node.rs:1262-1312. -/
def Tree.splitInternal (t : Tree K V) (idx : Nat) : Exec (Tree K V × (K × V) × Tree K V) := do
  let kv ← getE t.kvs idx
  require (t.edges.length = t.kvs.length + 1)
  .ok ({ kvs := t.kvs.take idx, edges := t.edges.take (idx + 1) }, kv,
       { kvs := t.kvs.drop (idx + 1), edges := t.edges.drop (idx + 1) })

/-- Leaf `remove` of pair `idx`.  src/btree/node.rs:1237-1251. -/
def Tree.removeKv (t : Tree K V) (idx : Nat) : Exec (Tree K V × (K × V)) := do
  let (kv, kvs) ← sliceRemove t.kvs idx
  .ok ({ t with kvs := kvs }, kv)

/-- `NodeRef<Mut, Leaf>::push`: src/btree/node.rs:665-678. -/
def Tree.pushLeaf (t : Tree K V) (kv : K × V) : Exec (Tree K V) := do
  require (t.len < CAPACITY)
  .ok { t with kvs := t.kvs ++ [kv] }

/-- `NodeRef<Mut, Internal>::push`: src/btree/node.rs:698-720. -/
def Tree.pushInternal (t : Tree K V) (kv : K × V) (e : Tree K V) : Exec (Tree K V) := do
  require (t.len < CAPACITY)
  .ok { kvs := t.kvs ++ [kv], edges := t.edges ++ [e] }

/-- `push_front` of leaf (`e = none`, src/btree/node.rs:681-692) and internal node
(`e = some _`, src/btree/node.rs:735-756); `h` is the node's height.  `edge.unwrap()` (node.rs:1408) is the
mismatch case. -/
def Tree.pushFront (h : Nat) (t : Tree K V) (kv : K × V) (e : Option (Tree K V)) : Exec (Tree K V) := do
  require (t.len < CAPACITY)
  if h = 0 then .ok { t with kvs := kv :: t.kvs }
  else match e with
    | some e => .ok { kvs := kv :: t.kvs, edges := e :: t.edges }
    | none => .panic "called `Option::unwrap()` on a `None` value"

/-- `push` of leaf or internal node as dispatched in `steal_right`, src/btree/node.rs:1423-1426. -/
def Tree.pushAny (h : Nat) (t : Tree K V) (kv : K × V) (e : Option (Tree K V)) : Exec (Tree K V) :=
  if h = 0 then t.pushLeaf kv
  else match e with
    | some e => t.pushInternal kv e
    | none => .panic "called `Option::unwrap()` on a `None` value"

/-- `NodeRef::pop`: src/btree/node.rs:762-788. -/
def Tree.pop (h : Nat) (t : Tree K V) : Exec (Tree K V × (K × V) × Option (Tree K V)) := do
  require (0 < t.len)
  let idx := t.len - 1
  let kv ← getE t.kvs idx
  if h = 0 then .ok ({ t with kvs := t.kvs.take idx }, kv, none)
  else do
    let e ← getE t.edges (idx + 1)
    .ok ({ kvs := t.kvs.take idx, edges := t.edges.take (idx + 1) }, kv, some e)

/-- `NodeRef::pop_front`: src/btree/node.rs:792-830. -/
def Tree.popFront (h : Nat) (t : Tree K V) : Exec (Tree K V × (K × V) × Option (Tree K V)) := do
  require (0 < t.len)
  let (kv, kvs) ← sliceRemove t.kvs 0
  if h = 0 then .ok ({ t with kvs := kvs }, kv, none)
  else do
    let (e, edges) ← sliceRemove t.edges 0
    .ok ({ kvs := kvs, edges := edges }, kv, some e)

/-- `can_merge` around pair `i`.  src/btree/node.rs:1317-1322. -/
def canMerge (t : Tree K V) (i : Nat) : Exec Bool := do
  let l ← getE t.edges i
  let r ← getE t.edges (i + 1)
  .ok (decide (l.len + r.len + 1 ≤ CAPACITY))

/-- `merge` around pair `i`: left child, pair, right child become one child at edge `i`.
src/btree/node.rs:1329-1394. -/
def merge (t : Tree K V) (i : Nat) : Exec (Tree K V) := do
  let l ← getE t.edges i
  let r ← getE t.edges (i + 1)
  require (l.len + r.len + 1 ≤ CAPACITY)
  let (kv, kvs) ← sliceRemove t.kvs i
  let m : Tree K V := { kvs := l.kvs ++ kv :: r.kvs, edges := l.edges ++ r.edges }
  let (_, edges) ← sliceRemove t.edges (i + 1)
  let edges ← setE edges i m
  .ok { kvs := kvs, edges := edges }

/-- `steal_left` around pair `i`; `h` is the height of the two children.  src/btree/node.rs:1399-1411. -/
def stealLeft (h : Nat) (t : Tree K V) (i : Nat) : Exec (Tree K V) := do
  let l ← getE t.edges i
  let (l, kv, e) ← l.pop h
  let old ← getE t.kvs i
  let kvs ← setE t.kvs i kv
  let r ← getE t.edges (i + 1)
  let r ← r.pushFront h old e
  let edges ← setE t.edges i l
  let edges ← setE edges (i + 1) r
  .ok { kvs := kvs, edges := edges }

/-- `steal_right` around pair `i`; `h` is the height of the two children.  src/btree/node.rs:1416-1428. -/
def stealRight (h : Nat) (t : Tree K V) (i : Nat) : Exec (Tree K V) := do
  let r ← getE t.edges (i + 1)
  let (r, kv, e) ← r.popFront h
  let old ← getE t.kvs i
  let kvs ← setE t.kvs i kv
  let l ← getE t.edges i
  let l ← l.pushAny h old e
  let edges ← setE t.edges i l
  let edges ← setE edges (i + 1) r
  .ok { kvs := kvs, edges := edges }

/-- `bulk_steal_left(count)` around pair `i`.  src/btree/node.rs:1431-1485.  For leaf children the edge lists are
empty, so the edge moves are no-ops as in the `(Leaf, Leaf)` arm. -/
def bulkStealLeft (t : Tree K V) (i count : Nat) : Exec (Tree K V) := do
  let l ← getE t.edges i
  let r ← getE t.edges (i + 1)
  require (r.len + count ≤ CAPACITY)
  require (l.len ≥ count)
  require (0 < count)  -- `count - 1` at node.rs:1458 must not underflow
  let newLeftLen := l.len - count
  let parentKv ← getE t.kvs i
  let up ← getE l.kvs newLeftLen
  let r' :=
    { kvs := l.kvs.drop (newLeftLen + 1) ++ parentKv :: r.kvs, edges := l.edges.drop (newLeftLen + 1) ++ r.edges }
  let l' := { kvs := l.kvs.take newLeftLen, edges := l.edges.take (newLeftLen + 1) }
  let kvs ← setE t.kvs i up
  let edges ← setE t.edges i l'
  let edges ← setE edges (i + 1) r'
  .ok { kvs := kvs, edges := edges }

/-- `bulk_steal_right(count)` around pair `i`.  src/btree/node.rs:1488-1542. -/
def bulkStealRight (t : Tree K V) (i count : Nat) : Exec (Tree K V) := do
  let l ← getE t.edges i
  let r ← getE t.edges (i + 1)
  require (l.len + count ≤ CAPACITY)
  require (r.len ≥ count)
  require (0 < count)  -- `count - 1` at node.rs:1514 must not underflow
  let parentKv ← getE t.kvs i
  let up ← getE r.kvs (count - 1)
  let l' :=
    { kvs := l.kvs ++ parentKv :: r.kvs.take (count - 1), edges := l.edges ++ r.edges.take count }
  let r' := { kvs := r.kvs.drop count, edges := r.edges.drop count }
  let kvs ← setE t.kvs i up
  let edges ← setE t.edges i l'
  let edges ← setE edges (i + 1) r'
  .ok { kvs := kvs, edges := edges }

/-- `move_suffix` after edge `idx` into the (empty) node `right`, whose first edge is kept.
src/btree/node.rs:1602-1634. -/
def Tree.moveSuffix (t right : Tree K V) (idx : Nat) : Exec (Tree K V × Tree K V) := do
  require (idx ≤ t.len)
  require (right.len = 0)
  .ok ({ kvs := t.kvs.take idx, edges := t.edges.take (idx + 1) },
       { kvs := t.kvs.drop idx, edges := right.edges ++ t.edges.drop (idx + 1) })

end Verif.BTree
