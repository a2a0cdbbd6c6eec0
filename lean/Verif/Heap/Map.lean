import Verif.Heap.Node
import Verif.BTree.Map
import Verif.Spec
/-
Level-2 model of src/btree/map.rs (and search.rs): the same functions as Verif/BTree/Map.lean, but walking the memory
through `edges`, `parent` and `parent_idx` exactly as the code does.
-/
namespace Verif.Heap
open Verif
open Verif.BTree (B MIN_LEN CAPACITY)

variable {K V Q σ ρ : Type}

/-- A Rust `loop { .. }` whose body either goes round again with a new state or leaves with a result; `n` rounds of
it.  The callers pass a bound on the number of rounds (the height of the tree) and treat "still looping" as `ub`, so the
theorems also show that the bound is never hit. -/
def loopN (step : σ → HM K V (σ ⊕ ρ)) : Nat → σ → HM K V (σ ⊕ ρ)
  | 0, s => pure (.inl s)
  | n + 1, s => do
    let r ← step s
    match r with
    | .inl s => loopN step n s
    | .inr r => pure (.inr r)

/-- The result of a loop that must have ended. -/
def ended : σ ⊕ ρ → HM K V ρ
  | .inl _ => HM.ub
  | .inr r => pure r

/-- `BTreeMap`, src/btree/map.rs:120-123. -/
structure HMap where
  root : NRef
  length : Nat
deriving Repr, DecidableEq

/-- src/btree/map.rs:586-591 `new`. -/
def HMap.new : HMap := ⟨⟨0, SHARED⟩, 0⟩

/-! ### search.rs -/

/-- The loop of `search_linear` over keys `i .. i + n`, src/btree/search.rs:58-65. -/
def searchKeys [Ord Q] (bor : K → Q) (q : Q) (a : Addr) : (i n : Nat) → HM K V (Nat × Bool)
  | i, 0 => pure (i, false)
  | i, n + 1 => do
    let nd ← getNode a
    let k ← HM.lift (nd.keys.peek CAPACITY i)
    match compare q (bor k) with
    | .gt => searchKeys bor q a (i + 1) n
    | .eq => pure (i, true)
    | .lt => pure (i, false)

/-- src/btree/search.rs:49-66 `search_linear`, over `node.keys()`. -/
def searchLinear [Ord Q] (bor : K → Q) (q : Q) (a : Addr) : HM K V (Nat × Bool) := do
  let len ← lenOf a
  searchKeys bor q a 0 len

/-- src/btree/search.rs:9-12 `SearchResult`. -/
inductive Found where
  | found (h : HRef)
  | goDown (h : HRef)
deriving Repr, DecidableEq

/-- src/btree/search.rs:14-34 `search_tree` on the node at `a` of height `h`. -/
def searchTree [Ord Q] (bor : K → Q) (q : Q) : (h : Nat) → (a : Addr) → HM K V Found
  | 0, a => do
    let (i, b) ← searchLinear bor q a
    pure (if b then .found ⟨0, a, i⟩ else .goDown ⟨0, a, i⟩)
  | h + 1, a => do
    let (i, b) ← searchLinear bor q a
    if b then pure (.found ⟨h + 1, a, i⟩)
    else do
      let c ← descend ⟨h + 1, a, i⟩
      searchTree bor q h c.node

/-- src/btree/map.rs:635 and the like: `search::search_tree(self.root.as_ref(), key)`. -/
def HMap.search [Ord Q] (m : HMap) (bor : K → Q) (q : Q) : HM K V Found :=
  searchTree bor q m.root.height m.root.node

/-- `into_kv` of a handle, src/btree/node.rs:1149-1153. -/
def kvOf (h : HRef) : HM K V (K × V) := do
  let n ← getNode h.node
  HM.lift (n.peekKv h.idx)

/-- src/btree/map.rs:657-666 `get_key_value` (and `get` 630-639, which returns the value only). -/
def HMap.getKeyValue [Ord Q] (m : HMap) (bor : K → Q) (q : Q) : HM K V (Option (K × V)) := do
  let r ← m.search bor q
  match r with
  | .found h => do
    let kv ← kvOf h
    pure (some kv)
  | .goDown _ => pure none

/-- Writing through the `&mut V` of a handle: `mem::replace`, src/btree/map.rs:2550. -/
def setVal (h : HRef) (v : V) : HM K V V :=
  atNode h.node (fun n => do
    require (h.idx < n.len)
    let (old, vals) ← n.vals.take CAPACITY h.idx
    let vals ← vals.put CAPACITY h.idx v
    .ok (old, { n with vals := vals }))

/-- Writing through the `&mut K` of a handle: `mem::replace(handle.into_kv_mut().0, key)`, src/btree/map.rs:332. -/
def setKey (h : HRef) (k : K) : HM K V K :=
  atNode h.node (fun n => do
    require (h.idx < n.len)
    let (old, keys) ← n.keys.take CAPACITY h.idx
    let keys ← keys.put CAPACITY h.idx k
    .ok (old, { n with keys := keys }))

/-! ### insertion -/

/-- src/btree/map.rs:1236-1241 `ensure_root_is_owned`: `none` if out of memory. -/
def HMap.ensureRootIsOwned (m : HMap) : HM K V (Option HMap) :=
  if m.root.node = SHARED then do
    let r ← newLeaf
    pure (r.map fun r => { m with root := r })
  else pure (some m)

/-- The state of the loop of `VacantEntry::try_insert`: the left half of the node that split, the pair and the
right half to insert into its parent. -/
structure Carry (K V : Type) where
  left : NRef
  kv : K × V
  right : NRef

/-- One round of the loop of `try_insert`, src/btree/map.rs:2387-2405; `left.ascend()` at the end of the previous
round (2383, 2397) is done at the start of this one.  The result is the map's root and whether memory sufficed. -/
def insertStep (root : NRef) (c : Carry K V) : HM K V (Carry K V ⊕ (NRef × Bool)) := do
  let p ← ascend c.left
  match p with
  | some p => do
    let r ← insertInternal p c.kv c.right
    match r with
    | .fit _ => pure (.inr (root, true))
    | .oom => pure (.inr (root, false))
    | .split left kv right _ => pure (.inl ⟨left, kv, right⟩)
  | none => do
    let r ← pushLevel root
    match r with
    | none => pure (.inr (root, false))
    | some root => do
      pushInternal root c.kv c.right
      pure (.inr (root, true))

/-- src/btree/map.rs:2370-2407 `VacantEntry::try_insert`: the position of the new value, or out of memory. -/
def HMap.vacantInsert (m : HMap) (h : HRef) (kv : K × V) : HM K V (Option HRef × HMap) := do
  let length := m.length + 1
  let r ← insertLeaf h kv
  match r with
  | .fit pos => pure (some pos, { m with length := length })
  | .oom => pure (none, { m with length := length })
  | .split left kv right pos => do
    let r ← loopN (insertStep m.root) (m.root.height + 1) ⟨left, kv, right⟩
    let (root, ok) ← ended r
    pure (if ok then some pos else none, ⟨root, length⟩)

/-- `Entry`, src/btree/map.rs:504-510, 526-553. -/
inductive HEntry (K : Type) where
  | vacant (key : K) (h : HRef)
  | occupied (h : HRef)
deriving Repr, DecidableEq

/-- src/btree/map.rs:965-981 `try_entry`; `none` if out of memory. -/
def HMap.tryEntry [Ord K] (m : HMap) (k : K) : HM K V (Option (HEntry K) × HMap) := do
  let r ← m.ensureRootIsOwned
  match r with
  | none => pure (none, m)
  | some m => do
    let r ← m.search id k
    match r with
    | .found h => pure (some (.occupied h), m)
    | .goDown h => pure (some (.vacant k h), m)

/-- `Recover::replace`, src/btree/map.rs:328-343: `none` if out of memory, else the old key, if there was an equal one.  The source has it
for values `()` only; here `v` stands for that `()`. -/
def HMap.replaceKey [Ord K] (m : HMap) (k : K) (v : V) : HM K V (Option (Option K) × HMap) := do
  let r ← m.ensureRootIsOwned
  match r with
  | none => pure (none, m)
  | some m => do
    let r ← m.search id k
    match r with
    | .found h => do
      let old ← setKey h k
      pure (some (some old), m)
    | .goDown h => do
      let x ← m.vacantInsert h (k, v)
      match x.1 with
      | none => pure (none, x.2)
      | some _ => pure (some none, x.2)

/-- src/btree/map.rs:754-762 `try_insert`: `none` if out of memory. -/
def HMap.tryInsert [Ord K] (m : HMap) (k : K) (v : V) : HM K V (Option (Option V) × HMap) := do
  let (r, m) ← m.tryEntry k
  match r with
  | none => pure (none, m)
  | some (.occupied h) => do
    let old ← setVal h v
    pure (some (some old), m)
  | some (.vacant k h) => do
    let (r, m) ← m.vacantInsert h (k, v)
    pure (r.map fun _ => none, m)

/-! ### removal -/

/-- src/btree/map.rs:1872-1883 `first_leaf_edge` of the node at `a` of height `h`. -/
def firstLeafEdge : (h : Nat) → (a : Addr) → HM K V HRef
  | 0, a => newEdge ⟨0, a⟩ 0
  | h + 1, a => do
    let e ← newEdge ⟨h + 1, a⟩ 0
    let c ← descend e
    firstLeafEdge h c.node

/-- src/btree/map.rs:1885-1896 `last_leaf_edge`. -/
def lastLeafEdge : (h : Nat) → (a : Addr) → HM K V HRef
  | 0, a => do
    let len ← lenOf a
    newEdge ⟨0, a⟩ len
  | h + 1, a => do
    let len ← lenOf a
    let e ← newEdge ⟨h + 1, a⟩ len
    let c ← descend e
    lastLeafEdge h c.node

/-- src/btree/map.rs:2624-2629 `UnderflowResult`. -/
inductive Under where
  | atRoot
  | emptyParent
  | merged (parent : NRef)
  | stole
deriving Repr, DecidableEq

/-- src/btree/map.rs:2631-2660 `handle_underfull_node`. -/
def handleUnderfull (r : NRef) : HM K V Under := do
  let p ← ascend r
  match p with
  | none => pure .atRoot
  | some p => do
    let len ← lenOf p.node
    if 0 < p.idx then do
      let h ← newKv p.ref (p.idx - 1)
      let c ← canMerge h
      if c then do
        let e ← merge h
        pure (.merged e.ref)
      else do
        stealLeft h
        pure .stole
    else if p.idx < len then do
      let h ← newKv p.ref p.idx
      let c ← canMerge h
      if c then do
        let e ← merge h
        pure (.merged e.ref)
      else do
        stealRight h
        pure .stole
    else pure .emptyParent

/-- One round of the underflow loop, src/btree/map.rs:2602-2618; the result is the map's root. -/
def underflowStep (root : NRef) (cur : NRef) : HM K V (NRef ⊕ NRef) := do
  let len ← lenOf cur.node
  if len < CAPACITY / 2 then do
    let u ← handleUnderfull cur
    match u with
    | .atRoot => pure (.inr root)
    | .emptyParent => HM.panic "internal error: entered unreachable code"
    | .merged parent => do
      let plen ← lenOf parent.node
      if plen = 0 then do
        let root ← popLevel root
        pure (.inr root)
      else pure (.inl parent)
    | .stole => pure (.inr root)
  else pure (.inr root)

/-- The first half of `remove_kv`, src/btree/map.rs:2578-2599: take the pair out of the tree; also the leaf that
shrank. -/
def removeRaw (h : HRef) : HM K V ((K × V) × NRef) :=
  if h.height = 0 then do
    let kv ← removeLeaf h
    pure (kv, h.ref)
  else do
    let _ ← kvOf h  -- key_loc, val_loc
    let e ← newEdge h.ref (h.idx + 1)
    let c ← descend e
    let f ← firstLeafEdge c.height c.node
    let flen ← lenOf f.node
    HM.req (f.idx < flen)  -- `unwrap_unchecked(right_kv().ok())`
    let kv ← removeLeaf f
    let old ← atNode h.node (fun n => n.replaceKv h.idx kv)
    pure (old, f.ref)

/-- src/btree/map.rs:2575-2621 `remove_kv`. -/
def HMap.removeKv (m : HMap) (h : HRef) : HM K V ((K × V) × HMap) := do
  HM.req (0 < m.length)
  let (old, leaf) ← removeRaw h
  let r ← loopN (underflowStep m.root) (m.root.height + 1) leaf
  let root ← ended r
  pure (old, ⟨root, m.length - 1⟩)

/-- src/btree/map.rs:783-799 `remove` (the whole pair). -/
def HMap.removeEntry [Ord Q] (m : HMap) (bor : K → Q) (q : Q) : HM K V (Option (K × V) × HMap) := do
  let r ← m.search bor q
  match r with
  | .found h => do
    let (kv, m) ← m.removeKv h
    pure (some kv, m)
  | .goDown _ => pure (none, m)

/-! ### IntoIter -/

/-- src/btree/map.rs:387-391 `IntoIter`; the set's `IntoIter` (src/btree/set.rs:898-902, `size_hint` and `len` 1081-1083, 1095-1097) is one with values `()`. -/
structure HIntoIter where
  front : HRef
  back : HRef
  length : Nat
deriving Repr, DecidableEq

/-- src/btree/map.rs:1354-1365 `into_iter`. -/
def HMap.intoIter (m : HMap) : HM K V HIntoIter := do
  let f ← firstLeafEdge m.root.height m.root.node
  let b ← lastLeafEdge m.root.height m.root.node
  pure ⟨f, b, m.length⟩

/-- `ptr::read` of the pair at a handle (`kv.reborrow().into_kv()`; `new_kv`'s `debug_assert`). -/
def readKv (h : HRef) : HM K V (K × V) :=
  atNode h.node (fun n => do
    require (h.idx < n.len)
    n.takeKv h.idx)

/-- One round of the ascending loop of `IntoIter::next`, src/btree/map.rs:1411-1423. -/
def intoNextStep (e : HRef) : HM K V (HRef ⊕ ((K × V) × HRef)) := do
  let len ← lenOf e.node
  if e.idx < len then do
    let kv ← readKv e
    let re ← newEdge e.ref (e.idx + 1)
    let c ← descend re
    let f ← firstLeafEdge c.height c.node
    pure (.inr (kv, f))
  else do
    let p ← deallocateAndAscend e.ref
    match p with
    | some p => pure (.inl p)
    | none => HM.ub  -- unwrap_unchecked(None)

/-- src/btree/map.rs:1390-1424 `IntoIter::next` (of the set, without the `()`: src/btree/set.rs:1076-1078).  The bound `bnd` on the rounds of the loop is the height of the
tree. -/
def HIntoIter.next (bnd : Nat) (it : HIntoIter) : HM K V (Option (K × V) × HIntoIter) :=
  if it.length = 0 then pure (none, it)
  else do
    let length := it.length - 1
    let len ← lenOf it.front.node
    if it.front.idx < len then do
      let kv ← readKv it.front
      let f ← newEdge it.front.ref (it.front.idx + 1)
      pure (some kv, { it with front := f, length := length })
    else do
      let p ← deallocateAndAscend it.front.ref
      match p with
      | none => HM.ub
      | some p => do
        let r ← loopN intoNextStep bnd p
        let (kv, f) ← ended r
        pure (some kv, { it with front := f, length := length })

/-- One round of the ascending loop of `next_back`, src/btree/map.rs:1454-1466. -/
def intoNextBackStep (e : HRef) : HM K V (HRef ⊕ ((K × V) × HRef)) := do
  if 0 < e.idx then do
    let kv ← readKv ⟨e.height, e.node, e.idx - 1⟩
    let le ← newEdge e.ref (e.idx - 1)
    let c ← descend le
    let b ← lastLeafEdge c.height c.node
    pure (.inr (kv, b))
  else do
    let p ← deallocateAndAscend e.ref
    match p with
    | some p => pure (.inl p)
    | none => HM.ub

/-- src/btree/map.rs:1433-1467 `IntoIter::next_back` (src/btree/set.rs:1088-1090). -/
def HIntoIter.nextBack (bnd : Nat) (it : HIntoIter) : HM K V (Option (K × V) × HIntoIter) :=
  if it.length = 0 then pure (none, it)
  else do
    let length := it.length - 1
    if 0 < it.back.idx then do
      let kv ← readKv ⟨it.back.height, it.back.node, it.back.idx - 1⟩
      let b ← newEdge it.back.ref (it.back.idx - 1)
      pure (some kv, { it with back := b, length := length })
    else do
      let p ← deallocateAndAscend it.back.ref
      match p with
      | none => HM.ub
      | some p => do
        let r ← loopN intoNextBackStep bnd p
        let (kv, b) ← ended r
        pure (some kv, { it with back := b, length := length })

/-- Calling `next` or `next_back`. -/
def HIntoIter.ask (bnd : Nat) (it : HIntoIter) : Spec.End → HM K V (Option (K × V) × HIntoIter)
  | .front => it.next bnd
  | .back => it.nextBack bnd

/-- A sequence of such calls. -/
def HIntoIter.asks (bnd : Nat) : List Spec.End → HIntoIter → HM K V (List (Option (K × V)) × HIntoIter)
  | [], it => pure ([], it)
  | e :: es, it => do
    let x ← it.ask bnd e
    let r ← HIntoIter.asks bnd es x.2
    pure (x.1 :: r.1, r.2)

/-- `self.for_each(drop)`: `next` until `None`; the items dropped, in order.  `n` bounds the number of calls. -/
def HIntoIter.drain (bnd : Nat) : (n : Nat) → HIntoIter → HM K V (List (K × V) × HIntoIter)
  | 0, _ => HM.ub
  | n + 1, it => do
    let (x, it) ← it.next bnd
    match x with
    | none => pure ([], it)
    | some kv => do
      let (l, it) ← HIntoIter.drain bnd n it
      pure (kv :: l, it)

/-- One round of `while let Some(parent) = cur_node.deallocate_and_ascend()`, src/btree/map.rs:1379-1381. -/
def freeUpStep (r : NRef) : HM K V (NRef ⊕ Unit) := do
  let p ← deallocateAndAscend r
  match p with
  | some p => pure (.inl p.ref)
  | none => pure (.inr ())

/-- src/btree/map.rs:1368-1386 `Drop for IntoIter`: the dropped items. -/
def HIntoIter.drop (bnd : Nat) (it : HIntoIter) : HM K V (List (K × V)) := do
  let (l, it) ← it.drain bnd (it.length + 1)
  if it.front.node = SHARED then pure l
  else do
    let r ← loopN freeUpStep (bnd + 1) it.front.ref
    ended r
    pure l

/-- src/btree/map.rs:129-135 `Drop for BTreeMap`: the dropped entries. -/
def HMap.drop (m : HMap) : HM K V (List (K × V)) := do
  let it ← m.intoIter
  it.drop m.root.height

end Verif.Heap
