import Verif.BTree.Node
/-
Level-1 model of src/btree/map.rs: construction, lookup, entries, insertion, removal.

Mutation through `&mut` is modelled by returning the new value.  A handle into the tree is the stack of edge
indices from the root (`Handle.up`, innermost first) plus an index; every function below re-walks that
path from the root, where the Rust code follows raw pointers.  `usize` counters are `Nat`: `length` counts
pairs that are in memory, so it cannot overflow a machine word.
-/
namespace Verif.BTree
open Verif

variable {K V Q β : Type}

/-- `BTreeMap`: root node of some height, whether the root is the shared static empty node, and the cached
length.  src/btree/map.rs:124-127, `Root` src/btree/node.rs:204-207. -/
structure Map (K V : Type) where
  height : Nat
  root : Tree K V
  shared : Bool
  length : Nat

/-- src/btree/map.rs:586-591 `new` (and 1821 `default`); the root is the static `EMPTY_ROOT_NODE`
(src/btree/node.rs:131-137, 216-225). -/
def Map.new : Map K V := ⟨0, emptyLeaf, true, 0⟩

/-- src/btree/map.rs:608-610 `clear`: drops everything (see `Map.intoIter`) and starts over. -/
def Map.clear (_ : Map K V) : Map K V := Map.new

/-- src/btree/map.rs:2164-2166 `len`. -/
def Map.len (m : Map K V) : Nat := m.length
/-- src/btree/map.rs:2184-2186 `is_empty`. -/
def Map.isEmpty (m : Map K V) : Bool := m.len == 0

/-! ### walking to a node -/

/-- The node reached from `t` by following edges `p` (outermost first).
Model of: `descend` src/btree/node.rs:1130-1146 iterated. -/
def nodeAt : (h : Nat) → Tree K V → List Nat → Exec (Nat × Tree K V)
  | h, t, [] => .ok ⟨h, t⟩
  | 0, _, _ :: _ => .ub
  | h + 1, t, i :: p => do
    let c ← getE t.edges i
    nodeAt h c p

/-- Run a node operation in place at the node reached by path `p`, and report its result.
Model of: any `&mut` access through a `NodeRef`. -/
def modifyAt (f : (h : Nat) → Tree K V → Exec (Tree K V × β)) :
    (h : Nat) → Tree K V → List Nat → Exec (Tree K V × β)
  | h, t, [] => f h t
  | 0, _, _ :: _ => .ub
  | h + 1, t, i :: p => do
    let c ← getE t.edges i
    let (c, b) ← modifyAt f h c p
    let edges ← setE t.edges i c
    .ok ({ t with edges := edges }, b)

/-- The pair a KV handle points to.  src/btree/node.rs:1151-1154 `into_kv`. -/
def kvAt (h : Nat) (t : Tree K V) (hd : Handle) : Exec (K × V) := do
  let n ← nodeAt h t hd.up.reverse
  getE n.2.kvs hd.idx

/-- src/btree/node.rs:1151-1154 `into_kv` at map level. -/
def Map.kvAt (m : Map K V) (hd : Handle) : Exec (K × V) := BTree.kvAt m.height m.root hd

/-- `mem::replace` of a whole pair, key and value (`key_loc`/`val_loc`).  src/btree/map.rs:2594-2595. -/
def replaceKv (h : Nat) (t : Tree K V) (p : List Nat) (idx : Nat) (kv : K × V) :
    Exec (Tree K V × (K × V)) :=
  modifyAt (fun _ n => do
    let old ← getE n.kvs idx
    let kvs ← setE n.kvs idx kv
    .ok ({ n with kvs := kvs }, old)) h t p

/-- Write a value through the `&mut V` that a KV handle yields, returning the old value.
Model of: `into_kv_mut` src/btree/node.rs:1157-1166, `kv_mut` 1170-1178, `mem::replace` map.rs:2550. -/
def Map.setVal (m : Map K V) (hd : Handle) (v : V) : Exec (Map K V × V) := do
  let (k, _) ← m.kvAt hd
  let (t, old) ← replaceKv m.height m.root hd.up.reverse hd.idx (k, v)
  .ok ({ m with root := t }, old.2)

/-! ### lookup -/

/-- `search_tree` from the root.  src/btree/map.rs:635, search.rs:14-34. -/
def Map.search [Ord Q] (m : Map K V) (bor : K → Q) (q : Q) : Exec SearchResult :=
  searchTree bor q m.height m.root []

/-- src/btree/map.rs:657-666 `get_key_value`. -/
def Map.getKeyValue [Ord Q] (m : Map K V) (bor : K → Q) (q : Q) : Exec (Option (K × V)) := do
  match ← m.search bor q with
  | .found hd => do
    let kv ← m.kvAt hd
    .ok (some kv)
  | .goDown _ => .ok none

/-- src/btree/map.rs:630-639 `get`. -/
def Map.get [Ord Q] (m : Map K V) (bor : K → Q) (q : Q) : Exec (Option V) := do
  match ← m.search bor q with
  | .found hd => do
    let kv ← m.kvAt hd
    .ok (some kv.2)
  | .goDown _ => .ok none

/-- src/btree/map.rs:687-693 `contains_key`. -/
def Map.containsKey [Ord Q] (m : Map K V) (bor : K → Q) (q : Q) : Exec Bool := do
  let r ← m.get bor q
  .ok r.isSome

/-- src/btree/map.rs:716-725 `get_mut`: the reference is the handle of the pair. -/
def Map.getMut [Ord Q] (m : Map K V) (bor : K → Q) (q : Q) : Exec (Option Handle) := do
  match ← m.search bor q with
  | .found hd => .ok (some hd)
  | .goDown _ => .ok none

/-- src/btree/map.rs:1867-1869 `Index::index`. -/
def Map.index [Ord Q] (m : Map K V) (bor : K → Q) (q : Q) : Exec V := do
  match ← m.get bor q with
  | some v => .ok v
  | none => .panic "no entry found for key"

/-! ### insertion -/

/-- src/btree/map.rs:1236-1241 `ensure_root_is_owned`, `new_leaf` src/btree/node.rs:228-235. -/
def Map.ensureRootIsOwned (m : Map K V) (a : Alloc) : Res Unit × Map K V × Alloc :=
  if m.shared then
    let (granted, a) := a.request
    if granted then (.ok (), { m with height := 0, root := emptyLeaf, shared := false }, a)
    else (.error .allocError, m, a)
  else (.ok (), m, a)

/-- What an insertion that fails takes away: the pair it destroys (the arguments of a refused leaf insertion, src/btree/node.rs:1016-1041; the pair between
the halves of a node whose parent could not take it, 1094-1125), and the half that is then left without an owner (`edge: Root`, which has no destructor),
with its height. -/
structure Gone (K V : Type) where
  pair : K × V
  half : Option (Nat × Tree K V)

/-- Where the freshly inserted value ended up, relative to the result of an insertion step. -/
inductive InsertRes (K V : Type) where
  /-- The node had room (or absorbed the split below it). -/
  | fit (t : Tree K V) (loc : Handle)
  /-- The node split; `inRight` says which half contains the inserted value. -/
  | split (l : Tree K V) (kv : K × V) (r : Tree K V) (inRight : Bool) (loc : Handle)
  /-- An allocation failed; `t` is what is left of the subtree, `gone` what is not in it any more. -/
  | oom (t : Tree K V) (gone : Gone K V)

/-- Leaf `insert`: src/btree/node.rs:1016-1041, `split` 1189-1233 (its allocation comes first). -/
def leafInsert (t : Tree K V) (idx : Nat) (kv : K × V) (a : Alloc) : Exec (InsertRes K V × Alloc) :=
  if t.len < CAPACITY then do
    let t ← t.insertFitLeaf idx kv
    .ok (.fit t ⟨[], idx⟩, a)
  else
    let (granted, a) := a.request
    if granted then do
      let (l, mid, r) ← t.splitLeaf B
      if idx ≤ B then do
        let l ← l.insertFitLeaf idx kv
        .ok (.split l mid r false ⟨[], idx⟩, a)
      else do
        let r ← r.insertFitLeaf (idx - (B + 1)) kv
        .ok (.split l mid r true ⟨[], idx - (B + 1)⟩, a)
    else .ok (.oom t ⟨kv, none⟩, a)

/-- Internal `insert` at edge `i` of a child that split into (edge `i`, `kv`, `edge`):
src/btree/node.rs:1094-1125, `split` 1262-1312.  `inRight`/`loc` locate the inserted value in the child's
halves; the result locates it in this node (or its halves).  When the allocation fails `kv` and `edge` are dropped:
`kv` is destroyed and `edge : Root` has no destructor, so that subtree leaks (`loc` starts in a leaf of it or of its sibling, so the length of its path is the
height of `edge`). -/
def internalInsert (t : Tree K V) (i : Nat) (kv : K × V) (edge : Tree K V)
    (inRight : Bool) (loc : Handle) (a : Alloc) : Exec (InsertRes K V × Alloc) :=
  let at_ (j : Nat) : Handle := loc.under (if inRight then j + 1 else j)
  if t.len < CAPACITY then do
    let t ← t.insertFitInternal i kv edge
    .ok (.fit t (at_ i), a)
  else
    let (granted, a) := a.request
    if granted then do
      let (l, mid, r) ← t.splitInternal B
      if i ≤ B then do
        let l ← l.insertFitInternal i kv edge
        .ok (.split l mid r false (at_ i), a)
      else do
        let r ← r.insertFitInternal (i - (B + 1)) kv edge
        .ok (.split l mid r true (at_ (i - (B + 1))), a)
    else .ok (.oom t ⟨kv, some (loc.up.length, edge)⟩, a)

/-- The body and loop of `VacantEntry::try_insert` below the root: insert at the leaf reached by path `p`, then
carry splits upwards.  Returning from the recursion is `ascend()`.  src/btree/map.rs:2379-2400. -/
def insertRec : (h : Nat) → Tree K V → List Nat → Nat → K × V → Alloc → Exec (InsertRes K V × Alloc)
  | 0, t, [], idx, kv, a => leafInsert t idx kv a
  | h + 1, t, i :: p, idx, kv, a => do
    let c ← getE t.edges i
    let (r, a) ← insertRec h c p idx kv a
    match r with
    | .fit c loc => do
      let edges ← setE t.edges i c
      .ok (.fit { t with edges := edges } (loc.under i), a)
    | .oom c gone => do
      let edges ← setE t.edges i c
      .ok (.oom { t with edges := edges } gone, a)
    | .split l mid r inRight loc => do
      let edges ← setE t.edges i l
      internalInsert { t with edges := edges } i mid r inRight loc a
  | _, _, _, _, _, _ => .ub

/-- src/btree/map.rs:2370-2407 `VacantEntry::try_insert`.  `length` is incremented first (2371); on an allocation
failure the function returns early, leaving whatever the steps so far did.  The `&mut V` returned is the handle
of the inserted pair.  `push_level`: src/btree/node.rs:264-289. -/
def Map.vacantInsert (m : Map K V) (hd : Handle) (k : K) (v : V) (a : Alloc) :
    Exec (Res Handle × Map K V × Alloc) := do
  let length := m.length + 1
  let (r, a) ← insertRec m.height m.root hd.up.reverse hd.idx (k, v) a
  match r with
  | .fit t loc => .ok (.ok loc, { m with root := t, length := length }, a)
  | .oom t _ => .ok (.error .allocError, { m with root := t, length := length }, a)
  | .split l mid r inRight loc => do
    require (!m.shared)  -- debug_assert in push_level, node.rs:267
    let (granted, a) := a.request
    if granted then do
      let top : Tree K V := ⟨[], [l]⟩
      let top ← top.pushInternal mid r
      .ok (.ok (loc.under (if inRight then 1 else 0)),
           { m with height := m.height + 1, root := top, length := length }, a)
    else .ok (.error .allocError, { m with root := l, length := length }, a)

/-- What `VacantEntry::try_insert` takes away if it fails (and `none` if it does not): the same steps as `vacantInsert`.  src/btree/map.rs:2370-2407: `?` after
`insert` and after `push_level` drops `ins_k`, `ins_v` and the `Root` `ins_edge`. -/
def Map.vacantGone (m : Map K V) (hd : Handle) (k : K) (v : V) (a : Alloc) : Option (Gone K V) :=
  match insertRec m.height m.root hd.up.reverse hd.idx (k, v) a with
  | .ok (.oom _ gone, _) => some gone
  | .ok (.split _ mid r _ _, a) => if a.request.1 then none else some ⟨mid, some (m.height, r)⟩
  | _ => none

/-- `Entry`: src/btree/map.rs:504-510, with `VacantEntry` 526-533 and `OccupiedEntry` 546-553. -/
inductive Entry (K : Type) where
  | vacant (key : K) (h : Handle)
  | occupied (h : Handle)
deriving Repr, DecidableEq

/-- src/btree/map.rs:965-981 `try_entry` (`Q = K`, `Borrow` is the identity). -/
def Map.tryEntry [Ord K] (m : Map K V) (k : K) (a : Alloc) : Exec (Res (Entry K) × Map K V × Alloc) := do
  let (r, m, a) := m.ensureRootIsOwned a
  match r with
  | .error e => .ok (.error e, m, a)
  | .ok () => do
    match ← m.search id k with
    | .found hd => .ok (.ok (.occupied hd), m, a)
    | .goDown hd => .ok (.ok (.vacant k hd), m, a)

/-- src/btree/map.rs:754-762 `try_insert`; `OccupiedEntry::insert` 2549-2551 keeps the stored key. -/
def Map.tryInsert [Ord K] (m : Map K V) (k : K) (v : V) (a : Alloc) :
    Exec (Res (Option V) × Map K V × Alloc) := do
  let (r, m, a) ← m.tryEntry k a
  match r with
  | .error e => .ok (.error e, m, a)
  | .ok (.occupied hd) => do
    let (m, old) ← m.setVal hd v
    .ok (.ok (some old), m, a)
  | .ok (.vacant k hd) => do
    let (r, m, a) ← m.vacantInsert hd k v a
    match r with
    | .error e => .ok (.error e, m, a)
    | .ok _ => .ok (.ok none, m, a)

/-- What `try_insert` takes away if it fails: src/btree/map.rs:754-762; if the first node can not be made (`try_entry`, 965-981) only the arguments. -/
def Map.insertGone [Ord K] (m : Map K V) (k : K) (v : V) (a : Alloc) : Option (Gone K V) :=
  match m.tryEntry k a with
  | .ok (.error _, _, _) => some ⟨(k, v), none⟩
  | .ok (.ok (.vacant k hd), m, a) => m.vacantGone hd k v a
  | _ => none

/-! ### the rest of the entry API -/

/-- src/btree/map.rs:2249-2254 `Entry::key`, 2424 `OccupiedEntry::key`, 2329 `VacantEntry::key`
(and `into_key`, 2348). -/
def Map.entryKey (m : Map K V) : Entry K → Exec K
  | .occupied hd => do
    let kv ← m.kvAt hd
    .ok kv.1
  | .vacant k _ => .ok k

/-- src/btree/map.rs:2204-2209 `or_try_insert`. -/
def Map.orTryInsert (m : Map K V) (e : Entry K) (v : V) (a : Alloc) : Exec (Res Handle × Map K V × Alloc) :=
  match e with
  | .occupied hd => .ok (.ok hd, m, a)
  | .vacant k hd => m.vacantInsert hd k v a

/-- src/btree/map.rs:2227-2235 `or_try_insert_with`; the closure runs only for a vacant entry (the flag in the
result records whether it ran).  `or_default` (2307-2312) is this with `Default::default`. -/
def Map.orTryInsertWith (m : Map K V) (e : Entry K) (f : Unit → V) (a : Alloc) :
    Exec (Res Handle × Map K V × Alloc × Bool) :=
  match e with
  | .occupied hd => .ok (.ok hd, m, a, false)
  | .vacant k hd => do
    let (r, m, a) ← m.vacantInsert hd k (f ()) a
    .ok (r, m, a, true)

/-- src/btree/map.rs:2277-2288 `and_modify`. -/
def Map.andModify (m : Map K V) (e : Entry K) (f : V → V) : Exec (Map K V × Entry K) :=
  match e with
  | .occupied hd => do
    let kv ← m.kvAt hd
    let (m, _) ← m.setVal hd (f kv.2)
    .ok (m, .occupied hd)
  | .vacant k hd => .ok (m, .vacant k hd)

/-! ### removal -/

/-- `first_leaf_edge` of a subtree, as the path from its root.  src/btree/map.rs:1872-1883. -/
def firstLeafPath : (h : Nat) → Tree K V → Exec (List Nat)
  | 0, _ => .ok []
  | h + 1, t => do
    let c ← getE t.edges 0
    let p ← firstLeafPath h c
    .ok (0 :: p)

/-- `last_leaf_edge` of a subtree: path and edge index.  src/btree/map.rs:1885-1896. -/
def lastLeafPath : (h : Nat) → Tree K V → Exec (List Nat × Nat)
  | 0, t => .ok ([], t.len)
  | h + 1, t => do
    let c ← getE t.edges t.len
    let (p, i) ← lastLeafPath h c
    .ok (t.len :: p, i)

/-- State of the underflow loop when it comes back up to a node. -/
inductive Walk where
  /-- `cur_node` is the node just reached. -/
  | walking
  /-- The loop has stopped. -/
  | done
  /-- The node just reached was merged empty: `pop_level` on the root. -/
  | popRoot
deriving Repr, DecidableEq

/-- `handle_underfull_node` for the child (of height `h`) at edge `i` of `t`: src/btree/map.rs:2631-2660, with the reaction of the
loop to its answer, 2604-2617. -/
def handleUnderfull (h : Nat) (t : Tree K V) (i : Nat) : Exec (Tree K V × Walk) := do
  if 0 < i then do  -- parent.left_kv() is Ok
    if ← canMerge t (i - 1) then do
      let t ← merge t (i - 1)
      .ok (t, if t.len = 0 then .popRoot else .walking)
    else do
      let t ← stealLeft h t (i - 1)
      .ok (t, .done)
  else if i < t.len then do  -- parent.right_kv() is Ok
    if ← canMerge t i then do
      let t ← merge t i
      .ok (t, if t.len = 0 then .popRoot else .walking)
    else do
      let t ← stealRight h t i
      .ok (t, .done)
  else .panic "internal error: entered unreachable code"  -- EmptyParent => unreachable!()

/-- The loop `while cur_node.len() < CAPACITY / 2`, started at the leaf reached by path `p`; returning from the
recursion is `ascend()`.  At the root `handle_underfull_node` answers `AtRoot`.  src/btree/map.rs:2602-2618. -/
def underflow : (h : Nat) → Tree K V → List Nat → Exec (Tree K V × Walk)
  | _, t, [] => .ok (t, .walking)
  | 0, _, _ :: _ => .ub
  | h + 1, t, i :: p => do
    let c ← getE t.edges i
    let (c, w) ← underflow h c p
    let edges ← setE t.edges i c
    let t := { t with edges := edges }
    match w with
    | .done => .ok (t, .done)
    | .popRoot => .ub  -- `pop_level` on a node that is not the root
    | .walking => if c.len < CAPACITY / 2 then handleUnderfull h t i else .ok (t, .done)

/-- Remove pair `idx` from the leaf reached by `p`.  src/btree/map.rs:2580, 2592; node.rs:1237-1251. -/
def removeLeafKv (h : Nat) (t : Tree K V) (p : List Nat) (idx : Nat) : Exec (Tree K V × (K × V)) :=
  modifyAt (fun h n => do
    require (h = 0)
    n.removeKv idx) h t p

/-- First half of `remove_kv`, 2578-2599: take the pair out.  For an internal handle the first pair of the leaf
right after it is removed and put in its place.  Also returns the path of the leaf that shrank. -/
def removeRaw (h : Nat) (t : Tree K V) (p : List Nat) (idx : Nat) :
    Exec (Tree K V × (K × V) × List Nat) := do
  match ← nodeAt h t p with
  | ⟨0, _⟩ => do
    let (t, old) ← removeLeafKv h t p idx
    .ok (t, old, p)
  | ⟨hn + 1, n⟩ => do
    let _ ← getE n.kvs idx  -- key_loc, val_loc
    let c ← getE n.edges (idx + 1)
    let q ← firstLeafPath hn c
    let leaf := p ++ (idx + 1) :: q
    let ln ← nodeAt h t leaf
    require (0 < ln.2.len)  -- unwrap_unchecked(right_kv().ok())
    let (t, kv) ← removeLeafKv h t leaf 0
    let (t, old) ← replaceKv h t p idx kv
    .ok (t, old, leaf)

/-- Last step of `remove_kv`: `parent.into_root_mut().pop_level()` if the loop asked for it.
src/btree/map.rs:2608-2611, src/btree/node.rs:295-320. -/
def popLevelIf (w : Walk) (shared : Bool) (length : Nat) : (h : Nat) → Tree K V → Exec (Map K V)
  | h, t => match w, h, t with
    | .popRoot, h + 1, t => do
      let c ← getE t.edges 0
      .ok ⟨h, c, shared, length⟩
    | .popRoot, 0, _ => .ub  -- debug_assert!(self.height > 0)
    | _, h, t => .ok ⟨h, t, shared, length⟩

/-- `remove_kv`: src/btree/map.rs:2575-2621. -/
def Map.removeKv (m : Map K V) (hd : Handle) : Exec ((K × V) × Map K V) := do
  require (0 < m.length)  -- `*self.length -= 1` must not underflow
  let (t, old, leaf) ← removeRaw m.height m.root hd.up.reverse hd.idx
  let (t, w) ← underflow m.height t leaf
  let m ← popLevelIf w m.shared (m.length - 1) m.height t
  .ok (old, m)

/-- src/btree/map.rs:783-799 `remove` (the whole pair is returned; `remove` drops the key and
`Recover::take` 309-323 / `remove_entry` 2449 keep it). -/
def Map.removeEntry [Ord Q] (m : Map K V) (bor : K → Q) (q : Q) : Exec (Option (K × V) × Map K V) := do
  match ← m.search bor q with
  | .found hd => do
    let (kv, m) ← m.removeKv hd
    .ok (some kv, m)
  | .goDown _ => .ok (none, m)

/-- src/btree/map.rs:783-799 `remove`. -/
def Map.remove [Ord Q] (m : Map K V) (bor : K → Q) (q : Q) : Exec (Option V × Map K V) := do
  let (r, m) ← m.removeEntry bor q
  .ok (r.map (·.2), m)

/-- Write a key through the `&mut K` that a KV handle yields, returning the old key.
Model of: `into_kv_mut` src/btree/node.rs:1157-1166, `mem::replace` map.rs:331. -/
def Map.setKey (m : Map K V) (hd : Handle) (k : K) : Exec (Map K V × K) := do
  let (_, v) ← m.kvAt hd
  let (t, old) ← replaceKv m.height m.root hd.up.reverse hd.idx (k, v)
  .ok ({ m with root := t }, old.1)

/-- `Recover::replace`, src/btree/map.rs:328-343: an equal stored key is replaced by the new object, and the old one handed out.  The
source has it for values `()` only; here `v` stands for that `()`. -/
def Map.replaceKey [Ord K] (m : Map K V) (k : K) (v : V) (a : Alloc) : Exec (Res (Option K) × Map K V × Alloc) := do
  let r := m.ensureRootIsOwned a
  match r.1 with
  | .error e => .ok (.error e, r.2.1, r.2.2)
  | .ok () => do
    let m := r.2.1
    match ← m.search id k with
    | .found hd => do
      let p ← m.setKey hd k
      .ok (.ok (some p.2), p.1, r.2.2)
    | .goDown hd => do
      let p ← m.vacantInsert hd k v r.2.2
      match p.1 with
      | .error e => .ok (.error e, p.2.1, p.2.2)
      | .ok _ => .ok (.ok none, p.2.1, p.2.2)

/-! ### OccupiedEntry -/

/-- src/btree/map.rs:2470-2472 `OccupiedEntry::get` (the handle is that of an `Occupied` entry). -/
def Map.occGet (m : Map K V) (hd : Handle) : Exec V := do
  let kv ← m.kvAt hd
  .ok kv.2

/-- src/btree/map.rs:2549-2551 `OccupiedEntry::insert`: `mem::replace(self.get_mut(), value)`. -/
def Map.occInsert (m : Map K V) (hd : Handle) (v : V) : Exec (V × Map K V) := do
  let (m, old) ← m.setVal hd v
  .ok (old, m)

/-- A write through the reference of `get_mut` (2501-2503) or `into_mut` (2527-2529). -/
def Map.occUpdate (m : Map K V) (hd : Handle) (f : V → V) : Exec (Map K V) := do
  let kv ← m.kvAt hd
  let (m, _) ← m.setVal hd (f kv.2)
  .ok m

/-- src/btree/map.rs:2449-2451 `OccupiedEntry::remove_entry`. -/
def Map.occRemoveEntry (m : Map K V) (hd : Handle) : Exec ((K × V) × Map K V) := m.removeKv hd

/-- src/btree/map.rs:2571-2573 `OccupiedEntry::remove`. -/
def Map.occRemove (m : Map K V) (hd : Handle) : Exec (V × Map K V) := do
  let (kv, m) ← m.removeKv hd
  .ok (kv.2, m)

end Verif.BTree
