import Verif.BTree.Map
/-
Level-1 model of the bulk operations of src/btree/map.rs: `split_off`, the tree building of `append`, `try_clone`.
-/
namespace Verif.BTree
open Verif

variable {K V Q : Type}

/-! ### allocation helpers -/

/-- `n` consecutive requests, stopping at the first refusal.
Model of: `new_leaf()?` followed by a loop of `push_level()?`. -/
def Alloc.requests : Nat → Alloc → Bool × Alloc
  | 0, a => (true, a)
  | n + 1, a =>
    let (granted, a) := a.request
    if granted then Alloc.requests n a else (false, a)

/-- The tree made by `new_leaf` and `h` times `push_level`: `h` empty internal nodes above an empty leaf.
src/btree/node.rs:228-235, 264-289. -/
def emptySpine : (h : Nat) → Tree K V
  | 0 => emptyLeaf
  | h + 1 => ⟨[], [emptySpine h]⟩

/-! ### split_off -/

/-- The loop of `split_off` over left and right node: src/btree/map.rs:1104-1125. -/
def splitLoop [Ord Q] (bor : K → Q) (q : Q) :
    (h : Nat) → Tree K V → Tree K V → Exec (Tree K V × Tree K V)
  | 0, l, r => l.moveSuffix r (searchLinear bor q l.kvs).1
  | h + 1, l, r => do
    let i := (searchLinear bor q l.kvs).1
    let (l, r) ← l.moveSuffix r i
    let cl ← getE l.edges i
    let cr ← getE r.edges 0
    let (cl, cr) ← splitLoop bor q h cl cr
    let le ← setE l.edges i cl
    let re ← setE r.edges 0 cr
    .ok ({ l with edges := le }, { r with edges := re })

/-- src/btree/map.rs:1173-1183 `fix_top`; `pop_level` src/btree/node.rs:295-320. -/
def fixTop : (h : Nat) → Tree K V → Exec (Nat × Tree K V)
  | 0, t => .ok ⟨0, t⟩
  | h + 1, t =>
    if 0 < t.len then .ok ⟨h + 1, t⟩
    else do
      let c ← getE t.edges 0
      fixTop h c

/-- The loop of `fix_right_border`: src/btree/map.rs:1189-1204. -/
def fixRightLoop : (h : Nat) → Tree K V → Exec (Tree K V)
  | 0, t => .ok t
  | h + 1, t => do
    require (0 < t.len)  -- debug_assert in last_kv, node.rs:478
    let i := t.len - 1
    if ← canMerge t i then do
      let t ← merge t i
      let c ← getE t.edges i
      let c ← fixRightLoop h c
      let edges ← setE t.edges i c
      .ok { t with edges := edges }
    else do
      let r ← getE t.edges (i + 1)
      let t ← (if r.len < MIN_LEN + 1 then bulkStealLeft t i (MIN_LEN + 1 - r.len) else .ok t)
      let c ← getE t.edges (i + 1)
      let c ← fixRightLoop h c
      let edges ← setE t.edges (i + 1) c
      .ok { t with edges := edges }

/-- The loop of `fix_left_border`: src/btree/map.rs:1215-1229. -/
def fixLeftLoop : (h : Nat) → Tree K V → Exec (Tree K V)
  | 0, t => .ok t
  | h + 1, t => do
    require (0 < t.len)  -- debug_assert in first_kv, node.rs:471
    if ← canMerge t 0 then do
      let t ← merge t 0
      let c ← getE t.edges 0
      let c ← fixLeftLoop h c
      let edges ← setE t.edges 0 c
      .ok { t with edges := edges }
    else do
      let l ← getE t.edges 0
      let t ← (if l.len < MIN_LEN + 1 then bulkStealRight t 0 (MIN_LEN + 1 - l.len) else .ok t)
      let c ← getE t.edges 0
      let c ← fixLeftLoop h c
      let edges ← setE t.edges 0 c
      .ok { t with edges := edges }

/-- src/btree/map.rs:1185-1208 `fix_right_border`. -/
def fixRightBorder (t : Nat × Tree K V) : Exec (Nat × Tree K V) := do
  let ⟨h, t⟩ ← fixTop t.1 t.2
  let t ← fixRightLoop h t
  fixTop h t

/-- src/btree/map.rs:1211-1233 `fix_left_border`. -/
def fixLeftBorder (t : Nat × Tree K V) : Exec (Nat × Tree K V) := do
  let ⟨h, t⟩ ← fixTop t.1 t.2
  let t ← fixLeftLoop h t
  fixTop h t

/-- `dfs` of `recalc_length`: src/btree/map.rs:1144-1167.  The loop reads edges `0 ..= len`. -/
def dfsLen : (h : Nat) → Tree K V → Exec Nat
  | 0, t => .ok t.len
  | h + 1, t => do
    require (t.edges.length = t.len + 1)
    t.edges.foldlM (fun acc c => do
      let n ← dfsLen h c
      .ok (acc + n)) t.len

/-- src/btree/map.rs:1084-1140 `split_off`: `(result, self afterwards, allocator)`. -/
def Map.splitOff [Ord Q] (m : Map K V) (bor : K → Q) (q : Q) (a : Alloc) :
    Exec (Res (Map K V) × Map K V × Alloc) :=
  if m.isEmpty then .ok (.ok Map.new, m, a)
  else
    let total := m.length
    let (granted, a) := Alloc.requests (m.height + 1) a
    if granted then do
      let (l, r) ← splitLoop bor q m.height m.root (emptySpine m.height)
      let l ← fixRightBorder ⟨m.height, l⟩
      let r ← fixLeftBorder ⟨m.height, r⟩
      if l.1 < r.1 then do
        let ll ← dfsLen l.1 l.2
        require (ll ≤ total)  -- `total_num - self.len()` must not underflow
        .ok (.ok ⟨r.1, r.2, false, total - ll⟩, ⟨l.1, l.2, m.shared, ll⟩, a)
      else do
        let rl ← dfsLen r.1 r.2
        require (rl ≤ total)
        .ok (.ok ⟨r.1, r.2, false, rl⟩, ⟨l.1, l.2, m.shared, total - rl⟩, a)
    else .ok (.error .allocError, m, a)

/-! ### append -/

/-- `MergeIter` run to its end: src/btree/map.rs:2662-2684.  On equal keys the left pair is dropped. -/
def mergeIter [Ord K] : List (K × V) → List (K × V) → List (K × V)
  | [], r => r
  | l, [] => l
  | a :: l, b :: r =>
    match compare a.1 b.1 with
    | .lt => a :: mergeIter l (b :: r)
    | .gt => b :: mergeIter (a :: l) r
    | .eq => b :: mergeIter l r
termination_by l r => l.length + r.length

/-- One iteration of the loop of `from_sorted_iter` on the part of the tree below the root: push the pair into
the last leaf if there is room, otherwise into the lowest node on the right spine that has room, with a new empty right
subtree.  `none`: no node on the right spine has room.  `cur_node` in the source is always the last leaf of the
tree, and going up from it walks the right spine, so the recursion below visits the same nodes in the
same order.  src/btree/map.rs:988-1026.  An allocation failure panics (`expect`). -/
def pushSorted : (h : Nat) → Tree K V → K × V → Alloc → Exec (Option (Tree K V) × Alloc)
  | 0, t, kv, a =>
    if t.len < CAPACITY then do
      let t ← t.pushLeaf kv
      .ok (some t, a)
    else .ok (none, a)
  | h + 1, t, kv, a => do
    let c ← getE t.edges t.len
    let (r, a) ← pushSorted h c kv a
    match r with
    | some c => do
      let edges ← setE t.edges t.len c
      .ok (some { t with edges := edges }, a)
    | none =>
      if t.len < CAPACITY then
        let (granted, a) := Alloc.requests (h + 1) a
        if granted then do
          let t ← t.pushInternal kv (emptySpine h)
          .ok (some t, a)
        else .panic "Out of Mem"
      else .ok (none, a)

/-- The loop of `from_sorted_iter` at the root: `push_level` when the whole right spine is full (1008-1012). -/
def fromSortedLoop : (t : Nat × Tree K V) → List (K × V) → Alloc → Exec ((Nat × Tree K V) × Alloc)
  | t, [], a => .ok (t, a)
  | t, kv :: rest, a => do
    let (r, a) ← pushSorted t.1 t.2 kv a
    match r with
    | some t' => fromSortedLoop ⟨t.1, t'⟩ rest a
    | none =>
      let (granted, a) := a.request
      if granted then
        let (granted, a) := Alloc.requests (t.1 + 1) a
        if granted then do
          let top : Tree K V := ⟨[], [t.2]⟩
          let top ← top.pushInternal kv (emptySpine t.1)
          fromSortedLoop ⟨t.1 + 1, top⟩ rest a
        else .panic "Out of Mem"
      else .panic "Out of Mem"

/-- src/btree/map.rs:1032-1052 `fix_right_edge`. -/
def fixRightEdge : (h : Nat) → Tree K V → Exec (Tree K V)
  | 0, t => .ok t
  | h + 1, t => do
    let r ← getE t.edges t.len
    let t ← (if r.len < MIN_LEN then
        if 0 < t.len then bulkStealLeft t (t.len - 1) (MIN_LEN - r.len)
        else .panic "internal error: entered unreachable code"
      else .ok t)
    let c ← getE t.edges t.len
    let c ← fixRightEdge h c
    let edges ← setE t.edges t.len c
    .ok { t with edges := edges }

/-- `from_sorted_iter` on a new map, then `fix_right_edge`: src/btree/map.rs:983-1052, called at 851-852. -/
def Map.ofSorted (l : List (K × V)) (a : Alloc) : Exec (Map K V × Alloc) :=
  let (r, m, a) := (Map.new : Map K V).ensureRootIsOwned a
  match r with
  | .error _ => .panic "Out Of Mem"
  | .ok () => do
    let (t, a) ← fromSortedLoop ⟨m.height, m.root⟩ l a
    let t' ← fixRightEdge t.1 t.2
    .ok (⟨t.1, t', m.shared, m.length + l.length⟩, a)

/-! ### try_clone -/

/-- `TryClone::try_clone` / `Clone::clone` of an element type: may consume allocator requests and may fail.
Model of: src/try_clone.rs (trait `TryClone`). -/
abbrev Cloner (α : Type) := α → Alloc → Res α × Alloc

/-- The leaf loop of `clone_subtree`: src/btree/map.rs:161-168. -/
def cloneLeafLoop (ck : Cloner K) (cv : Cloner V) :
    List (K × V) → Tree K V → Alloc → Exec (Res (Tree K V) × Alloc)
  | [], out, a => .ok (.ok out, a)
  | (k, v) :: rest, out, a =>
    match ck k a with
    | (.error e, a) => .ok (.error e, a)
    | (.ok k, a) =>
      match cv v a with
      | (.error e, a) => .ok (.error e, a)
      | (.ok v, a) => do
        let out ← out.pushLeaf (k, v)
        cloneLeafLoop ck cv rest out a

/-- The internal loop of `clone_subtree`, given the recursive call `rec` for the subtrees: src/btree/map.rs:178-198.
`len` is `out_tree.length`. -/
def cloneInternalLoop (ck : Cloner K) (cv : Cloner V)
    (rec : Tree K V → Alloc → Exec (Res (Tree K V × Nat) × Alloc)) :
    List (K × V) → List (Tree K V) → Tree K V → Nat → Alloc →
      Exec (Res (Tree K V × Nat) × Alloc)
  | [], _, out, len, a => .ok (.ok (out, len), a)
  | _ :: _, [], _, _, _ => .ub
  | (k, v) :: kvs, e :: es, out, len, a =>
    match ck k a with
    | (.error e, a) => .ok (.error e, a)
    | (.ok k, a) =>
      match cv v a with
      | (.error e, a) => .ok (.error e, a)
      | (.ok v, a) => do
        let (r, a) ← rec e a
        match r with
        | .error e => .ok (.error e, a)
        | .ok (sub, sublen) => do
          let out ← out.pushInternal (k, v) sub
          cloneInternalLoop ck cv rec kvs es out (len + (1 + sublen)) a

/-- `clone_subtree`: src/btree/map.rs:141-204; returns the cloned tree and its length. -/
def cloneSubtree (ck : Cloner K) (cv : Cloner V) :
    (h : Nat) → Tree K V → Alloc → Exec (Res (Tree K V × Nat) × Alloc)
  | 0, t, a => do
    let (granted, a) := a.request
    if granted then do
      let (r, a) ← cloneLeafLoop ck cv t.kvs emptyLeaf a
      match r with
      | .error e => .ok (.error e, a)
      | .ok out => .ok (.ok (out, out.len), a)
    else .ok (.error .allocError, a)
  | h + 1, t, a => do
    let c ← getE t.edges 0
    let (r, a) ← cloneSubtree ck cv h c a
    match r with
    | .error e => .ok (.error e, a)
    | .ok (first, len) => do
      let (granted, a) := a.request
      if granted then
        let out : Tree K V := ⟨[], [first]⟩
        cloneInternalLoop ck cv (fun e a => cloneSubtree ck cv h e a) t.kvs t.edges.tail out len a
      else .ok (.error .allocError, a)

/-- src/btree/map.rs:140-216 `try_clone`. -/
def Map.tryClone (m : Map K V) (ck : Cloner K) (cv : Cloner V) (a : Alloc) :
    Exec (Res (Map K V) × Alloc) :=
  if m.len = 0 then .ok (.ok Map.new, a)
  else do
    let (r, a) ← cloneSubtree ck cv m.height m.root a
    match r with
    | .error e => .ok (.error e, a)
    | .ok (t, len) => .ok (.ok ⟨m.height, t, false, len⟩, a)

/-- `Clone::clone`, src/btree/map.rs:219-297: a copy of `try_clone` whose allocations go through
`expect("Out of Mem")` and whose element clones cannot fail, so the first refused request panics. -/
def Map.clone (m : Map K V) (fk : K → K) (fv : V → V) (a : Alloc) : Exec (Map K V × Alloc) := do
  let (r, a) ← m.tryClone (fun k a => (.ok (fk k), a)) (fun v a => (.ok (fv v), a)) a
  match r with
  | .ok m => .ok (m, a)
  | .error _ => .panic "Out of Mem"

end Verif.BTree
