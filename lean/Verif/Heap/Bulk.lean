import Verif.Heap.Map
import Verif.BTree.Bulk
/-
Level-2 model of the bulk operations of src/btree/map.rs on memory: `split_off` with its repair loops, `try_clone`.
-/
namespace Verif.Heap
open Verif
open Verif.BTree (B MIN_LEN CAPACITY)

variable {K V Q σ ρ : Type}

/-- `for _ in 0..n { root.push_level()? }`: the root reached, and whether memory sufficed.
src/btree/map.rs:1096-1098 (and 1018-1020). -/
def pushLevels : (n : Nat) → (r : NRef) → HM K V (NRef × Bool)
  | 0, r => pure (r, true)
  | n + 1, r => do
    let x ← pushLevel r
    match x with
    | none => pure (r, false)
    | some r => pushLevels n r

/-- The loop of `split_off` over the left node at `l` and the right node at `r`, both of height `h`:
src/btree/map.rs:1104-1125.  `search_node` is `search_linear`, whose index is that of the edge in both cases
(`handle.left_edge()`), src/btree/search.rs:36-47. -/
def splitLoop [Ord Q] (bor : K → Q) (q : Q) : (h : Nat) → (l r : Addr) → HM K V Unit
  | 0, l, r => do
    let x ← searchLinear bor q l
    let e ← newEdge ⟨0, l⟩ x.1
    moveSuffix e ⟨0, r⟩
  | h + 1, l, r => do
    let x ← searchLinear bor q l
    let e ← newEdge ⟨h + 1, l⟩ x.1
    moveSuffix e ⟨h + 1, r⟩
    let cl ← descend e
    let f ← newEdge ⟨h + 1, r⟩ 0
    let cr ← descend f
    splitLoop bor q h cl.node cr.node

/-- src/btree/map.rs:1173-1183 `fix_top` on the root of height `h` at `a`: the root afterwards. -/
def fixTop : (h : Nat) → (a : Addr) → HM K V NRef
  | 0, a => pure ⟨0, a⟩
  | h + 1, a => do
    let len ← lenOf a
    if 0 < len then pure ⟨h + 1, a⟩
    else do
      let r ← popLevel ⟨h + 1, a⟩
      fixTop h r.node

/-- The loop of `fix_right_border` from the node of height `h` at `a`: src/btree/map.rs:1189-1204; `last_kv`
src/btree/node.rs:476-480. -/
def fixRightLoop : (h : Nat) → (a : Addr) → HM K V Unit
  | 0, _ => pure ()
  | h + 1, a => do
    let len ← lenOf a
    HM.req (0 < len)
    let kv ← newKv ⟨h + 1, a⟩ (len - 1)
    let c ← canMerge kv
    if c then do
      let e ← merge kv
      let n ← descend e
      fixRightLoop h n.node
    else do
      let e ← newEdge kv.ref (kv.idx + 1)
      let n ← descend e
      let rl ← lenOf n.node
      if rl < MIN_LEN + 1 then bulkStealLeft kv (MIN_LEN + 1 - rl) else pure ()
      let e ← newEdge kv.ref (kv.idx + 1)
      let n ← descend e
      fixRightLoop h n.node

/-- The loop of `fix_left_border`: src/btree/map.rs:1215-1229; `first_kv` src/btree/node.rs:469-474. -/
def fixLeftLoop : (h : Nat) → (a : Addr) → HM K V Unit
  | 0, _ => pure ()
  | h + 1, a => do
    let len ← lenOf a
    HM.req (0 < len)
    let kv ← newKv ⟨h + 1, a⟩ 0
    let c ← canMerge kv
    if c then do
      let e ← merge kv
      let n ← descend e
      fixLeftLoop h n.node
    else do
      let e ← newEdge kv.ref kv.idx
      let n ← descend e
      let ll ← lenOf n.node
      if ll < MIN_LEN + 1 then bulkStealRight kv (MIN_LEN + 1 - ll) else pure ()
      let e ← newEdge kv.ref kv.idx
      let n ← descend e
      fixLeftLoop h n.node

/-- src/btree/map.rs:1185-1208 `fix_right_border` on the root `r`: the root afterwards. -/
def fixRightBorder (r : NRef) : HM K V NRef := do
  let r ← fixTop r.height r.node
  fixRightLoop r.height r.node
  fixTop r.height r.node

/-- src/btree/map.rs:1211-1233 `fix_left_border`. -/
def fixLeftBorder (r : NRef) : HM K V NRef := do
  let r ← fixTop r.height r.node
  fixLeftLoop r.height r.node
  fixTop r.height r.node

/-- One round of the loop of `dfs` at edge `s.1` of the node `r`, `s.2` being `res`: src/btree/map.rs:1153-1162. -/
def dfsStep (rec : Addr → HM K V Nat) (r : NRef) (s : Nat × Nat) : HM K V ((Nat × Nat) ⊕ Nat) := do
  let c ← descend ⟨r.height, r.node, s.1⟩
  let n ← rec c.node
  let len ← lenOf r.node
  if s.1 < len then do
    let e ← newEdge r (s.1 + 1)
    pure (.inl (e.idx, s.2 + n))
  else pure (.inr (s.2 + n))

/-- `dfs` of `recalc_length`: src/btree/map.rs:1144-1167. -/
def dfsLen : (h : Nat) → (a : Addr) → HM K V Nat
  | 0, a => lenOf a
  | h + 1, a => do
    let res ← lenOf a
    let e ← newEdge ⟨h + 1, a⟩ 0
    let r ← loopN (dfsStep (dfsLen h) ⟨h + 1, a⟩) (CAPACITY + 1) (e.idx, res)
    ended r

/-- src/btree/map.rs:1084-1140 `split_off`: the right part (`none` if out of memory) and `self` afterwards.  The early
returns through `?` drop the map `right` built so far. -/
def HMap.splitOff [Ord Q] (m : HMap) (bor : K → Q) (q : Q) : HM K V (Option HMap × HMap) :=
  if m.length = 0 then pure (some HMap.new, m)
  else do
    let total := m.length
    let r ← newLeaf
    match r with
    | none => do
      let _ ← HMap.new.drop
      pure (none, m)
    | some r => do
      let x ← pushLevels m.root.height r
      if x.2 then do
        splitLoop bor q m.root.height m.root.node x.1.node
        let l ← fixRightBorder m.root
        let r ← fixLeftBorder x.1
        if l.height < r.height then do
          let ll ← dfsLen l.height l.node
          HM.req (ll ≤ total)
          pure (some ⟨r, total - ll⟩, ⟨l, ll⟩)
        else do
          let rl ← dfsLen r.height r.node
          HM.req (rl ≤ total)
          pure (some ⟨r, rl⟩, ⟨l, total - rl⟩)
      else do
        let _ ← HMap.drop ⟨x.1, 0⟩
        pure (none, m)

/-! ### try_clone -/

/-- `try_clone` of a key or a value: it may use the allocator.  Memory owned by the elements themselves is not part of
this model.  src/try_clone.rs (trait `TryClone`). -/
def cloneElem {α : Type} (c : BTree.Cloner α) (x : α) : HM K V (Res α) := fun s =>
  .ok ((c x s.alloc).1, { s with alloc := (c x s.alloc).2 })

/-- `k.try_clone()?`, `v.try_clone()?`: src/btree/map.rs:166, 183-184. -/
def cloneKv (ck : BTree.Cloner K) (cv : BTree.Cloner V) (kv : K × V) : HM K V (Res (K × V)) := do
  let rk ← cloneElem ck kv.1
  match rk with
  | .error e => pure (.error e)
  | .ok k => do
    let rv ← cloneElem cv kv.2
    match rv with
    | .error e => pure (.error e)
    | .ok v => pure (.ok (k, v))

/-- One round of the leaf loop of `clone_subtree`, from the leaf at `src` to the leaf at `out`; the state is `in_edge` and
`out_tree.length`.  src/btree/map.rs:161-168. -/
def cloneLeafStep (ck : BTree.Cloner K) (cv : BTree.Cloner V) (src out : Addr) (s : Nat × Nat) :
    HM K V ((Nat × Nat) ⊕ (Option TryReserveError × Nat)) := do
  let len ← lenOf src
  if s.1 < len then do
    let kv ← kvOf ⟨0, src, s.1⟩
    let e ← newEdge ⟨0, src⟩ (s.1 + 1)
    let r ← cloneKv ck cv kv
    match r with
    | .error er => pure (.inr (some er, s.2))
    | .ok kv => do
      pushLeaf out kv
      pure (.inl (e.idx, s.2 + 1))
  else pure (.inr (none, s.2))

/-- One round of the internal loop of `clone_subtree`, given the recursive call `rec` on the child at an address:
src/btree/map.rs:178-198. -/
def cloneInternalStep (ck : BTree.Cloner K) (cv : BTree.Cloner V) (rec : Addr → HM K V (Res HMap)) (src out : NRef)
    (s : Nat × Nat) : HM K V ((Nat × Nat) ⊕ (Option TryReserveError × Nat)) := do
  let len ← lenOf src.node
  if s.1 < len then do
    let kv ← kvOf ⟨src.height, src.node, s.1⟩
    let e ← newEdge src (s.1 + 1)
    let r ← cloneKv ck cv kv
    match r with
    | .error er => pure (.inr (some er, s.2))
    | .ok kv => do
      let c ← descend e
      let sub ← rec c.node
      match sub with
      | .error er => pure (.inr (some er, s.2))
      | .ok sub => do
        pushInternal out kv sub.root
        pure (.inl (e.idx, s.2 + (1 + sub.length)))
  else pure (.inr (none, s.2))

/-- `clone_subtree` of the node of height `h` at `a`: src/btree/map.rs:141-204.  The early returns through `?` drop the map
`out_tree` built so far. -/
def cloneSubtree (ck : BTree.Cloner K) (cv : BTree.Cloner V) : (h : Nat) → (a : Addr) → HM K V (Res HMap)
  | 0, a => do
    let r ← newLeaf
    match r with
    | none => pure (.error .allocError)
    | some r => do
      let e ← newEdge ⟨0, a⟩ 0
      let x ← loopN (cloneLeafStep ck cv a r.node) (CAPACITY + 1) (e.idx, 0)
      let x ← ended x
      match x.1 with
      | none => pure (.ok ⟨r, x.2⟩)
      | some er => do
        let _ ← HMap.drop ⟨r, x.2⟩
        pure (.error er)
  | h + 1, a => do
    let e ← newEdge ⟨h + 1, a⟩ 0
    let c ← descend e
    let first ← cloneSubtree ck cv h c.node
    match first with
    | .error er => pure (.error er)
    | .ok first => do
      let r ← pushLevel first.root
      match r with
      | none => do
        let _ ← first.drop
        pure (.error .allocError)
      | some r => do
        let e ← newEdge ⟨h + 1, a⟩ 0
        let x ← loopN (cloneInternalStep ck cv (cloneSubtree ck cv h) ⟨h + 1, a⟩ r) (CAPACITY + 1) (e.idx, first.length)
        let x ← ended x
        match x.1 with
        | none => pure (.ok ⟨r, x.2⟩)
        | some er => do
          let _ ← HMap.drop ⟨r, x.2⟩
          pure (.error er)

/-- src/btree/map.rs:140-216 `try_clone`. -/
def HMap.tryClone (m : HMap) (ck : BTree.Cloner K) (cv : BTree.Cloner V) : HM K V (Res HMap) :=
  if m.length = 0 then pure (.ok HMap.new)
  else cloneSubtree ck cv m.root.height m.root.node

/-- `Clone::clone`, src/btree/map.rs:219-297: the same code with `expect("Out of Mem")` and element clones that cannot
fail; unwinding drops the map `out_tree` built so far just as the early returns of `try_clone` do. -/
def HMap.clone (m : HMap) (fk : K → K) (fv : V → V) : HM K V HMap := do
  let r ← m.tryClone (fun k a => (.ok (fk k), a)) (fun v a => (.ok (fv v), a))
  match r with
  | .ok m => pure m
  | .error _ => HM.panic "Out of Mem"

end Verif.Heap
