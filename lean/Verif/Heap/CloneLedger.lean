import Verif.Heap.Bulk
/-
`try_clone` (and `clone`) in memory with a ledger: the clones of keys and values made, and those dropped again when the call fails.
An element clone may fail, or panic: while the stack unwinds exactly the variables are dropped that an early return drops, so a panic
of `K::clone` or `V::clone` (or `expect("Out of Mem")` in `clone`) is modelled as an error here.
-/
namespace Verif.Heap
open Verif
open Verif.BTree (CAPACITY Cloner)

variable {K V : Type}

/-- The pairs cloned, in order; the keys cloned whose value could not be (each is dropped at once); the pairs dropped again. -/
structure Ledger (K V : Type) where
  made : List (K × V)
  lone : List K
  dropped : List (K × V)

/-- `Bulk.cloneKv` with its lone key: src/btree/map.rs:166 and 183-184 (`clone`: 246, 263-264). -/
def cloneKvL (ck : Cloner K) (cv : Cloner V) (kv : K × V) : HM K V (Res (K × V) × List K) := do
  let rk ← cloneElem ck kv.1
  match rk with
  | .error e => pure (.error e, [])
  | .ok k => do
    let rv ← cloneElem cv kv.2
    match rv with
    | .error e => pure (.error e, [k])
    | .ok v => pure (.ok (k, v), [])

/-- One round of the leaf loop of `clone_subtree`, src/btree/map.rs:161-168; the state is `in_edge`, `out_tree.length` and the pairs cloned. -/
def cloneLeafStepL (ck : Cloner K) (cv : Cloner V) (src out : Addr) (s : Nat × Nat × List (K × V)) :
    HM K V ((Nat × Nat × List (K × V)) ⊕ (Option TryReserveError × Nat × Ledger K V)) := do
  let len ← lenOf src
  if s.1 < len then do
    let kv ← kvOf ⟨0, src, s.1⟩
    let e ← newEdge ⟨0, src⟩ (s.1 + 1)
    let r ← cloneKvL ck cv kv
    match r.1 with
    | .error er => pure (.inr (some er, s.2.1, ⟨s.2.2, r.2, []⟩))
    | .ok kv => do
      pushLeaf out kv
      pure (.inl (e.idx, s.2.1 + 1, s.2.2 ++ [kv]))
  else pure (.inr (none, s.2.1, ⟨s.2.2, [], []⟩))

/-- One round of the internal loop of `clone_subtree`, src/btree/map.rs:178-198.  If the recursive call fails, `k` and `v` are dropped. -/
def cloneInternalStepL (ck : Cloner K) (cv : Cloner V) (rec : Addr → HM K V (Res HMap × Ledger K V)) (src out : NRef)
    (s : Nat × Nat × List (K × V)) : HM K V ((Nat × Nat × List (K × V)) ⊕ (Option TryReserveError × Nat × Ledger K V)) := do
  let len ← lenOf src.node
  if s.1 < len then do
    let kv ← kvOf ⟨src.height, src.node, s.1⟩
    let e ← newEdge src (s.1 + 1)
    let r ← cloneKvL ck cv kv
    match r.1 with
    | .error er => pure (.inr (some er, s.2.1, ⟨s.2.2, r.2, []⟩))
    | .ok kv => do
      let c ← descend e
      let sub ← rec c.node
      match sub.1 with
      | .error er => pure (.inr (some er, s.2.1, ⟨s.2.2 ++ kv :: sub.2.made, sub.2.lone, sub.2.dropped ++ [kv]⟩))
      | .ok m => do
        pushInternal out kv m.root
        pure (.inl (e.idx, s.2.1 + (1 + m.length), s.2.2 ++ kv :: sub.2.made))
  else pure (.inr (none, s.2.1, ⟨s.2.2, [], []⟩))

/-- `clone_subtree` of the node of height `h` at `a`, src/btree/map.rs:141-204 (`clone`: 221-284). -/
def cloneSubtreeL (ck : Cloner K) (cv : Cloner V) : (h : Nat) → (a : Addr) → HM K V (Res HMap × Ledger K V)
  | 0, a => do
    let r ← newLeaf
    match r with
    | none => pure (.error .allocError, ⟨[], [], []⟩)
    | some r => do
      let e ← newEdge ⟨0, a⟩ 0
      let x ← loopN (cloneLeafStepL ck cv a r.node) (CAPACITY + 1) (e.idx, 0, [])
      let x ← ended x
      match x.1 with
      | none => pure (.ok ⟨r, x.2.1⟩, x.2.2)
      | some er => do
        let d ← HMap.drop ⟨r, x.2.1⟩
        pure (.error er, ⟨x.2.2.made, x.2.2.lone, x.2.2.dropped ++ d⟩)
  | h + 1, a => do
    let e ← newEdge ⟨h + 1, a⟩ 0
    let c ← descend e
    let first ← cloneSubtreeL ck cv h c.node
    match first.1 with
    | .error er => pure (.error er, first.2)
    | .ok m => do
      let r ← pushLevel m.root
      match r with
      | none => do
        let d ← m.drop
        pure (.error .allocError, ⟨first.2.made, first.2.lone, first.2.dropped ++ d⟩)
      | some r => do
        let e ← newEdge ⟨h + 1, a⟩ 0
        let x ← loopN (cloneInternalStepL ck cv (cloneSubtreeL ck cv h) ⟨h + 1, a⟩ r) (CAPACITY + 1) (e.idx, m.length, first.2.made)
        let x ← ended x
        match x.1 with
        | none => pure (.ok ⟨r, x.2.1⟩, x.2.2)
        | some er => do
          let d ← HMap.drop ⟨r, x.2.1⟩
          pure (.error er, ⟨x.2.2.made, x.2.2.lone, x.2.2.dropped ++ d⟩)

/-- src/btree/map.rs:140-216 `try_clone` (`clone`: 220-296). -/
def HMap.tryCloneL (m : HMap) (ck : Cloner K) (cv : Cloner V) : HM K V (Res HMap × Ledger K V) :=
  if m.length = 0 then pure (.ok HMap.new, ⟨[], [], []⟩)
  else cloneSubtreeL ck cv m.root.height m.root.node

end Verif.Heap
