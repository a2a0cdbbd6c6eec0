import Verif.Heap.Bulk
/-
`split_off` in memory when a comparison of keys panics half-way.  `fuel` is the number of comparisons that still return; the next
one panics.
-/
namespace Verif.Heap
open Verif
open Verif.BTree (CAPACITY)

variable {K V Q : Type}

/-- The loop of `search_linear` over keys `i .. i + n`, src/btree/search.rs:58-65; with the comparisons left.  `none`: the comparison (59) panicked. -/
def searchKeysU [Ord Q] (bor : K → Q) (q : Q) (a : Addr) : (i n fuel : Nat) → HM K V (Option ((Nat × Bool) × Nat))
  | i, 0, fuel => pure (some ((i, false), fuel))
  | i, n + 1, fuel => do
    let nd ← getNode a
    let k ← HM.lift (nd.keys.peek CAPACITY i)
    match fuel with
    | 0 => pure none
    | fuel + 1 =>
      match compare q (bor k) with
      | .gt => searchKeysU bor q a (i + 1) n fuel
      | .eq => pure (some ((i, true), fuel))
      | .lt => pure (some ((i, false), fuel))

/-- src/btree/search.rs:49-66 `search_linear`, over `node.keys()`. -/
def searchLinearU [Ord Q] (bor : K → Q) (q : Q) (a : Addr) (fuel : Nat) : HM K V (Option ((Nat × Bool) × Nat)) := do
  let len ← lenOf a
  searchKeysU bor q a 0 len fuel

/-- The loop of `split_off`, src/btree/map.rs:1104-1125, on the nodes of height `h` at `l` (of `self`) and `r` (of the new map): the comparisons left, or
`none` if a comparison panicked.  What `move_suffix` has moved so far stays moved. -/
def splitLoopU [Ord Q] (bor : K → Q) (q : Q) : (h : Nat) → (l r : Addr) → (fuel : Nat) → HM K V (Option Nat)
  | 0, l, r, fuel => do
    let x ← searchLinearU bor q l fuel
    match x with
    | none => pure none
    | some ((i, _), fuel) => do
      let e ← newEdge ⟨0, l⟩ i
      moveSuffix e ⟨0, r⟩
      pure (some fuel)
  | h + 1, l, r, fuel => do
    let x ← searchLinearU bor q l fuel
    match x with
    | none => pure none
    | some ((i, _), fuel) => do
      let e ← newEdge ⟨h + 1, l⟩ i
      moveSuffix e ⟨h + 1, r⟩
      let cl ← descend e
      let f ← newEdge ⟨h + 1, r⟩ 0
      let cr ← descend f
      splitLoopU bor q h cl.node cr.node fuel

/-- What comes of a call of `split_off`. -/
inductive SplitEnd (K V : Type) where
  /-- it returned the new map, or an error (`none`) -/
  | returned (r : Option HMap)
  /-- a comparison panicked; the entries whose destructors ran while the stack unwound -/
  | unwound (dropped : List (K × V))
deriving Repr, DecidableEq

/-- src/btree/map.rs:1084-1140 `split_off`: what comes of it, and `self` afterwards.  If a comparison panics, `self` keeps the root and the `length` it had,
and the local variable `right` (1094), whose `length` is still 0, is dropped. -/
def HMap.splitOffU [Ord Q] (m : HMap) (bor : K → Q) (q : Q) (fuel : Nat) : HM K V (SplitEnd K V × HMap) :=
  if m.length = 0 then pure (.returned (some HMap.new), m)
  else do
    let total := m.length
    let r ← newLeaf
    match r with
    | none => do
      let _ ← HMap.new.drop
      pure (.returned none, m)
    | some r => do
      let x ← pushLevels m.root.height r
      if x.2 then do
        let f ← splitLoopU bor q m.root.height m.root.node x.1.node fuel
        match f with
        | none => do
          let d ← HMap.drop ⟨x.1, 0⟩
          pure (.unwound d, m)
        | some _ => do
          let l ← fixRightBorder m.root
          let r ← fixLeftBorder x.1
          if l.height < r.height then do
            let ll ← dfsLen l.height l.node
            HM.req (ll ≤ total)
            pure (.returned (some ⟨r, total - ll⟩), ⟨l, ll⟩)
          else do
            let rl ← dfsLen r.height r.node
            HM.req (rl ≤ total)
            pure (.returned (some ⟨r, rl⟩), ⟨l, total - rl⟩)
      else do
        let _ ← HMap.drop ⟨x.1, 0⟩
        pure (.returned none, m)

end Verif.Heap
