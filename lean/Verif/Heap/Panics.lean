import Verif.Heap.Unwind
/-
Level-2 model of calls in which the caller's code panics: destructors of keys and values that are replaced (`try_insert`, `extend`, `append`), and iterators (`extend`,
`from_iter`).  `calm` is the number of such destructors that still return; the next one panics.  (If a second one panics while the stack unwinds, the process
aborts, so there is nothing to model after that.)
-/
namespace Verif.Heap
open Verif

variable {K V : Type}

/-- How a call ended. -/
inductive Stop where
  /-- it returned -/
  | done
  /-- a destructor panicked -/
  | drop
  /-- the iterator panicked -/
  | iter
  /-- `expect("Out of Mem")` panicked, or an error was returned -/
  | mem
deriving Repr, DecidableEq

/-- src/btree/map.rs:754-762 `try_insert`: what was replaced, if it returned.  If there is an equal key, `try_entry` (965-981) drops the new one when it ends, before the
value is replaced; if that panics, `value` is dropped by unwinding.  The destructors of `key` and `value` themselves when memory is refused are left out. -/
def HMap.tryInsertD [Ord K] (m : HMap) (k : K) (v : V) (calm : Nat) : HM K V (Stop × Option V × Nat × HMap) := do
  let e ← m.tryEntry k
  match e.1 with
  | none => pure (.mem, none, calm, e.2)
  | some (.occupied h) =>
    match calm with
    | 0 => pure (.drop, none, 0, e.2)
    | calm + 1 => do
      let old ← setVal h v
      pure (.done, some old, calm, e.2)
  | some (.vacant k h) => do
    let r ← e.2.vacantInsert h (k, v)
    match r.1 with
    | none => pure (.mem, none, calm, r.2)
    | some _ => pure (.done, none, calm, r.2)

/-- src/btree/map.rs:1796-1800 `extend` (and 1805-1807, with copies), with an iterator that yields `items` and then ends, or panics if `bad`.  The value that `try_insert` returns is
dropped by the closure (1799). -/
def HMap.extendD [Ord K] (bad : Bool) : List (K × V) → (calm : Nat) → HMap → HM K V (Stop × HMap)
  | [], _, m => pure (if bad then .iter else .done, m)
  | (k, v) :: rest, calm, m => do
    let x ← m.tryInsertD k v calm
    match x.1 with
    | .done =>
      match x.2.1, x.2.2.1 with
      | none, calm => HMap.extendD bad rest calm x.2.2.2
      | some _, 0 => pure (.drop, x.2.2.2)
      | some _, calm + 1 => HMap.extendD bad rest calm x.2.2.2
    | why => pure (why, x.2.2.2)

/-- src/btree/map.rs:1787-1791 `from_iter`: the map, or why it unwound and the pairs that the destructor of the unfinished map dropped. -/
def HMap.fromIterD [Ord K] (bad : Bool) (items : List (K × V)) (calm : Nat) : HM K V (Stop × Option HMap × List (K × V)) := do
  let x ← HMap.extendD bad items calm HMap.new
  match x.1 with
  | .done => pure (.done, some x.2, [])
  | why => do
    let l ← x.2.drop
    pure (why, none, l)

/-! ### `append` -/

/-- src/btree/map.rs:2662-2684 `MergeIter::next`: `none` if the destructor of a pair of the left map (2680) panicked; the pairs dropped. -/
def HMerge.nextD [Ord K] (m : HMerge K V) (calm : Nat) : HM K V (Option (Option (K × V) × Nat) × List (K × V) × HMerge K V) := do
  let a ← m.left.peek
  let b ← m.right.peek
  match a.1, b.1 with
  | none, none => pure (some (none, calm), [], ⟨a.2, b.2⟩)
  | some _, none => do
    let x ← a.2.next
    pure (some (x.1, calm), [], ⟨x.2, b.2⟩)
  | none, some _ => do
    let y ← b.2.next
    pure (some (y.1, calm), [], ⟨a.2, y.2⟩)
  | some u, some v =>
    match compare u.1 v.1 with
    | .lt => do
      let x ← a.2.next
      pure (some (x.1, calm), [], ⟨x.2, b.2⟩)
    | .gt => do
      let y ← b.2.next
      pure (some (y.1, calm), [], ⟨a.2, y.2⟩)
    | .eq => do
      let x ← a.2.next
      match calm with
      | 0 => pure (none, x.1.toList, ⟨x.2, b.2⟩)
      | calm + 1 => do
        let y ← b.2.next
        pure (some (y.1, calm), x.1.toList, ⟨x.2, y.2⟩)

/-- The state of the `for` loop of `from_sorted_iter`. -/
structure BuildingD (K V : Type) where
  iter : HMerge K V
  root : NRef
  cur : NRef
  length : Nat
  calm : Nat
  dropped : List (K × V)

/-- One round of the `for` loop of `from_sorted_iter`, src/btree/map.rs:987-1029; see `buildStepU`. -/
def buildStepD [Ord K] (s : BuildingD K V) : HM K V (BuildingD K V ⊕ (Stop × BuildingD K V)) := do
  let x ← s.iter.nextD s.calm
  match x.1 with
  | none => pure (.inr (.drop, { s with iter := x.2.2, dropped := s.dropped ++ x.2.1 }))
  | some (none, c) => pure (.inr (.done, { s with iter := x.2.2, calm := c, dropped := s.dropped ++ x.2.1 }))
  | some (some kv, c) => do
    let r ← sortedPushU s.root s.cur kv
    match r.1 with
    | some cur => pure (.inl ⟨x.2.2, r.2, cur, s.length + 1, c, s.dropped ++ x.2.1⟩)
    | none => pure (.inr (.mem, ⟨x.2.2, r.2, s.cur, s.length, c, s.dropped ++ x.2.1 ++ [kv]⟩))

/-- src/btree/map.rs:983-1030 `from_sorted_iter`; see `HMap.fromSortedIterU`. -/
def HMap.fromSortedIterD [Ord K] (m : HMap) (iter : HMerge K V) (bnd calm : Nat) : HM K V (Stop × HMap × List (K × V)) := do
  let r ← m.ensureRootIsOwned
  match r with
  | none => do
    let l ← iter.left.drop
    let r ← iter.right.drop
    pure (.mem, m, l ++ r)
  | some m => do
    let e ← lastLeafEdge m.root.height m.root.node
    let r ← loopN buildStepD (bnd + 1) ⟨iter, m.root, e.ref, m.length, calm, []⟩
    let x ← ended r
    let l ← x.2.iter.left.drop
    let r ← x.2.iter.right.drop
    pure (x.1, ⟨x.2.root, x.2.length⟩, x.2.dropped ++ l ++ r)

/-- src/btree/map.rs:830-853 `append`: how it ended, `self` and `other` afterwards, and the pairs dropped. -/
def HMap.appendD [Ord K] (m o : HMap) (calm : Nat) : HM K V (Stop × HMap × HMap × List (K × V)) :=
  if o.length = 0 then pure (.done, m, o, [])
  else if m.length = 0 then pure (.done, o, m, [])
  else do
    let l ← m.intoIter
    let r ← o.intoIter
    let n ← HMap.new.fromSortedIterD ⟨⟨l, m.root.height, none⟩, ⟨r, o.root.height, none⟩⟩ (m.length + o.length) calm
    match n.1 with
    | .done => do
      fixRightEdge n.2.1.root.height n.2.1.root.node
      pure (.done, n.2.1, HMap.new, n.2.2)
    | w => pure (w, n.2.1, HMap.new, n.2.2)

end Verif.Heap
