import Verif.Heap.UnwindOps
/-
The calls of Verif/Heap/Api.lean once more, when nothing is known about the comparisons of keys.  The keys' `cmp` (and `==`, `>`) may keep state and answer anything:
the comparisons made during a call are numbered, and number `n` is any function of the two keys it is given, which may also panic (`none`).  Every behaviour of a Rust
implementation of `Ord`, `PartialOrd`, `PartialEq` during the call is that of such a sequence.
The functions are those of Verif/Heap/Map.lean, Iter.lean, Bulk.lean, Append.lean, Api.lean with `compare` replaced by the next element of the sequence; a result `none`
stands for "the comparison panicked, and unwinding has left the call"; otherwise the rest of the sequence is part of the result.
-/
namespace Verif.Heap
open Verif
open Verif.BTree (CAPACITY)
open Verif.Spec (Bound End MutAct Op Out Source ViewAct Seen)

variable {K V Q : Type}

/-- The comparisons made during a call, in order: what `a.cmp(&b)` answers, `none` if it panics. -/
abbrev Cmps (Q : Type) := Nat → Q → Q → Option Ordering

/-- The comparisons after the first one. -/
def Cmps.rest (c : Cmps Q) : Cmps Q := fun n => c (n + 1)

/-- All comparisons return. -/
def Cmps.Return (c : Cmps Q) : Prop := ∀ n a b, (c n a b).isSome = true

/-- The comparisons of an honest `Ord`. -/
def Cmps.ofOrd [Ord Q] : Cmps Q := fun _ a b => some (compare a b)

/-! ### search -/

/-- The loop of `search_linear` over keys `i .. i + n`, src/btree/search.rs:58-65. -/
def searchKeysO (bor : K → Q) (q : Q) (a : Addr) : (i n : Nat) → Cmps Q → HM K V (Option ((Nat × Bool) × Cmps Q))
  | i, 0, c => pure (some ((i, false), c))
  | i, n + 1, c => do
    let nd ← getNode a
    let k ← HM.lift (nd.keys.peek CAPACITY i)
    match c 0 q (bor k) with
    | none => pure none
    | some .gt => searchKeysO bor q a (i + 1) n c.rest
    | some .eq => pure (some ((i, true), c.rest))
    | some .lt => pure (some ((i, false), c.rest))

/-- src/btree/search.rs:49-66 `search_linear`, over `node.keys()`. -/
def searchLinearO (bor : K → Q) (q : Q) (a : Addr) (c : Cmps Q) : HM K V (Option ((Nat × Bool) × Cmps Q)) := do
  let len ← lenOf a
  searchKeysO bor q a 0 len c

/-- src/btree/search.rs:14-34 `search_tree` on the node at `a` of height `h`. -/
def searchTreeO (bor : K → Q) (q : Q) : (h : Nat) → (a : Addr) → Cmps Q → HM K V (Option (Found × Cmps Q))
  | 0, a, c => do
    let x ← searchLinearO bor q a c
    match x with
    | none => pure none
    | some ((i, b), c) => pure (some (if b then .found ⟨0, a, i⟩ else .goDown ⟨0, a, i⟩, c))
  | h + 1, a, c => do
    let x ← searchLinearO bor q a c
    match x with
    | none => pure none
    | some ((i, b), c) =>
      if b then pure (some (.found ⟨h + 1, a, i⟩, c))
      else do
        let d ← descend ⟨h + 1, a, i⟩
        searchTreeO bor q h d.node c

/-- src/btree/map.rs:635 and the like: `search::search_tree(self.root.as_ref(), key)`. -/
def HMap.searchO (m : HMap) (bor : K → Q) (q : Q) (c : Cmps Q) : HM K V (Option (Found × Cmps Q)) :=
  searchTreeO bor q m.root.height m.root.node c

/-- src/btree/map.rs:657-666 `get_key_value` (and `get` 630-639, `contains_key` 687-693). -/
def HMap.getKeyValueO (m : HMap) (bor : K → Q) (q : Q) (c : Cmps Q) : HM K V (Option (Option (K × V))) := do
  let x ← m.searchO bor q c
  match x with
  | none => pure none
  | some (.found h, _) => do
    let kv ← kvOf h
    pure (some (some kv))
  | some (.goDown _, _) => pure (some none)

/-- `if let Some(x) = m.get_mut(&q) { *x = f(*x) }`: src/btree/map.rs:716-725. -/
def HMap.updateValO (m : HMap) (bor : K → Q) (q : Q) (f : V → V) (c : Cmps Q) : HM K V (Option Bool) := do
  let x ← m.searchO bor q c
  match x with
  | none => pure none
  | some (.goDown _, _) => pure (some false)
  | some (.found h, _) => do
    updVal h f
    pure (some true)

/-- src/btree/map.rs:783-799 `remove` (and `Recover::take`, 309-323). -/
def HMap.removeEntryO (m : HMap) (bor : K → Q) (q : Q) (c : Cmps Q) : HM K V (Option (Option (K × V)) × HMap) := do
  let x ← m.searchO bor q c
  match x with
  | none => pure (none, m)
  | some (.found h, _) => do
    let (kv, m) ← m.removeKv h
    pure (some (some kv), m)
  | some (.goDown _, _) => pure (some none, m)

/-- src/btree/map.rs:965-981 `try_entry`: the root is made an owned one (967) before the search. -/
def HMap.tryEntryO (m : HMap) (k : K) (c : Cmps K) : HM K V (Option (Option (HEntry K) × Cmps K) × HMap) := do
  let r ← m.ensureRootIsOwned
  match r with
  | none => pure (some (none, c), m)
  | some m => do
    let x ← m.searchO id k c
    match x with
    | none => pure (none, m)
    | some (.found h, c) => pure (some (some (.occupied h), c), m)
    | some (.goDown h, c) => pure (some (some (.vacant k h), c), m)

/-- src/btree/map.rs:754-762 `try_insert`; the result as in `HMap.tryInsert`. -/
def HMap.tryInsertO (m : HMap) (k : K) (v : V) (c : Cmps K) : HM K V (Option (Option (Option V) × Cmps K) × HMap) := do
  let x ← m.tryEntryO k c
  match x with
  | (none, m) => pure (none, m)
  | (some (none, c), m) => pure (some (none, c), m)
  | (some (some (.occupied h), c), m) => do
    let old ← setVal h v
    pure (some (some (some old), c), m)
  | (some (some (.vacant k h), c), m) => do
    let (r, m) ← m.vacantInsert h (k, v)
    pure (some (r.map fun _ => none, c), m)

/-- `Recover::replace`, src/btree/map.rs:328-343; the result as in `HMap.replaceKey`. -/
def HMap.replaceKeyO (m : HMap) (k : K) (v : V) (c : Cmps K) : HM K V (Option (Option (Option K)) × HMap) := do
  let r ← m.ensureRootIsOwned
  match r with
  | none => pure (some none, m)
  | some m => do
    let x ← m.searchO id k c
    match x with
    | none => pure (none, m)
    | some (.found h, _) => do
      let old ← setKey h k
      pure (some (some (some old)), m)
    | some (.goDown h, _) => do
      let x ← m.vacantInsert h (k, v)
      match x.1 with
      | none => pure (some none, x.2)
      | some _ => pure (some (some none), x.2)

/-- src/btree/map.rs:1796-1800 `extend`: whether it came to its end, and the map.  What was inserted before the comparison panicked stays. -/
def HMap.extendO (m : HMap) : List (K × V) → Cmps K → HM K V (Bool × HMap)
  | [], _ => pure (true, m)
  | (k, v) :: rest, c => do
    let x ← m.tryInsertO k v c
    match x with
    | (none, m) => pure (false, m)
    | (some (none, _), _) => HM.panic "Out of Mem"
    | (some (some _, c), m) => m.extendO rest c

/-! ### range -/

/-- The check of the bounds, src/btree/map.rs:1910-1923: `s == e` if both are excluded, then `s > e`. -/
def rangeCheckO (s e : Bound Q) (c : Cmps Q) : Exec (Option (Cmps Q)) :=
  match s, e with
  | .excluded s, .excluded e =>
    match c 0 s e with
    | none => .ok none
    | some x =>
      if x = .eq then .panic "range start and end are equal and excluded in BTreeMap"
      else
        match c 1 s e with
        | none => .ok none
        | some x =>
          if x = .gt then .panic "range start is greater than range end in BTreeMap"
          else .ok (some c.rest.rest)
  | .included s, .included e | .included s, .excluded e | .excluded s, .included e =>
    match c 0 s e with
    | none => .ok none
    | some x =>
      if x = .gt then .panic "range start is greater than range end in BTreeMap"
      else .ok (some c.rest)
  | _, _ => .ok (some c)

/-- `min_edge` and the new `min_found`: src/btree/map.rs:1932-1950. -/
def minEdgeO (bor : K → Q) (found : Bool) (s : Bound Q) (a : Addr) (c : Cmps Q) : HM K V (Option ((Nat × Bool) × Cmps Q)) :=
  match found, s with
  | false, .included q => searchLinearO bor q a c
  | false, .excluded q => do
    let x ← searchLinearO bor q a c
    match x with
    | none => pure none
    | some (r, c) => pure (some (if r.2 then (r.1 + 1, true) else (r.1, false), c))
  | f, .unbounded => pure (some ((0, f), c))
  | true, .included _ => do
    let len ← lenOf a
    pure (some ((len, true), c))
  | true, .excluded _ => pure (some ((0, true), c))

/-- `max_edge` and the new `max_found`: src/btree/map.rs:1952-1970. -/
def maxEdgeO (bor : K → Q) (found : Bool) (e : Bound Q) (a : Addr) (c : Cmps Q) : HM K V (Option ((Nat × Bool) × Cmps Q)) :=
  match found, e with
  | false, .included q => do
    let x ← searchLinearO bor q a c
    match x with
    | none => pure none
    | some (r, c) => pure (some (if r.2 then (r.1 + 1, true) else (r.1, false), c))
  | false, .excluded q => searchLinearO bor q a c
  | f, .unbounded => do
    let len ← lenOf a
    pure (some ((len, f), c))
  | true, .included _ => pure (some ((0, true), c))
  | true, .excluded _ => do
    let len ← lenOf a
    pure (some ((len, true), c))

/-- The loop of `range_search`: src/btree/map.rs:1931-1993, on two nodes of height `h`. -/
def rangeLoopO (bor : K → Q) (s e : Bound Q) :
    (h : Nat) → (amin amax : Addr) → (minFound maxFound diverged : Bool) → Cmps Q → HM K V (Option (HRange × Cmps Q))
  | 0, amin, amax, mf, xf, dv, c => do
    let x ← minEdgeO bor mf s amin c
    match x with
    | none => pure none
    | some (lo, c) => do
      let y ← maxEdgeO bor xf e amax c
      match y with
      | none => pure none
      | some (hi, c) =>
        if !dv && hi.1 < lo.1 then HM.panic "Ord is ill-defined in BTreeMap range"
        else do
          let f ← newEdge ⟨0, amin⟩ lo.1
          let b ← newEdge ⟨0, amax⟩ hi.1
          pure (some (⟨f, b⟩, c))
  | h + 1, amin, amax, mf, xf, dv, c => do
    let x ← minEdgeO bor mf s amin c
    match x with
    | none => pure none
    | some (lo, c) => do
      let y ← maxEdgeO bor xf e amax c
      match y with
      | none => pure none
      | some (hi, c) =>
        if !dv && hi.1 < lo.1 then HM.panic "Ord is ill-defined in BTreeMap range"
        else do
          let f ← newEdge ⟨h + 1, amin⟩ lo.1
          let b ← newEdge ⟨h + 1, amax⟩ hi.1
          let cmin ← descend f
          let cmax ← descend b
          rangeLoopO bor s e h cmin.node cmax.node lo.2 hi.2 (dv || lo.1 != hi.1) c

/-- src/btree/map.rs:885-896 `range`, 929-944 `range_mut`. -/
def HMap.rangeO (m : HMap) (bor : K → Q) (s e : Bound Q) (c : Cmps Q) : HM K V (Option (HRange × Cmps Q)) := do
  let x ← HM.lift (rangeCheckO s e c)
  match x with
  | none => pure none
  | some c => rangeLoopO bor s e m.root.height m.root.node m.root.node false false false c

/-- `range` asked at the given ends.  `panicked`: because of its bounds, or because it found the order ill-defined. -/
def HMap.rangeRunO (m : HMap) (bor : K → Q) (lo hi : Bound Q) (es : List End) (c : Cmps Q) : HM K V (Option (Out K V)) := do
  let r ← catchRead (m.rangeO bor lo hi c)
  match r with
  | none => pure (some .panicked)
  | some none => pure none
  | some (some (r, _)) => do
    let xs ← r.run m.root.height es
    pure (some (.items xs.1))

/-- A program using `range_mut`. -/
def HMap.rangeMutRunO (m : HMap) (bor : K → Q) (lo hi : Bound Q) (acts : List (MutAct V)) (c : Cmps Q) : HM K V (Option (Out K V)) := do
  let r ← catchRead (m.rangeO bor lo hi c)
  match r with
  | none => pure (some .panicked)
  | some none => pure none
  | some (some (r, _)) => do
    let xs ← mutRun (HRange.stepH m.root.height) acts r []
    pure (some (.items xs))

/-! ### shared iterators -/

/-- `range` of a map or a set among several iterators; if it panics it is caught, and the comparisons go on with the sequence `c'` (any sequence). -/
def HMap.openRangeO (m : HMap) (bor : K → Q) (mk : HRange → HView) (lo hi : Bound Q) (p : List HView) (c c' : Cmps Q) : HM K V ((Seen K V × List HView) × Cmps Q) := do
  let r ← catchRead (m.rangeO bor lo hi c)
  match r with
  | some (some (r, c)) => pure ((.opened, p ++ [mk r]), c)
  | _ => pure ((.panicked, p), c')

/-- One step of a program using several iterators over `m`: see `ViewAct.hrun`.  Only opening a range compares keys. -/
def ViewAct.hrunO (m : HMap) (bor : K → Q) (p : List HView) (c c' : Cmps Q) : ViewAct Q → HM K V ((Seen K V × List HView) × Cmps Q)
  | .start (.range lo hi) => m.openRangeO bor .range lo hi p c c'
  | .start (.setRange lo hi) => m.openRangeO bor .setRange lo hi p c c'
  | .start .iter => do
    let it ← m.iter
    pure ((.opened, p ++ [.iter it]), c)
  | .start .keys => do
    let it ← m.iter
    pure ((.opened, p ++ [.keys it]), c)
  | .start .values => do
    let it ← m.iter
    pure ((.opened, p ++ [.values it]), c)
  | .clone i => do
    let x ← onHView p i fun v => pure (.opened, p ++ [v.clone])
    pure (x, c)
  | .ask i e => do
    let x ← onHView p i fun v => do
      let x ← v.step m.root.height e
      pure (.item x.1, p.set i x.2)
    pure (x, c)
  | .hint i => do
    let x ← onHView p i fun v => pure (.hint v.sizeHint, p)
    pure (x, c)
  | .debug i => do
    let x ← onHView p i fun v => do
      let l ← v.debug m
      pure (.list l, p)
    pure (x, c)

/-- A whole program of that kind; `cs` are the sequences of comparisons after each panic. -/
def ViewAct.hrunsO (m : HMap) (bor : K → Q) : List (ViewAct Q) → List HView → Cmps Q → (Nat → Cmps Q) → HM K V (List (Seen K V))
  | [], _, _, _ => pure []
  | a :: as, p, c, cs => do
    let x ← ViewAct.hrunO m bor p c (cs 0) a
    let os ← ViewAct.hrunsO m bor as x.1.2 x.2 fun n => cs (n + 1)
    pure (x.1.1 :: os)

/-! ### split_off, append

If a comparison panics in these the run ends here; what they leave then is the subject of Verif/Heap/Unwind.lean, UnwindSplit.lean. -/

/-- The loop of `split_off`, src/btree/map.rs:1104-1125, on the nodes of height `h` at `l` (of `self`) and `r` (of the new map). -/
def splitLoopO (bor : K → Q) (q : Q) : (h : Nat) → (l r : Addr) → Cmps Q → HM K V Unit
  | 0, l, r, c => do
    let x ← searchLinearO bor q l c
    match x with
    | none => HM.panic "a comparison of keys"
    | some ((i, _), _) => do
      let e ← newEdge ⟨0, l⟩ i
      moveSuffix e ⟨0, r⟩
  | h + 1, l, r, c => do
    let x ← searchLinearO bor q l c
    match x with
    | none => HM.panic "a comparison of keys"
    | some ((i, _), c) => do
      let e ← newEdge ⟨h + 1, l⟩ i
      moveSuffix e ⟨h + 1, r⟩
      let cl ← descend e
      let f ← newEdge ⟨h + 1, r⟩ 0
      let cr ← descend f
      splitLoopO bor q h cl.node cr.node c

/-- src/btree/map.rs:1084-1140 `split_off`: see `HMap.splitOff`. -/
def HMap.splitOffO (m : HMap) (bor : K → Q) (q : Q) (c : Cmps Q) : HM K V (Option HMap × HMap) :=
  if m.length = 0 then pure (some HMap.new, m)
  else do
    let total := m.length
    let r ← newLeaf
    match r with
    | none => do
      let _ ← HMap.new.drop
      pure (none, m)
    | some r => do
      let x ← pushLevels m.root.height r
      if x.2 then do
        splitLoopO bor q m.root.height m.root.node x.1.node c
        let l ← fixRightBorder m.root
        let r ← fixLeftBorder x.1
        if l.height < r.height then do
          let ll ← dfsLen l.height l.node
          HM.req (ll ≤ total)
          pure (some ⟨r, total - ll⟩, ⟨l, ll⟩)
        else do
          let rl ← dfsLen r.height r.node
          HM.req (rl ≤ total)
          pure (some ⟨r, rl⟩, ⟨l, total - rl⟩)
      else do
        let _ ← HMap.drop ⟨x.1, 0⟩
        pure (none, m)

/-- src/btree/map.rs:2662-2684 `MergeIter::next`. -/
def HMerge.nextO (m : HMerge K V) (c : Cmps K) : HM K V ((Option (K × V) × HMerge K V) × Cmps K) := do
  let a ← m.left.peek
  let b ← m.right.peek
  match a.1, b.1 with
  | none, none => pure ((none, ⟨a.2, b.2⟩), c)
  | some _, none => do
    let x ← a.2.next
    pure ((x.1, ⟨x.2, b.2⟩), c)
  | none, some _ => do
    let y ← b.2.next
    pure ((y.1, ⟨a.2, y.2⟩), c)
  | some u, some v =>
    match c 0 u.1 v.1 with
    | none => HM.panic "a comparison of keys"
    | some .lt => do
      let x ← a.2.next
      pure ((x.1, ⟨x.2, b.2⟩), c.rest)
    | some .gt => do
      let y ← b.2.next
      pure ((y.1, ⟨a.2, y.2⟩), c.rest)
    | some .eq => do
      let x ← a.2.next
      let y ← b.2.next
      pure ((y.1, ⟨x.2, y.2⟩), c.rest)

/-- One round of the `for` loop of `from_sorted_iter`, src/btree/map.rs:987-1029. -/
def buildStepO (s : Building K V × Cmps K) : HM K V ((Building K V × Cmps K) ⊕ Building K V) := do
  let x ← s.1.iter.nextO s.2
  match x.1.1 with
  | none => pure (.inr { s.1 with iter := x.1.2 })
  | some kv => do
    let r ← sortedPush s.1.root s.1.cur kv
    pure (.inl (⟨x.1.2, r.2, r.1, s.1.length + 1⟩, x.2))

/-- src/btree/map.rs:983-1030 `from_sorted_iter` on the map `m`: see `HMap.fromSortedIter`. -/
def HMap.fromSortedIterO (m : HMap) (iter : HMerge K V) (bnd : Nat) (c : Cmps K) : HM K V HMap := do
  let r ← m.ensureRootIsOwned
  match r with
  | none => HM.panic "Out Of Mem"
  | some m => do
    let e ← lastLeafEdge m.root.height m.root.node
    let r ← loopN buildStepO (bnd + 1) (⟨iter, m.root, e.ref, m.length⟩, c)
    let s ← ended r
    let _ ← s.iter.left.drop
    let _ ← s.iter.right.drop
    pure ⟨s.root, s.length⟩

/-- src/btree/map.rs:830-853 `append`: `(self, other)` afterwards. -/
def HMap.appendO (m o : HMap) (c : Cmps K) : HM K V (HMap × HMap) :=
  if o.length = 0 then pure (m, o)
  else if m.length = 0 then pure (o, m)
  else do
    let l ← m.intoIter
    let r ← o.intoIter
    let n ← HMap.new.fromSortedIterO ⟨⟨l, m.root.height, none⟩, ⟨r, o.root.height, none⟩⟩ (m.length + o.length) c
    fixRightEdge n.root.height n.root.node
    pure (n, HMap.new)

/-! ### programs -/

/-- What is known of the comparisons during one call: those of keys (`key`), those of borrowed forms of keys (`form`), and in a program of several iterators the ones
after each panic that is caught (`forms`). -/
structure CallCmps (K Q : Type) where
  key : Cmps K
  form : Cmps Q
  forms : Nat → Cmps Q

/-- All comparisons of the call return. -/
def CallCmps.Return (c : CallCmps K Q) : Prop := c.key.Return ∧ c.form.Return ∧ ∀ n, (c.forms n).Return

/-- Honest comparisons. -/
def CallCmps.ofOrd [Ord K] [Ord Q] : CallCmps K Q := ⟨Cmps.ofOrd, Cmps.ofOrd, fun _ => Cmps.ofOrd⟩

/-- `try_entry` and what the program does with the entry. -/
def HMap.withEntryO (m : HMap) (k : K) (c : Cmps K) (rest : Option (HEntry K) × HMap → HM K V (Out K V × HMap)) : HM K V (Option (Out K V) × HMap) := do
  let x ← m.tryEntryO k c
  match x with
  | (none, m) => pure (none, m)
  | (some (e, _), m) => do
    let r ← rest (e, m)
    pure (some r.1, r.2)

/-- Run one call of the API in memory: see `Op.hrun`.  `none` if it was unwound by a panicking comparison. -/
def Op.hany (bor : K → Q) (p : List HMap) : Op K V Q → CallCmps K Q → HM K V (Option (Out K V) × List HMap)
  | .new, _ => pure (some .done, p ++ [HMap.new])
  | .insert i k v, c => onHMapU p i fun m => do
      let x ← m.tryInsertO k v c.key
      match x with
      | (none, m) => pure (none, m)
      | (some (some old, _), m) => pure (some (.value old), m)
      | (some (none, _), m) => pure (some .failed, m)
  | .remove i q, c => onHMapU p i fun m => do
      let x ← m.removeEntryO bor q c.form
      pure (x.1.map fun r => .value (r.map (·.2)), x.2)
  | .get i q, c => onHMapU p i fun m => do
      let x ← m.getKeyValueO bor q c.form
      pure (x.map fun r => .value (r.map (·.2)), m)
  | .getKeyValue i q, c => onHMapU p i fun m => do
      let x ← m.getKeyValueO bor q c.form
      pure (x.map fun r => .pair r, m)
  | .containsKey i q, c => onHMapU p i fun m => do
      let x ← m.getKeyValueO bor q c.form
      pure (x.map fun r => .flag r.isSome, m)
  | .len i, _ => onHMapU p i fun m => pure (some (.count m.length), m)
  | .isEmpty i, _ => onHMapU p i fun m => pure (some (.flag (m.length == 0)), m)
  | .update i q f, c => onHMapU p i fun m => do
      let x ← m.updateValO bor q f c.form
      pure (x.map fun r => .flag r, m)
  | .clear i, _ => onHMapU p i fun m => do
      let m ← m.clear
      pure (some .done, m)
  | .append i j, c =>
    match p[i]?, p[j]? with
    | some m, some o =>
      if i = j then pure (some .skipped, p)
      else do
        let r ← m.appendO o c.key
        pure (some .done, (p.set i r.1).set j r.2)
    | _, _ => pure (some .skipped, p)
  | .splitOff i q, c =>
    match p[i]? with
    | some m => do
      let r ← m.splitOffO bor q c.form
      match r.1 with
      | some right => pure (some .done, p.set i r.2 ++ [right])
      | none => pure (some .failed, p.set i r.2)
    | none => pure (some .skipped, p)
  | .extend i items, c => onHMapU p i fun m => do
      let x ← m.extendO items c.key
      pure (if x.1 then some .done else none, x.2)
  | .clone i, _ =>
    match p[i]? with
    | some m => do
      let c ← m.clone id id
      pure (some .done, p ++ [c])
    | none => pure (some .skipped, p)
  | .iterate i es, _ => onHMapU p i fun m => do
      let o ← m.iterRun es
      pure (some o, m)
  | .range i lo hi es, c => onHMapU p i fun m => do
      let o ← m.rangeRunO bor lo hi es c.form
      pure (o, m)
  | .iterMut i acts, _ => onHMapU p i fun m => do
      let o ← m.iterMutRun acts
      pure (some o, m)
  | .rangeMut i lo hi acts, c => onHMapU p i fun m => do
      let o ← m.rangeMutRunO bor lo hi acts c.form
      pure (o, m)
  | .intoIter i es, _ => onHMapU p i fun m => do
      let o ← m.intoIterRun es
      pure (some o, HMap.new)
  | .entryOrInsert i k v f, c => onHMapU p i fun m => m.withEntryO k c.key (thenOrInsert v f)
  | .entryOrInsertWith i k v f, c => onHMapU p i fun m => m.withEntryO k c.key (thenOrInsertWith v f)
  | .entryRemove i k, c => onHMapU p i fun m => m.withEntryO k c.key thenRemove
  | .entryModify i k f, c => onHMapU p i fun m => m.withEntryO k c.key (thenModify f)
  | .entryKey i k, c => onHMapU p i fun m => m.withEntryO k c.key thenKey
  | .entryInsert i k v, c => onHMapU p i fun m => m.withEntryO k c.key (thenInsert v)
  | .tryClone i ck cv, _ =>
    match p[i]? with
    | some m => do
      let r ← m.tryClone (BTree.keyCloner ck) (BTree.valCloner cv)
      match r with
      | .ok c => pure (some .done, p ++ [c])
      | .error _ => pure (some .failed, p)
    | none => pure (some .skipped, p)
  | .views i acts, c => onHMapU p i fun m => do
      let xs ← ViewAct.hrunsO m bor acts [] c.form c.forms
      pure (some (.seen xs), m)
  | .replace i k v, c => onHMapU p i fun m => do
      let x ← m.replaceKeyO k v c.key
      match x with
      | (none, m) => pure (none, m)
      | (some (some old), m) => pure (some (.oldKey old), m)
      | (some none, m) => pure (some .failed, m)
  | .take i q, c => onHMapU p i fun m => do
      let x ← m.removeEntryO bor q c.form
      pure (x.1.map fun r => .oldKey (r.map (·.1)), x.2)

/-- A program that catches the panics of its calls, up to the first insertion that fails for want of memory: the answers (`none`: the call was unwound), whether it
came to its end, and its maps. -/
def Op.hanys (bor : K → Q) : List (Op K V Q × CallCmps K Q) → List HMap → HM K V (List (Option (Out K V)) × Bool × List HMap)
  | [], p => pure ([], true, p)
  | (op, c) :: ops, p => do
    let r ← Op.hany bor p op c
    if r.1.any (Op.spoils op) then pure ([r.1], false, r.2)
    else do
      let rs ← Op.hanys bor ops r.2
      pure (r.1 :: rs.1, rs.2)

end Verif.Heap
