import Verif.Heap.UnwindSplit
import Verif.Heap.Api
/-
The calls that look for a key before they change anything, and `extend`, when a comparison of keys panics half-way.  `fuel` is the number of
comparisons that still return; the next one panics.  A result `none` stands for "a comparison panicked, and unwinding has left the call";
otherwise the comparisons left are part of the result.  The functions are those of Verif/Heap/Map.lean, Iter.lean and Api.lean with that added.
-/
namespace Verif.Heap
open Verif
open Verif.Spec (Bound End MutAct Op Out)

variable {K V Q : Type}

/-- src/btree/search.rs:14-34 `search_tree` on the node at `a` of height `h`. -/
def searchTreeU [Ord Q] (bor : K → Q) (q : Q) : (h : Nat) → (a : Addr) → (fuel : Nat) → HM K V (Option (Found × Nat))
  | 0, a, fuel => do
    let x ← searchLinearU bor q a fuel
    match x with
    | none => pure none
    | some ((i, b), fuel) => pure (some (if b then .found ⟨0, a, i⟩ else .goDown ⟨0, a, i⟩, fuel))
  | h + 1, a, fuel => do
    let x ← searchLinearU bor q a fuel
    match x with
    | none => pure none
    | some ((i, b), fuel) =>
      if b then pure (some (.found ⟨h + 1, a, i⟩, fuel))
      else do
        let c ← descend ⟨h + 1, a, i⟩
        searchTreeU bor q h c.node fuel

/-- src/btree/map.rs:635 and the like: `search::search_tree(self.root.as_ref(), key)`. -/
def HMap.searchU [Ord Q] (m : HMap) (bor : K → Q) (q : Q) (fuel : Nat) : HM K V (Option (Found × Nat)) :=
  searchTreeU bor q m.root.height m.root.node fuel

/-- src/btree/map.rs:657-666 `get_key_value` (and `get` 630-639, `contains_key` 687-693). -/
def HMap.getKeyValueU [Ord Q] (m : HMap) (bor : K → Q) (q : Q) (fuel : Nat) : HM K V (Option (Option (K × V) × Nat)) := do
  let x ← m.searchU bor q fuel
  match x with
  | none => pure none
  | some (.found h, fuel) => do
    let kv ← kvOf h
    pure (some (some kv, fuel))
  | some (.goDown _, fuel) => pure (some (none, fuel))

/-- `if let Some(x) = m.get_mut(&q) { *x = f(*x) }`: src/btree/map.rs:716-725. -/
def HMap.updateValU [Ord Q] (m : HMap) (bor : K → Q) (q : Q) (f : V → V) (fuel : Nat) : HM K V (Option (Bool × Nat)) := do
  let x ← m.searchU bor q fuel
  match x with
  | none => pure none
  | some (.goDown _, fuel) => pure (some (false, fuel))
  | some (.found h, fuel) => do
    updVal h f
    pure (some (true, fuel))

/-- src/btree/map.rs:783-799 `remove` (and `Recover::take`, 309-323). -/
def HMap.removeEntryU [Ord Q] (m : HMap) (bor : K → Q) (q : Q) (fuel : Nat) : HM K V (Option (Option (K × V) × Nat) × HMap) := do
  let x ← m.searchU bor q fuel
  match x with
  | none => pure (none, m)
  | some (.found h, fuel) => do
    let (kv, m) ← m.removeKv h
    pure (some (some kv, fuel), m)
  | some (.goDown _, fuel) => pure (some (none, fuel), m)

/-- src/btree/map.rs:965-981 `try_entry`: the root is made an owned one (967) before the search. -/
def HMap.tryEntryU [Ord K] (m : HMap) (k : K) (fuel : Nat) : HM K V (Option (Option (HEntry K) × Nat) × HMap) := do
  let r ← m.ensureRootIsOwned
  match r with
  | none => pure (some (none, fuel), m)
  | some m => do
    let x ← m.searchU id k fuel
    match x with
    | none => pure (none, m)
    | some (.found h, fuel) => pure (some (some (.occupied h), fuel), m)
    | some (.goDown h, fuel) => pure (some (some (.vacant k h), fuel), m)

/-- src/btree/map.rs:754-762 `try_insert`; the result as in `HMap.tryInsert`. -/
def HMap.tryInsertU [Ord K] (m : HMap) (k : K) (v : V) (fuel : Nat) : HM K V (Option (Option (Option V) × Nat) × HMap) := do
  let x ← m.tryEntryU k fuel
  match x with
  | (none, m) => pure (none, m)
  | (some (none, fuel), m) => pure (some (none, fuel), m)
  | (some (some (.occupied h), fuel), m) => do
    let old ← setVal h v
    pure (some (some (some old), fuel), m)
  | (some (some (.vacant k h), fuel), m) => do
    let (r, m) ← m.vacantInsert h (k, v)
    pure (some (r.map fun _ => none, fuel), m)

/-- `Recover::replace`, src/btree/map.rs:328-343; the result as in `HMap.replaceKey`. -/
def HMap.replaceKeyU [Ord K] (m : HMap) (k : K) (v : V) (fuel : Nat) : HM K V (Option (Option (Option K) × Nat) × HMap) := do
  let r ← m.ensureRootIsOwned
  match r with
  | none => pure (some (none, fuel), m)
  | some m => do
    let x ← m.searchU id k fuel
    match x with
    | none => pure (none, m)
    | some (.found h, fuel) => do
      let old ← setKey h k
      pure (some (some (some old), fuel), m)
    | some (.goDown h, fuel) => do
      let x ← m.vacantInsert h (k, v)
      match x.1 with
      | none => pure (some (none, fuel), x.2)
      | some _ => pure (some (some none, fuel), x.2)

/-- src/btree/map.rs:1796-1800 `extend`: the comparisons left.  What was inserted before the comparison panicked stays. -/
def HMap.extendC [Ord K] (m : HMap) : List (K × V) → (fuel : Nat) → HM K V (Option Nat × HMap)
  | [], fuel => pure (some fuel, m)
  | (k, v) :: rest, fuel => do
    let x ← m.tryInsertU k v fuel
    match x with
    | (none, m) => pure (none, m)
    | (some (none, _), _) => HM.panic "Out of Mem"
    | (some (some _, fuel), m) => m.extendC rest fuel

/-! ### range -/

/-- The check of the bounds, src/btree/map.rs:1910-1923: `s == e` if both are excluded, then `s > e`. -/
def rangeCheckU [Ord Q] (s e : Bound Q) (fuel : Nat) : Exec (Option (Unit × Nat)) :=
  match s, e with
  | .excluded s, .excluded e =>
    match fuel with
    | 0 => .ok none
    | fuel + 1 =>
      if compare s e = .eq then .panic "range start and end are equal and excluded in BTreeMap"
      else
        match fuel with
        | 0 => .ok none
        | fuel + 1 =>
          if compare s e = .gt then .panic "range start is greater than range end in BTreeMap"
          else .ok (some ((), fuel))
  | .included s, .included e | .included s, .excluded e | .excluded s, .included e =>
    match fuel with
    | 0 => .ok none
    | fuel + 1 =>
      if compare s e = .gt then .panic "range start is greater than range end in BTreeMap"
      else .ok (some ((), fuel))
  | _, _ => .ok (some ((), fuel))

/-- `min_edge` and the new `min_found`: src/btree/map.rs:1932-1950. -/
def minEdgeU [Ord Q] (bor : K → Q) (found : Bool) (s : Bound Q) (a : Addr) (fuel : Nat) : HM K V (Option ((Nat × Bool) × Nat)) :=
  match found, s with
  | false, .included q => searchLinearU bor q a fuel
  | false, .excluded q => do
    let x ← searchLinearU bor q a fuel
    match x with
    | none => pure none
    | some (r, fuel) => pure (some (if r.2 then (r.1 + 1, true) else (r.1, false), fuel))
  | f, .unbounded => pure (some ((0, f), fuel))
  | true, .included _ => do
    let len ← lenOf a
    pure (some ((len, true), fuel))
  | true, .excluded _ => pure (some ((0, true), fuel))

/-- `max_edge` and the new `max_found`: src/btree/map.rs:1952-1970. -/
def maxEdgeU [Ord Q] (bor : K → Q) (found : Bool) (e : Bound Q) (a : Addr) (fuel : Nat) : HM K V (Option ((Nat × Bool) × Nat)) :=
  match found, e with
  | false, .included q => do
    let x ← searchLinearU bor q a fuel
    match x with
    | none => pure none
    | some (r, fuel) => pure (some (if r.2 then (r.1 + 1, true) else (r.1, false), fuel))
  | false, .excluded q => searchLinearU bor q a fuel
  | f, .unbounded => do
    let len ← lenOf a
    pure (some ((len, f), fuel))
  | true, .included _ => pure (some ((0, true), fuel))
  | true, .excluded _ => do
    let len ← lenOf a
    pure (some ((len, true), fuel))

/-- The loop of `range_search`: src/btree/map.rs:1931-1993, on two nodes of height `h`. -/
def rangeLoopU [Ord Q] (bor : K → Q) (s e : Bound Q) :
    (h : Nat) → (amin amax : Addr) → (minFound maxFound diverged : Bool) → (fuel : Nat) → HM K V (Option (HRange × Nat))
  | 0, amin, amax, mf, xf, dv, fuel => do
    let x ← minEdgeU bor mf s amin fuel
    match x with
    | none => pure none
    | some (lo, fuel) => do
      let y ← maxEdgeU bor xf e amax fuel
      match y with
      | none => pure none
      | some (hi, fuel) =>
        if !dv && hi.1 < lo.1 then HM.panic "Ord is ill-defined in BTreeMap range"
        else do
          let f ← newEdge ⟨0, amin⟩ lo.1
          let b ← newEdge ⟨0, amax⟩ hi.1
          pure (some (⟨f, b⟩, fuel))
  | h + 1, amin, amax, mf, xf, dv, fuel => do
    let x ← minEdgeU bor mf s amin fuel
    match x with
    | none => pure none
    | some (lo, fuel) => do
      let y ← maxEdgeU bor xf e amax fuel
      match y with
      | none => pure none
      | some (hi, fuel) =>
        if !dv && hi.1 < lo.1 then HM.panic "Ord is ill-defined in BTreeMap range"
        else do
          let f ← newEdge ⟨h + 1, amin⟩ lo.1
          let b ← newEdge ⟨h + 1, amax⟩ hi.1
          let cmin ← descend f
          let cmax ← descend b
          rangeLoopU bor s e h cmin.node cmax.node lo.2 hi.2 (dv || lo.1 != hi.1) fuel

/-- src/btree/map.rs:885-896 `range`, 929-944 `range_mut`. -/
def HMap.rangeU [Ord Q] (m : HMap) (bor : K → Q) (s e : Bound Q) (fuel : Nat) : HM K V (Option (HRange × Nat)) := do
  let x ← HM.lift (rangeCheckU s e fuel)
  match x with
  | none => pure none
  | some (_, fuel) => rangeLoopU bor s e m.root.height m.root.node m.root.node false false false fuel

/-! ### the calls of a program -/

/-- `try_entry` and what the program does with the entry. -/
def HMap.withEntryU [Ord K] (m : HMap) (k : K) (fuel : Nat) (rest : Option (HEntry K) × HMap → HM K V (Out K V × HMap)) : HM K V (Option (Out K V) × HMap) := do
  let x ← m.tryEntryU k fuel
  match x with
  | (none, m) => pure (none, m)
  | (some (e, _), m) => do
    let r ← rest (e, m)
    pure (some r.1, r.2)

/-- The rest of `HMap.entryOrInsert`: src/btree/map.rs:2204-2209 `or_try_insert`. -/
def thenOrInsert (v : V) (f : V → V) : Option (HEntry K) × HMap → HM K V (Out K V × HMap)
  | (none, m) => pure (.failed, m)
  | (some e, m) => do
    let (r, m) ← m.orTryInsert e v
    match r with
    | none => pure (.failed, m)
    | some h => do
      let old ← kvOf h
      updVal h f
      pure (.value (some old.2), m)

/-- The rest of `HMap.entryOrInsertWith`: src/btree/map.rs:2227-2235 `or_try_insert_with`. -/
def thenOrInsertWith (v : V) (f : V → V) : Option (HEntry K) × HMap → HM K V (Out K V × HMap)
  | (none, m) => pure (.failed, m)
  | (some e, m) => do
    let (r, m) ← m.orTryInsert e v
    match r with
    | none => pure (.failed, m)
    | some h => do
      updVal h f
      pure (.flag e.isVacant, m)

/-- The rest of `HMap.entryRemove`: src/btree/map.rs:2449-2451 `remove_entry`. -/
def thenRemove : Option (HEntry K) × HMap → HM K V (Out K V × HMap)
  | (none, m) => pure (.failed, m)
  | (some (.vacant _ _), m) => pure (.pair none, m)
  | (some (.occupied h), m) => do
    let (kv, m) ← m.removeKv h
    pure (.pair (some kv), m)

/-- The rest of `HMap.entryModify`: src/btree/map.rs:2277-2288 `and_modify`. -/
def thenModify (f : V → V) : Option (HEntry K) × HMap → HM K V (Out K V × HMap)
  | (none, m) => pure (.failed, m)
  | (some e, m) => do
    andModify e f
    pure (.done, m)

/-- The rest of `HMap.entryKeyOf`: src/btree/map.rs:2249-2254 `key`. -/
def thenKey : Option (HEntry K) × HMap → HM K V (Out K V × HMap)
  | (none, m) => pure (.failed, m)
  | (some e, m) => do
    let k ← entryKey e
    pure (.key k, m)

/-- The rest of `HMap.entryInsert`: src/btree/map.rs:2549-2551 `OccupiedEntry::insert`. -/
def thenInsert (v : V) : Option (HEntry K) × HMap → HM K V (Out K V × HMap)
  | (none, m) => pure (.failed, m)
  | (some (.vacant _ _), m) => pure (.value none, m)
  | (some (.occupied h), m) => do
    let old ← setVal h v
    pure (.value (some old), m)

/-- `range` asked at the given ends.  The flag: `range` panicked because of its bounds. -/
def HMap.rangeRunU [Ord Q] (m : HMap) (bor : K → Q) (lo hi : Bound Q) (es : List End) (fuel : Nat) : HM K V (Option (Out K V)) := do
  let r ← catchRead (m.rangeU bor lo hi fuel)
  match r with
  | none => pure (some .panicked)
  | some none => pure none
  | some (some (r, _)) => do
    let xs ← r.run m.root.height es
    pure (some (.items xs.1))

/-- A program using `range_mut`. -/
def HMap.rangeMutRunU [Ord Q] (m : HMap) (bor : K → Q) (lo hi : Bound Q) (acts : List (MutAct V)) (fuel : Nat) : HM K V (Option (Out K V)) := do
  let r ← catchRead (m.rangeU bor lo hi fuel)
  match r with
  | none => pure (some .panicked)
  | some none => pure none
  | some (some (r, _)) => do
    let xs ← mutRun (HRange.stepH m.root.height) acts r []
    pure (some (.items xs))

/-- Run a call on map number `i`. -/
def onHMapU (p : List HMap) (i : Nat) (f : HMap → HM K V (Option (Out K V) × HMap)) : HM K V (Option (Out K V) × List HMap) :=
  match p[i]? with
  | none => pure (some .skipped, p)
  | some m => do
    let r ← f m
    pure (r.1, p.set i r.2)

/-- Run one call of the API in memory, when only `fuel` of the comparisons it makes return; `none` if it was unwound.  `append`, `split_off` (Verif/Heap/Unwind.lean,
UnwindSplit.lean) and programs of several shared iterators are left undisturbed here, and the other calls do not compare keys. -/
def Op.hcut [Ord K] [Ord Q] (bor : K → Q) (p : List HMap) : Op K V Q → Nat → HM K V (Option (Out K V) × List HMap)
  | .insert i k v, fuel => onHMapU p i fun m => do
      let x ← m.tryInsertU k v fuel
      match x with
      | (none, m) => pure (none, m)
      | (some (some old, _), m) => pure (some (.value old), m)
      | (some (none, _), m) => pure (some .failed, m)
  | .remove i q, fuel => onHMapU p i fun m => do
      let x ← m.removeEntryU bor q fuel
      pure (x.1.map fun r => .value (r.1.map (·.2)), x.2)
  | .get i q, fuel => onHMapU p i fun m => do
      let x ← m.getKeyValueU bor q fuel
      pure (x.map fun r => .value (r.1.map (·.2)), m)
  | .getKeyValue i q, fuel => onHMapU p i fun m => do
      let x ← m.getKeyValueU bor q fuel
      pure (x.map fun r => .pair r.1, m)
  | .containsKey i q, fuel => onHMapU p i fun m => do
      let x ← m.getKeyValueU bor q fuel
      pure (x.map fun r => .flag r.1.isSome, m)
  | .update i q f, fuel => onHMapU p i fun m => do
      let x ← m.updateValU bor q f fuel
      pure (x.map fun r => .flag r.1, m)
  | .extend i items, fuel => onHMapU p i fun m => do
      let x ← m.extendC items fuel
      pure (x.1.map fun _ => .done, x.2)
  | .range i lo hi es, fuel => onHMapU p i fun m => do
      let o ← m.rangeRunU bor lo hi es fuel
      pure (o, m)
  | .rangeMut i lo hi acts, fuel => onHMapU p i fun m => do
      let o ← m.rangeMutRunU bor lo hi acts fuel
      pure (o, m)
  | .entryOrInsert i k v f, fuel => onHMapU p i fun m => m.withEntryU k fuel (thenOrInsert v f)
  | .entryOrInsertWith i k v f, fuel => onHMapU p i fun m => m.withEntryU k fuel (thenOrInsertWith v f)
  | .entryRemove i k, fuel => onHMapU p i fun m => m.withEntryU k fuel thenRemove
  | .entryModify i k f, fuel => onHMapU p i fun m => m.withEntryU k fuel (thenModify f)
  | .entryKey i k, fuel => onHMapU p i fun m => m.withEntryU k fuel thenKey
  | .entryInsert i k v, fuel => onHMapU p i fun m => m.withEntryU k fuel (thenInsert v)
  | .replace i k v, fuel => onHMapU p i fun m => do
      let x ← m.replaceKeyU k v fuel
      match x with
      | (none, m) => pure (none, m)
      | (some (some old, _), m) => pure (some (.oldKey old), m)
      | (some (none, _), m) => pure (some .failed, m)
  | .take i q, fuel => onHMapU p i fun m => do
      let x ← m.removeEntryU bor q fuel
      pure (x.1.map fun r => .oldKey (r.1.map (·.1)), x.2)
  | op, _ => do
    let r ← Op.hrun bor p op
    pure (some r.1, r.2)

/-- A program that catches the panics of its calls, up to the first insertion that fails for want of memory: the answers (`none`: the call was unwound), whether it
came to its end, and its maps. -/
def Op.hcuts [Ord K] [Ord Q] (bor : K → Q) : List (Op K V Q × Nat) → List HMap → HM K V (List (Option (Out K V)) × Bool × List HMap)
  | [], p => pure ([], true, p)
  | (op, fuel) :: ops, p => do
    let r ← Op.hcut bor p op fuel
    if r.1.any (Op.spoils op) then pure ([r.1], false, r.2)
    else do
      let rs ← Op.hcuts bor ops r.2
      pure (r.1 :: rs.1, rs.2)

end Verif.Heap
