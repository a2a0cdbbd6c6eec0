import Verif.Heap.Api
import Verif.SpecEntry
/-
Level-2 model of an entry that is held and used, with closures that may panic.
-/
namespace Verif.Heap
open Verif
open Verif.Spec (EntryLook EntryEnd EntrySeen)

variable {K V : Type}

/-- `OccupiedEntry::get`, src/btree/map.rs:2470-2472; `none` for a vacant entry. -/
def HEntry.get : HEntry K → HM K V (Option V)
  | .occupied h => do
    let kv ← kvOf h
    pure (some kv.2)
  | .vacant _ _ => pure none

/-- `Debug for Entry`, src/btree/map.rs:512-519, `VacantEntry` 535-539, `OccupiedEntry` 555-562: `key()`, and `get()` for an occupied entry. -/
def HEntry.debug (e : HEntry K) : HM K V (K × Option V) := do
  let k ← entryKey e
  let v ← e.get
  pure (k, v)

/-- The calls that leave the entry in hand; the flag says that a closure panicked.  `key` src/btree/map.rs:2249-2254, 2329-2331, 2424-2426; `and_modify` 2277-2288 (it
calls the closure on `get_mut` only for an occupied entry); `get_mut` 2501-2503; `OccupiedEntry::insert` 2549-2551. -/
def HEntry.look (e : HEntry K) : EntryLook V → HM K V (EntrySeen K V × Bool)
  | .key => do
    let k ← entryKey e
    pure (.key k, false)
  | .get => do
    let v ← e.get
    pure (.value v, false)
  | .debug => do
    let x ← e.debug
    pure (.printed x.1 x.2, false)
  | .modify f panics =>
    match e with
    | .occupied h => do
      updVal h f
      pure (if panics then (.unwound, true) else (.done, false))
    | .vacant _ _ => pure (.done, false)
  | .write f =>
    match e with
    | .occupied h => do
      updVal h f
      pure (.done, false)
    | .vacant _ _ => pure (.done, false)
  | .insert v =>
    match e with
    | .occupied h => do
      let old ← setVal h v
      pure (.value (some old), false)
    | .vacant _ _ => pure (.value none, false)

/-- `let r = e.try_insert(v)?`, or the reference to what is there, then `let old = *r; *r = f(old); old`: `or_try_insert` src/btree/map.rs:2204-2209,
`or_try_insert_with` 2227-2235, `or_default` 2307-2312, `into_mut` 2527-2529.  The value is made only for a vacant entry; if that panics (`none`), nothing has been
done to the map yet, and unwinding drops the entry with its key. -/
def HMap.entryFill (m : HMap) (e : HEntry K) (v : Option V) (f : V → V) : HM K V (EntrySeen K V × HMap) :=
  match e, v with
  | .occupied h, _ => do
    let kv ← kvOf h
    updVal h f
    pure (.value (some kv.2), m)
  | .vacant _ _, none => pure (.unwound, m)
  | .vacant k h, some v => do
    let x ← m.vacantInsert h (k, v)
    match x.1 with
    | none => pure (.failed, x.2)
    | some h => do
      let kv ← kvOf h
      updVal h f
      pure (.value (some kv.2), x.2)

/-- The calls that use the entry up: `remove` src/btree/map.rs:2571-2573, `remove_entry` 2449-2451, `into_mut` 2527-2529, `into_key` 2348-2350, `VacantEntry::try_insert`
2370-2411. -/
def HMap.entryEnd (m : HMap) (e : HEntry K) : EntryEnd V → HM K V (EntrySeen K V × HMap)
  | .leave => pure (.done, m)
  | .remove =>
    match e with
    | .occupied h => do
      let x ← m.removeKv h
      pure (.value (some x.1.2), x.2)
    | .vacant _ _ => pure (.value none, m)
  | .removeEntry =>
    match e with
    | .occupied h => do
      let x ← m.removeKv h
      pure (.pair (some x.1), x.2)
    | .vacant _ _ => pure (.pair none, m)
  | .intoMut f =>
    match e with
    | .occupied h => do
      updVal h f
      pure (.done, m)
    | .vacant _ _ => pure (.done, m)
  | .intoKey =>
    match e with
    | .occupied _ => pure (.ownKey none, m)
    | .vacant k _ => pure (.ownKey (some k), m)
  | .insert v f =>
    match e with
    | .occupied _ => pure (.done, m)
    | .vacant k h => do
      let x ← m.vacantInsert h (k, v)
      match x.1 with
      | none => pure (.failed, x.2)
      | some h => do
        updVal h f
        pure (.done, x.2)
  | .orInsert v f => m.entryFill e (some v) f
  | .orInsertWith v f => m.entryFill e v f
  | .orDefault d f => m.entryFill e d f

/-- The program on an entry it holds. -/
def HMap.entrySteps (m : HMap) (e : HEntry K) (fin : EntryEnd V) : List (EntryLook V) → HM K V (List (EntrySeen K V) × HMap)
  | [] => do
    let x ← m.entryEnd e fin
    pure ([x.1], x.2)
  | a :: as => do
    let o ← e.look a
    if o.2 then pure ([o.1], m)
    else do
      let x ← m.entrySteps e fin as
      pure (o.1 :: x.1, x.2)

/-- `let mut e = m.try_entry(k)?` (src/btree/map.rs:965-981) and such a program. -/
def HMap.entryUse [Ord K] (m : HMap) (k : K) (as : List (EntryLook V)) (fin : EntryEnd V) : HM K V (List (EntrySeen K V) × HMap) := do
  let x ← m.tryEntry k
  match x.1 with
  | none => pure ([.failed], x.2)
  | some e => x.2.entrySteps e fin as

end Verif.Heap
