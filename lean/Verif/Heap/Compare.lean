import Verif.Heap.Views
import Verif.BTree.Iter
import Verif.CmpSpec
/-
Level-2 model of what looks at whole maps: `==`, `partial_cmp`, `cmp`, `hash`, `{:?}` and indexing, on the memory.  The iterators are asked one item at a time, and the
comparisons stop where those of the code stop.  A `BTreeSet` derives all of them but `Debug` from the map inside (src/btree/set.rs:60-64).
-/
namespace Verif.Heap
open Verif
open Verif.Spec (Orders Ask Told)

variable {K V Q S : Type}

/-- `self.iter().zip(other).all(|(a, b)| a == b)` (core): `Zip::next` asks the first iterator, then the second; `all` stops at the first `false`. -/
def hzipAll (eq : K × V → K × V → Bool) (h h' : Nat) : Nat → HIter → HIter → HM K V Bool
  | 0, _, _ => HM.ub
  | fuel + 1, i, j => do
    let a ← i.step h .front
    match a.1 with
    | none => pure true
    | some x => do
      let b ← j.step h' .front
      match b.1 with
      | none => pure true
      | some y => if eq x y then hzipAll eq h h' fuel a.2 b.2 else pure false

/-- src/btree/map.rs:1827-1829 `PartialEq::eq`; a pair is equal if the keys and, then, the values are. -/
def HMap.eq (m o : HMap) (eqK : K → K → Bool) (eqV : V → V → Bool) : HM K V Bool :=
  if m.length = o.length then do
    let i ← m.iter
    let j ← o.iter
    hzipAll (fun a b => eqK a.1 b.1 && eqV a.2 b.2) m.root.height o.root.height (m.length + 1) i j
  else pure false

/-- `Iterator::partial_cmp` (core). -/
def hlexPartial (cmp : K × V → K × V → Option Ordering) (h h' : Nat) : Nat → HIter → HIter → HM K V (Option Ordering)
  | 0, _, _ => HM.ub
  | fuel + 1, i, j => do
    let a ← i.step h .front
    match a.1 with
    | none => do
      let b ← j.step h' .front
      pure (some (if b.1.isNone then .eq else .lt))
    | some x => do
      let b ← j.step h' .front
      match b.1 with
      | none => pure (some .gt)
      | some y =>
        match cmp x y with
        | some .eq => hlexPartial cmp h h' fuel a.2 b.2
        | c => pure c

/-- src/btree/map.rs:1836-1838 `partial_cmp`; pairs are compared by key, then value. -/
def HMap.partialCmp (m o : HMap) (cmpK : K → K → Option Ordering) (cmpV : V → V → Option Ordering) : HM K V (Option Ordering) := do
  let i ← m.iter
  let j ← o.iter
  hlexPartial (BTree.pairPartial cmpK cmpV) m.root.height o.root.height (m.length + 1) i j

/-- `Iterator::cmp` (core). -/
def hlexCmp (cmp : K × V → K × V → Ordering) (h h' : Nat) : Nat → HIter → HIter → HM K V Ordering
  | 0, _, _ => HM.ub
  | fuel + 1, i, j => do
    let a ← i.step h .front
    match a.1 with
    | none => do
      let b ← j.step h' .front
      pure (if b.1.isNone then .eq else .lt)
    | some x => do
      let b ← j.step h' .front
      match b.1 with
      | none => pure .gt
      | some y =>
        match cmp x y with
        | .eq => hlexCmp cmp h h' fuel a.2 b.2
        | c => pure c

/-- src/btree/map.rs:1843-1845 `Ord::cmp`; pairs are compared by key, then value. -/
def HMap.cmp (m o : HMap) (cmpK : K → K → Ordering) (cmpV : V → V → Ordering) : HM K V Ordering := do
  let i ← m.iter
  let j ← o.iter
  hlexCmp (fun a b => (cmpK a.1 b.1).then (cmpV a.2 b.2)) m.root.height o.root.height (m.length + 1) i j

/-- `for elt in self { elt.hash(state) }`: src/btree/map.rs:1812-1814. -/
def hfeed (feed : S → K × V → S) (h : Nat) : Nat → HIter → S → HM K V S
  | 0, _, _ => HM.ub
  | fuel + 1, i, st => do
    let a ← i.step h .front
    match a.1 with
    | none => pure st
    | some x => hfeed feed h fuel a.2 (feed st x)

/-- src/btree/map.rs:1811-1815 `Hash::hash`. -/
def HMap.hash (m : HMap) (feed : S → K × V → S) (st : S) : HM K V S := do
  let i ← m.iter
  hfeed feed m.root.height (m.length + 1) i st

/-- src/btree/map.rs:1849-1851 `Debug::fmt`: `f.debug_map().entries(self.iter())`, the entries listed. -/
def HMap.debug (m : HMap) : HM K V (List (K × V)) := do
  let i ← m.iter
  hfeed (fun l x => l ++ [x]) m.root.height (m.length + 1) i []

/-- src/btree/map.rs:1867-1869 `Index::index`. -/
def HMap.index [Ord Q] (m : HMap) (bor : K → Q) (q : Q) : HM K V V := do
  let r ← m.getKeyValue bor q
  match r with
  | some kv => pure kv.2
  | none => HM.panic "no entry found for key"

/-- One question.  The caller catches the panic of an indexing (which only reads). -/
def Ask.hrun [Ord Q] (f : Orders K V S) (bor : K → Q) (p : List HMap) : Ask Q → HM K V (Told K V S)
  | .eq i j =>
    match p[i]?, p[j]? with
    | some m, some n => do
      let b ← m.eq n f.eqK f.eqV
      pure (.bool b)
    | _, _ => pure .skipped
  | .partialCmp i j =>
    match p[i]?, p[j]? with
    | some m, some n => do
      let c ← m.partialCmp n f.partialK f.partialV
      pure (.part c)
    | _, _ => pure .skipped
  | .cmp i j =>
    match p[i]?, p[j]? with
    | some m, some n => do
      let c ← m.cmp n f.cmpK f.cmpV
      pure (.ord c)
    | _, _ => pure .skipped
  | .hash i =>
    match p[i]? with
    | some m => do
      let st ← m.hash f.feed f.init
      pure (.state st)
    | none => pure .skipped
  | .debug i =>
    match p[i]? with
    | some m => do
      let l ← m.debug
      pure (.entries l)
    | none => pure .skipped
  | .index i q =>
    match p[i]? with
    | some m => do
      let v ← catchRead (m.index bor q)
      pure (.value v)
    | none => pure .skipped

/-- Several questions. -/
def Ask.hruns [Ord Q] (f : Orders K V S) (bor : K → Q) (p : List HMap) : List (Ask Q) → HM K V (List (Told K V S))
  | [] => pure []
  | a :: as => do
    let t ← Ask.hrun f bor p a
    let ts ← Ask.hruns f bor p as
    pure (t :: ts)

end Verif.Heap
