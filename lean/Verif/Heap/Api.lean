import Verif.Heap.Append
import Verif.Heap.Views
import Verif.BTree.History
/-
Level-2 model: the calls of a program over several maps (`Spec.Op`), run on one memory.  Each branch is the code of the call,
with the maps as pairs of a root pointer and a length.
-/
namespace Verif.Heap
open Verif
open Verif.Spec (Bound End MutAct Op Out)

variable {K V Q α : Type}

/-! ### entries -/

/-- src/btree/map.rs:2249-2254 `Entry::key`. -/
def entryKey : HEntry K → HM K V K
  | .occupied h => do
    let kv ← kvOf h
    pure kv.1
  | .vacant k _ => pure k

/-- src/btree/map.rs:2204-2209 `or_try_insert`; 2227-2235 `or_try_insert_with`, whose closure makes `v`. -/
def HMap.orTryInsert (m : HMap) (e : HEntry K) (v : V) : HM K V (Option HRef × HMap) :=
  match e with
  | .occupied h => pure (some h, m)
  | .vacant k h => m.vacantInsert h (k, v)

/-- Whether the closure of `or_try_insert_with` runs. -/
def HEntry.isVacant : HEntry K → Bool
  | .vacant _ _ => true
  | .occupied _ => false

/-- src/btree/map.rs:2277-2288 `and_modify`. -/
def andModify (e : HEntry K) (f : V → V) : HM K V Unit :=
  match e with
  | .occupied h => updVal h f
  | .vacant _ _ => pure ()

/-- See `BTree.Map.entryOrInsert`. -/
def HMap.entryOrInsert [Ord K] (m : HMap) (k : K) (v : V) (f : V → V) : HM K V (Out K V × HMap) := do
  let (e, m) ← m.tryEntry k
  match e with
  | none => pure (.failed, m)
  | some e => do
    let (r, m) ← m.orTryInsert e v
    match r with
    | none => pure (.failed, m)
    | some h => do
      let old ← kvOf h
      updVal h f
      pure (.value (some old.2), m)

/-- See `BTree.Map.entryOrInsertWith`. -/
def HMap.entryOrInsertWith [Ord K] (m : HMap) (k : K) (v : V) (f : V → V) : HM K V (Out K V × HMap) := do
  let (e, m) ← m.tryEntry k
  match e with
  | none => pure (.failed, m)
  | some e => do
    let (r, m) ← m.orTryInsert e v
    match r with
    | none => pure (.failed, m)
    | some h => do
      updVal h f
      pure (.flag e.isVacant, m)

/-- See `BTree.Map.entryRemove`. -/
def HMap.entryRemove [Ord K] (m : HMap) (k : K) : HM K V (Out K V × HMap) := do
  let (e, m) ← m.tryEntry k
  match e with
  | none => pure (.failed, m)
  | some (.vacant _ _) => pure (.pair none, m)
  | some (.occupied h) => do
    let (kv, m) ← m.removeKv h
    pure (.pair (some kv), m)

/-- See `BTree.Map.entryModify`. -/
def HMap.entryModify [Ord K] (m : HMap) (k : K) (f : V → V) : HM K V (Out K V × HMap) := do
  let (e, m) ← m.tryEntry k
  match e with
  | none => pure (.failed, m)
  | some e => do
    andModify e f
    pure (.done, m)

/-- See `BTree.Map.entryKeyOf`. -/
def HMap.entryKeyOf [Ord K] (m : HMap) (k : K) : HM K V (Out K V × HMap) := do
  let (e, m) ← m.tryEntry k
  match e with
  | none => pure (.failed, m)
  | some e => do
    let k ← entryKey e
    pure (.key k, m)

/-- See `BTree.Map.entryInsert`. -/
def HMap.entryInsert [Ord K] (m : HMap) (k : K) (v : V) : HM K V (Out K V × HMap) := do
  let (e, m) ← m.tryEntry k
  match e with
  | none => pure (.failed, m)
  | some (.vacant _ _) => pure (.value none, m)
  | some (.occupied h) => do
    let old ← setVal h v
    pure (.value (some old), m)

/-! ### the other calls -/

/-- `try_insert` as a call of a program. -/
def HMap.insertCall [Ord K] (m : HMap) (k : K) (v : V) : HM K V (Out K V × HMap) := do
  let (r, m) ← m.tryInsert k v
  match r with
  | some old => pure (.value old, m)
  | none => pure (.failed, m)

/-- `if let Some(x) = m.get_mut(&q) { *x = f(*x) }`: src/btree/map.rs:716-725. -/
def HMap.updateVal [Ord Q] (m : HMap) (bor : K → Q) (q : Q) (f : V → V) : HM K V Bool := do
  let r ← m.search bor q
  match r with
  | .goDown _ => pure false
  | .found h => do
    updVal h f
    pure true

/-- src/btree/map.rs:608-610 `clear`: the assignment drops the old map. -/
def HMap.clear (m : HMap) : HM K V HMap := do
  let _ ← m.drop
  pure HMap.new

/-- src/btree/map.rs:1796-1800 `extend`. -/
def HMap.extend [Ord K] (m : HMap) : List (K × V) → HM K V HMap
  | [] => pure m
  | (k, v) :: rest => do
    let (r, m) ← m.tryInsert k v
    match r with
    | none => HM.panic "Out of Mem"
    | some _ => m.extend rest

/-- See `BTree.Map.rangeRun`. -/
def HMap.rangeRun [Ord Q] (m : HMap) (bor : K → Q) (lo hi : Bound Q) (es : List End) : HM K V (Out K V) := do
  let r ← catchRead (m.range bor lo hi)
  match r with
  | none => pure .panicked
  | some r => do
    let xs ← r.run m.root.height es
    pure (.items xs.1)

/-- See `BTree.Map.rangeMutRun`. -/
def HMap.rangeMutRun [Ord Q] (m : HMap) (bor : K → Q) (lo hi : Bound Q) (acts : List (MutAct V)) : HM K V (Out K V) := do
  let r ← catchRead (m.range bor lo hi)
  match r with
  | none => pure .panicked
  | some r => do
    let xs ← mutRun (HRange.stepH m.root.height) acts r []
    pure (.items xs)

/-- `iter` asked at the given ends. -/
def HMap.iterRun (m : HMap) (es : List End) : HM K V (Out K V) := do
  let it ← m.iter
  let xs ← it.run m.root.height es
  pure (.items xs.1)

/-- A program using `iter_mut`. -/
def HMap.iterMutRun (m : HMap) (acts : List (MutAct V)) : HM K V (Out K V) := do
  let it ← m.iter
  let xs ← mutRun (HIter.stepH m.root.height) acts it []
  pure (.items xs)

/-- `into_iter` asked at the given ends, then dropped. -/
def HMap.intoIterRun (m : HMap) (es : List End) : HM K V (Out K V) := do
  let it ← m.intoIter
  let xs ← it.asks m.root.height es
  let _ ← xs.2.drop m.root.height
  pure (.items xs.1)

/-- `Recover::replace` as a call of a program. -/
def HMap.replaceCall [Ord K] (m : HMap) (k : K) (v : V) : HM K V (Out K V × HMap) := do
  let (r, m) ← m.replaceKey k v
  match r with
  | some old => pure (.oldKey old, m)
  | none => pure (.failed, m)

/-! ### programs -/

/-- Run a call on map number `i`. -/
def onHMap (p : List HMap) (i : Nat) (f : HMap → HM K V (Out K V × HMap)) : HM K V (Out K V × List HMap) :=
  match p[i]? with
  | none => pure (.skipped, p)
  | some m => do
    let r ← f m
    pure (r.1, p.set i r.2)

/-- Run one call of the API in memory. -/
def Op.hrun [Ord K] [Ord Q] (bor : K → Q) (p : List HMap) : Op K V Q → HM K V (Out K V × List HMap)
  | .new => pure (.done, p ++ [HMap.new])
  | .insert i k v => onHMap p i fun m => m.insertCall k v
  | .remove i q => onHMap p i fun m => do
      let (r, m) ← m.removeEntry bor q
      pure (.value (r.map (·.2)), m)
  | .get i q => onHMap p i fun m => do
      let r ← m.getKeyValue bor q
      pure (.value (r.map (·.2)), m)
  | .getKeyValue i q => onHMap p i fun m => do
      let r ← m.getKeyValue bor q
      pure (.pair r, m)
  | .containsKey i q => onHMap p i fun m => do
      let r ← m.getKeyValue bor q
      pure (.flag r.isSome, m)
  | .len i => onHMap p i fun m => pure (.count m.length, m)
  | .isEmpty i => onHMap p i fun m => pure (.flag (m.length == 0), m)
  | .update i q f => onHMap p i fun m => do
      let b ← m.updateVal bor q f
      pure (.flag b, m)
  | .clear i => onHMap p i fun m => do
      let m ← m.clear
      pure (.done, m)
  | .append i j =>
    match p[i]?, p[j]? with
    | some m, some o =>
      if i = j then pure (.skipped, p)
      else do
        let r ← m.append o
        pure (.done, (p.set i r.1).set j r.2)
    | _, _ => pure (.skipped, p)
  | .splitOff i q =>
    match p[i]? with
    | some m => do
      let r ← m.splitOff bor q
      match r.1 with
      | some right => pure (.done, p.set i r.2 ++ [right])
      | none => pure (.failed, p.set i r.2)
    | none => pure (.skipped, p)
  | .extend i items => onHMap p i fun m => do
      let m ← m.extend items
      pure (.done, m)
  | .clone i =>
    match p[i]? with
    | some m => do
      let c ← m.clone id id
      pure (.done, p ++ [c])
    | none => pure (.skipped, p)
  | .iterate i es => onHMap p i fun m => do
      let o ← m.iterRun es
      pure (o, m)
  | .range i lo hi es => onHMap p i fun m => do
      let o ← m.rangeRun bor lo hi es
      pure (o, m)
  | .iterMut i acts => onHMap p i fun m => do
      let o ← m.iterMutRun acts
      pure (o, m)
  | .rangeMut i lo hi acts => onHMap p i fun m => do
      let o ← m.rangeMutRun bor lo hi acts
      pure (o, m)
  | .intoIter i es => onHMap p i fun m => do
      let o ← m.intoIterRun es
      pure (o, HMap.new)
  | .entryOrInsert i k v f => onHMap p i fun m => m.entryOrInsert k v f
  | .entryOrInsertWith i k v f => onHMap p i fun m => m.entryOrInsertWith k v f
  | .entryRemove i k => onHMap p i fun m => m.entryRemove k
  | .entryModify i k f => onHMap p i fun m => m.entryModify k f
  | .entryKey i k => onHMap p i fun m => m.entryKeyOf k
  | .entryInsert i k v => onHMap p i fun m => m.entryInsert k v
  | .tryClone i ck cv =>
    match p[i]? with
    | some m => do
      let r ← m.tryClone (BTree.keyCloner ck) (BTree.valCloner cv)
      match r with
      | .ok c => pure (.done, p ++ [c])
      | .error _ => pure (.failed, p)
    | none => pure (.skipped, p)
  | .views i acts => onHMap p i fun m => do
      let xs ← ViewAct.hruns m bor acts []
      pure (.seen xs, m)
  | .replace i k v => onHMap p i fun m => m.replaceCall k v
  | .take i q => onHMap p i fun m => do
      let (r, m) ← m.removeEntry bor q
      pure (.oldKey (r.map (·.1)), m)

/-- A whole program. -/
def Op.hruns [Ord K] [Ord Q] (bor : K → Q) : List (Op K V Q) → List HMap → HM K V (List (Out K V) × List HMap)
  | [], p => pure ([], p)
  | op :: ops, p => do
    let (o, p) ← Op.hrun bor p op
    let (os, p) ← Op.hruns bor ops p
    pure (o :: os, p)

/-- Whether the answer is the failure of an insertion; what is left of the map then is the subject of C15 and C16. -/
def Op.spoils (op : Op K V Q) (o : Out K V) : Bool :=
  match op, o with
  | .insert .., .failed => true
  | .entryOrInsert .., .failed => true
  | .entryOrInsertWith .., .failed => true
  | .replace .., .failed => true
  | _, _ => false

/-- A program that stops as soon as an insertion fails.  The answers so far, whether it came to its end, and its maps. -/
def Op.hprog [Ord K] [Ord Q] (bor : K → Q) : List (Op K V Q) → List HMap → HM K V (List (Out K V) × Bool × List HMap)
  | [], p => pure ([], true, p)
  | op :: ops, p => do
    let r ← Op.hrun bor p op
    if Op.spoils op r.1 then pure ([r.1], false, r.2)
    else do
      let rs ← Op.hprog bor ops r.2
      pure (r.1 :: rs.1, rs.2)

/-- `into_iter`, asked at the given ends and then dropped: what was handed out and the entries that the iterator's destructor
drops, src/btree/map.rs:1350-1467. -/
def HMap.consume (m : HMap) (es : List End) : HM K V (List (Option (K × V)) × List (K × V)) := do
  let it ← m.intoIter
  let xs ← it.asks m.root.height es
  let rest ← xs.2.drop m.root.height
  pure (xs.1, rest)

/-- All the maps are consumed, the first one asked at the ends `ess[0]`, and so on. -/
def consumeAll : List HMap → List (List End) → HM K V (List (List (Option (K × V)) × List (K × V)))
  | [], _ => pure []
  | m :: p, ess => do
    let x ← m.consume (ess.headD [])
    let xs ← consumeAll p ess.tail
    pure (x :: xs)

/-- The maps go out of scope: they are dropped in turn (src/btree/map.rs:129-135); the dropped entries. -/
def dropAll : List HMap → HM K V (List (List (K × V)))
  | [] => pure []
  | m :: p => do
    let l ← m.drop
    let ls ← dropAll p
    pure (l :: ls)

end Verif.Heap
