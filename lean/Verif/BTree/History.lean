import Verif.BTree.Views
/-
Programs that use several maps at once, as lists of calls of the public API: the calls, what they mean on sorted
association lists (the specification), and how they run on the model.
-/
namespace Verif.Spec

variable {K V Q : Type}

/-- One call.  `i`, `j` number the maps of the program in order of creation; `new`, `splitOff` and `clone` create one. -/
inductive Op (K V Q : Type) where
  /-- `BTreeMap::new()` -/
  | new
  /-- `m[i].try_insert(k, v)` -/
  | insert (i : Nat) (k : K) (v : V)
  /-- `m[i].remove(&q)` -/
  | remove (i : Nat) (q : Q)
  /-- `m[i].get(&q)` -/
  | get (i : Nat) (q : Q)
  /-- `m[i].get_key_value(&q)` -/
  | getKeyValue (i : Nat) (q : Q)
  /-- `m[i].contains_key(&q)` -/
  | containsKey (i : Nat) (q : Q)
  /-- `m[i].len()` -/
  | len (i : Nat)
  /-- `m[i].is_empty()` -/
  | isEmpty (i : Nat)
  /-- `if let Some(x) = m[i].get_mut(&q) { *x = f(*x) }`, answering whether there was a value -/
  | update (i : Nat) (q : Q) (f : V → V)
  /-- `m[i].clear()` -/
  | clear (i : Nat)
  /-- `m[i].append(&mut m[j])`, `i != j` -/
  | append (i j : Nat)
  /-- `m[i].split_off(&q)`, the right part becoming a new map -/
  | splitOff (i : Nat) (q : Q)
  /-- `m[i].extend(items)` -/
  | extend (i : Nat) (items : List (K × V))
  /-- `m[i].clone()` of copyable keys and values, becoming a new map -/
  | clone (i : Nat)
  /-- `m[i].iter()` asked at the given ends -/
  | iterate (i : Nat) (es : List End)
  /-- `m[i].range((lo, hi))` asked at the given ends -/
  | range (i : Nat) (lo hi : Bound Q) (es : List End)
  /-- a program using `m[i].iter_mut()` -/
  | iterMut (i : Nat) (acts : List (MutAct V))
  /-- a program using `m[i].range_mut((lo, hi))` -/
  | rangeMut (i : Nat) (lo hi : Bound Q) (acts : List (MutAct V))
  /-- `mem::replace(&mut m[i], BTreeMap::new()).into_iter()` asked at the given ends, and then dropped -/
  | intoIter (i : Nat) (es : List End)
  /-- `let r = m[i].try_entry(k)?.or_try_insert(v)?; let old = *r; *r = f(old); old` -/
  | entryOrInsert (i : Nat) (k : K) (v : V) (f : V → V)
  /-- `let mut ran = false; let r = m[i].try_entry(k)?.or_try_insert_with(|| { ran = true; v })?; *r = f(*r); ran` -/
  | entryOrInsertWith (i : Nat) (k : K) (v : V) (f : V → V)
  /-- `if let Occupied(e) = m[i].try_entry(k)? { Some(e.remove_entry()) } else { None }` -/
  | entryRemove (i : Nat) (k : K)
  /-- `m[i].try_entry(k)?.and_modify(f)` -/
  | entryModify (i : Nat) (k : K) (f : V → V)
  /-- `m[i].try_entry(k)?.key()` -/
  | entryKey (i : Nat) (k : K)
  /-- `if let Occupied(e) = m[i].try_entry(k)? { Some(e.insert(v)) } else { None }` -/
  | entryInsert (i : Nat) (k : K) (v : V)
  /-- `m[i].try_clone()`, becoming a new map; the keys `k` with `ck k` and the values `v` with `cv v = Some(w)` can be copied
  (the latter to `w`), the `try_clone` of the others returns `Err` -/
  | tryClone (i : Nat) (ck : K → Bool) (cv : V → Option V)
  /-- a program that opens any number of shared iterators over `m[i]`, clones them and uses them in any order -/
  | views (i : Nat) (acts : List (ViewAct Q))
  /-- `Recover::replace` of the set type on `m[i]`: the key `k` takes the place of an equal one, or is inserted with `v` -/
  | replace (i : Nat) (k : K) (v : V)
  /-- `Recover::take` of the set type on `m[i]` -/
  | take (i : Nat) (q : Q)

/-- What a call answers. -/
inductive Out (K V : Type) where
  | done
  | value (v : Option V)
  | key (k : K)
  | pair (kv : Option (K × V))
  | flag (b : Bool)
  | count (n : Nat)
  | items (xs : List (Option (K × V)))
  | oldKey (k : Option K)
  | seen (xs : List (Seen K V))
  /-- the call panicked without touching the map (`range` with bad bounds) -/
  | panicked
  /-- the call returned `Err` -/
  | failed
  /-- not a program: there is no map with that number -/
  | skipped
deriving DecidableEq

/-- `append`: what `l` has and `r` has no key for, and everything of `r`. -/
def appendList [Ord K] (l r : List (K × V)) : List (K × V) :=
  r.foldl (fun acc kv => Spec.insert kv.1 kv.2 acc) (l.filter fun kv => r.all fun kv' => compare kv.1 kv'.1 != .eq)

/-- The position of the first pair within the bounds. -/
def startOf [Ord Q] (bor : K → Q) (lo hi : Bound Q) (l : List (K × V)) : Nat :=
  l.findIdx fun kv => aboveLo lo (bor kv.1) && belowHi hi (bor kv.1)

/-- The key `k` takes the place of an equal one; it is inserted with `v` if there is none. -/
def renew [Ord K] (k : K) (v : V) (l : List (K × V)) : List (K × V) :=
  if (find? id k l).isSome then l.map fun kv => if compare k kv.1 == .eq then (k, kv.2) else kv else Spec.insert k v l

/-- The copy of a list of entries, if all of them can be copied. -/
def cloneList (ck : K → Bool) (cv : V → Option V) : List (K × V) → Option (List (K × V))
  | [] => some []
  | (k, v) :: l =>
    match ck k, cv v, cloneList ck cv l with
    | true, some w, some l => some ((k, w) :: l)
    | _, _, _ => none

/-- Apply `f` to list number `i`. -/
def onList (s : List (List (K × V))) (i : Nat) (f : List (K × V) → Out K V × List (K × V)) : Out K V × List (List (K × V)) :=
  match s[i]? with
  | none => (.skipped, s)
  | some l => ((f l).1, s.set i (f l).2)

/-- What a call does to the lists. -/
def Op.spec [Ord K] [Ord Q] (bor : K → Q) (s : List (List (K × V))) : Op K V Q → Out K V × List (List (K × V))
  | .new => (.done, s ++ [[]])
  | .insert i k v => onList s i fun l => (.value (lookup id k l), Spec.insert k v l)
  | .remove i q => onList s i fun l => (.value (lookup bor q l), erase bor q l)
  | .get i q => onList s i fun l => (.value (lookup bor q l), l)
  | .getKeyValue i q => onList s i fun l => (.pair (find? bor q l), l)
  | .containsKey i q => onList s i fun l => (.flag (find? bor q l).isSome, l)
  | .len i => onList s i fun l => (.count l.length, l)
  | .isEmpty i => onList s i fun l => (.flag l.isEmpty, l)
  | .update i q f => onList s i fun l => (.flag (find? bor q l).isSome, modify bor q f l)
  | .clear i => onList s i fun _ => (.done, [])
  | .append i j =>
    match s[i]?, s[j]? with
    | some l, some r => if i = j then (.skipped, s) else (.done, (s.set i (appendList l r)).set j [])
    | _, _ => (.skipped, s)
  | .splitOff i q =>
    match s[i]? with
    | some l => (.done, s.set i (below bor q l) ++ [atLeast bor q l])
    | none => (.skipped, s)
  | .extend i items => onList s i fun l => (.done, items.foldl (fun acc kv => Spec.insert kv.1 kv.2 acc) l)
  | .clone i =>
    match s[i]? with
    | some l => (.done, s ++ [l])
    | none => (.skipped, s)
  | .iterate i es => onList s i fun l => (.items (pops es l).1, l)
  | .range i lo hi es => onList s i fun l =>
      (if badRange lo hi then .panicked else .items (pops es (within bor lo hi l)).1, l)
  | .iterMut i acts => onList s i fun l =>
      (.items (Cursor.acts ⟨l, 0, l.length, []⟩ acts).1, (Cursor.acts ⟨l, 0, l.length, []⟩ acts).2.items)
  | .rangeMut i lo hi acts => onList s i fun l =>
      if badRange lo hi then (.panicked, l)
      else (.items (Cursor.acts ⟨l, startOf bor lo hi l, startOf bor lo hi l + (within bor lo hi l).length, []⟩ acts).1,
        (Cursor.acts ⟨l, startOf bor lo hi l, startOf bor lo hi l + (within bor lo hi l).length, []⟩ acts).2.items)
  | .intoIter i es => onList s i fun l => (.items (pops es l).1, [])
  | .entryOrInsert i k v f => onList s i fun l =>
      match lookup id k l with
      | some old => (.value (some old), modify id k f l)
      | none => (.value (some v), Spec.insert k (f v) l)
  | .entryOrInsertWith i k v f => onList s i fun l =>
      match lookup id k l with
      | some _ => (.flag false, modify id k f l)
      | none => (.flag true, Spec.insert k (f v) l)
  | .entryRemove i k => onList s i fun l => (.pair (find? id k l), erase id k l)
  | .entryModify i k f => onList s i fun l => (.done, modify id k f l)
  | .entryKey i k => onList s i fun l =>
      (.key (match find? id k l with
        | some kv => kv.1
        | none => k), l)
  | .entryInsert i k v => onList s i fun l => (.value (lookup id k l), modify id k (fun _ => v) l)
  | .tryClone i ck cv =>
    match s[i]? with
    | some l =>
      match cloneList ck cv l with
      | some l' => (.done, s ++ [l'])
      | none => (.failed, s)
    | none => (.skipped, s)
  | .views i acts => onList s i fun l => (.seen (ViewAct.specs bor l acts []), l)
  | .replace i k v => onList s i fun l => (.oldKey ((find? id k l).map (·.1)), renew k v l)
  | .take i q => onList s i fun l => (.oldKey ((find? bor q l).map (·.1)), erase bor q l)

/-- A whole program: the answers, and the lists at the end. -/
def Op.specs [Ord K] [Ord Q] (bor : K → Q) : List (Op K V Q) → List (List (K × V)) → List (Out K V) × List (List (K × V))
  | [], s => ([], s)
  | op :: ops, s => ((op.spec bor s).1 :: (Op.specs bor ops (op.spec bor s).2).1, (Op.specs bor ops (op.spec bor s).2).2)

end Verif.Spec

namespace Verif.BTree
open Verif Verif.Spec

variable {K V Q : Type}

/-- Run a call on map number `i`. -/
def onMap (p : List (Map K V)) (i : Nat) (a : Alloc) (f : Map K V → Exec (Out K V × Map K V × Alloc)) :
    Exec (Out K V × List (Map K V) × Alloc) :=
  match p[i]? with
  | none => .ok (.skipped, p, a)
  | some m => do
    let r ← f m
    .ok (r.1, p.set i r.2.1, r.2.2)

/-- The entry programs of `Op`.  src/btree/map.rs:965-981 `try_entry`, 2204-2209 `or_try_insert`, 2449-2451
`remove_entry`, 2277-2288 `and_modify`. -/
def Map.entryOrInsert [Ord K] (m : Map K V) (k : K) (v : V) (f : V → V) (a : Alloc) : Exec (Out K V × Map K V × Alloc) := do
  let (e, m, a) ← m.tryEntry k a
  match e with
  | .error _ => .ok (.failed, m, a)
  | .ok e => do
    let (r, m, a) ← m.orTryInsert e v a
    match r with
    | .error _ => .ok (.failed, m, a)
    | .ok hd => do
      let old ← m.occGet hd
      let m ← m.occUpdate hd f
      .ok (.value (some old), m, a)

/-- See `Map.entryOrInsert`; src/btree/map.rs:2227-2235 `or_try_insert_with`. -/
def Map.entryOrInsertWith [Ord K] (m : Map K V) (k : K) (v : V) (f : V → V) (a : Alloc) : Exec (Out K V × Map K V × Alloc) := do
  let (e, m, a) ← m.tryEntry k a
  match e with
  | .error _ => .ok (.failed, m, a)
  | .ok e => do
    let (r, m, a, ran) ← m.orTryInsertWith e (fun _ => v) a
    match r with
    | .error _ => .ok (.failed, m, a)
    | .ok hd => do
      let m ← m.occUpdate hd f
      .ok (.flag ran, m, a)

/-- See `Map.entryOrInsert`. -/
def Map.entryRemove [Ord K] (m : Map K V) (k : K) (a : Alloc) : Exec (Out K V × Map K V × Alloc) := do
  let (e, m, a) ← m.tryEntry k a
  match e with
  | .error _ => .ok (.failed, m, a)
  | .ok (.vacant _ _) => .ok (.pair none, m, a)
  | .ok (.occupied hd) => do
    let (kv, m) ← m.occRemoveEntry hd
    .ok (.pair (some kv), m, a)

/-- See `Map.entryOrInsert`. -/
def Map.entryModify [Ord K] (m : Map K V) (k : K) (f : V → V) (a : Alloc) : Exec (Out K V × Map K V × Alloc) := do
  let (e, m, a) ← m.tryEntry k a
  match e with
  | .error _ => .ok (.failed, m, a)
  | .ok e => do
    let (m, _) ← m.andModify e f
    .ok (.done, m, a)

/-- See `Map.entryOrInsert`; src/btree/map.rs:2249-2254 `key`. -/
def Map.entryKeyOf [Ord K] (m : Map K V) (k : K) (a : Alloc) : Exec (Out K V × Map K V × Alloc) := do
  let (e, m, a) ← m.tryEntry k a
  match e with
  | .error _ => .ok (.failed, m, a)
  | .ok e => do
    let k ← m.entryKey e
    .ok (.key k, m, a)

/-- See `Map.entryOrInsert`; src/btree/map.rs:2549-2551 `insert`. -/
def Map.entryInsert [Ord K] (m : Map K V) (k : K) (v : V) (a : Alloc) : Exec (Out K V × Map K V × Alloc) := do
  let (e, m, a) ← m.tryEntry k a
  match e with
  | .error _ => .ok (.failed, m, a)
  | .ok (.vacant _ _) => .ok (.value none, m, a)
  | .ok (.occupied hd) => do
    let (old, m) ← m.occInsert hd v
    .ok (.value (some old), m, a)

/-- `if let Some(x) = m.get_mut(&q) { *x = f(*x) }`: src/btree/map.rs:716-725. -/
def Map.updateVal [Ord Q] (m : Map K V) (bor : K → Q) (q : Q) (f : V → V) : Exec (Bool × Map K V) := do
  match ← m.getMut bor q with
  | none => .ok (false, m)
  | some hd => do
    let m ← m.occUpdate hd f
    .ok (true, m)

/-- `range` asked at the given ends; a panic of `range` itself is caught (the map was only borrowed). -/
def Map.rangeRun [Ord Q] (m : Map K V) (bor : K → Q) (lo hi : Bound Q) (es : List End) : Exec (Out K V) :=
  match m.range bor lo hi with
  | .ok r => do
    let xs ← r.run m es
    .ok (.items xs.1)
  | .panic _ => .ok .panicked
  | .ub => .ub

/-- A program using `range_mut`; a panic of `range_mut` itself is caught (it has not touched the map by then). -/
def Map.rangeMutRun [Ord Q] (m : Map K V) (bor : K → Q) (lo hi : Bound Q) (acts : List (MutAct V)) : Exec (Out K V × Map K V) :=
  match m.range bor lo hi with
  | .ok r => do
    let (xs, m, _) ← mutRun Range.stepH acts m r []
    .ok (.items xs, m)
  | .panic _ => .ok (.panicked, m)
  | .ub => .ub

/-- `Recover::replace` as a call of a program. -/
def Map.replaceCall [Ord K] (m : Map K V) (k : K) (v : V) (a : Alloc) : Exec (Out K V × Map K V × Alloc) := do
  let (r, m, a) ← m.replaceKey k v a
  match r with
  | .ok old => .ok (.oldKey old, m, a)
  | .error _ => .ok (.failed, m, a)

/-- Keys that are copied as they are, or refuse to be. -/
def keyCloner (ck : K → Bool) : Cloner K := fun k a => (if ck k then .ok k else .error .allocError, a)

/-- Values whose copy is `cv v`, if that is one. -/
def valCloner (cv : V → Option V) : Cloner V := fun v a =>
  (match cv v with
    | some w => .ok w
    | none => .error .allocError, a)

/-- Run one call of the API on the model: each branch is the model function of the call. -/
def Op.run [Ord K] [Ord Q] (bor : K → Q) (p : List (Map K V)) (a : Alloc) :
    Op K V Q → Exec (Out K V × List (Map K V) × Alloc)
  | .new => .ok (.done, p ++ [Map.new], a)
  | .insert i k v => onMap p i a fun m => do
      let (r, m, a) ← m.tryInsert k v a
      match r with
      | .ok old => .ok (.value old, m, a)
      | .error _ => .ok (.failed, m, a)
  | .remove i q => onMap p i a fun m => do
      let (r, m) ← m.remove bor q
      .ok (.value r, m, a)
  | .get i q => onMap p i a fun m => do
      let r ← m.get bor q
      .ok (.value r, m, a)
  | .getKeyValue i q => onMap p i a fun m => do
      let r ← m.getKeyValue bor q
      .ok (.pair r, m, a)
  | .containsKey i q => onMap p i a fun m => do
      let r ← m.containsKey bor q
      .ok (.flag r, m, a)
  | .len i => onMap p i a fun m => .ok (.count m.len, m, a)
  | .isEmpty i => onMap p i a fun m => .ok (.flag m.isEmpty, m, a)
  | .update i q f => onMap p i a fun m => do
      let (b, m) ← m.updateVal bor q f
      .ok (.flag b, m, a)
  | .clear i => onMap p i a fun m => .ok (.done, m.clear, a)
  | .append i j =>
    match p[i]?, p[j]? with
    | some m, some o =>
      if i = j then .ok (.skipped, p, a)
      else do
        let (m, o, a) ← m.append o a
        .ok (.done, (p.set i m).set j o, a)
    | _, _ => .ok (.skipped, p, a)
  | .splitOff i q =>
    match p[i]? with
    | some m => do
      let (r, m, a) ← m.splitOff bor q a
      match r with
      | .ok right => .ok (.done, p.set i m ++ [right], a)
      | .error _ => .ok (.failed, p.set i m, a)
    | none => .ok (.skipped, p, a)
  | .extend i items => onMap p i a fun m => do
      let (m, a) ← m.extend items a
      .ok (.done, m, a)
  | .clone i =>
    match p[i]? with
    | some m => do
      let (c, a) ← m.clone id id a
      .ok (.done, p ++ [c], a)
    | none => .ok (.skipped, p, a)
  | .iterate i es => onMap p i a fun m => do
      let it ← m.iter
      let xs ← it.run m es
      .ok (.items xs.1, m, a)
  | .range i lo hi es => onMap p i a fun m => do
      let o ← m.rangeRun bor lo hi es
      .ok (o, m, a)
  | .iterMut i acts => onMap p i a fun m => do
      let it ← m.iter
      let (xs, m, _) ← mutRun Iter.stepH acts m it []
      .ok (.items xs, m, a)
  | .rangeMut i lo hi acts => onMap p i a fun m => do
      let (o, m) ← m.rangeMutRun bor lo hi acts
      .ok (o, m, a)
  | .intoIter i es => onMap p i a fun m => do  -- `IntoIter` walks the tree as `Iter` does; the frees are in Verif/Heap
      let it ← m.iter
      let xs ← it.run m es
      .ok (.items xs.1, Map.new, a)
  | .entryOrInsert i k v f => onMap p i a fun m => m.entryOrInsert k v f a
  | .entryOrInsertWith i k v f => onMap p i a fun m => m.entryOrInsertWith k v f a
  | .entryRemove i k => onMap p i a fun m => m.entryRemove k a
  | .entryModify i k f => onMap p i a fun m => m.entryModify k f a
  | .entryKey i k => onMap p i a fun m => m.entryKeyOf k a
  | .entryInsert i k v => onMap p i a fun m => m.entryInsert k v a
  | .tryClone i ck cv =>
    match p[i]? with
    | some m => do
      let (r, a) ← m.tryClone (keyCloner ck) (valCloner cv) a
      match r with
      | .ok c => .ok (.done, p ++ [c], a)
      | .error _ => .ok (.failed, p, a)
    | none => .ok (.skipped, p, a)
  | .views i acts => onMap p i a fun m => do
      let xs ← ViewAct.runs m bor acts []
      .ok (.seen xs, m, a)
  | .replace i k v => onMap p i a fun m => m.replaceCall k v a
  | .take i q => onMap p i a fun m => do
      let (r, m) ← m.removeEntry bor q
      .ok (.oldKey (r.map (·.1)), m, a)

/-- A whole program. -/
def Op.runs [Ord K] [Ord Q] (bor : K → Q) :
    List (Op K V Q) → List (Map K V) → Alloc → Exec (List (Out K V) × List (Map K V) × Alloc)
  | [], p, a => .ok ([], p, a)
  | op :: ops, p, a => do
    let (o, p, a) ← Op.run bor p a op
    let (os, p, a) ← Op.runs bor ops p a
    .ok (o :: os, p, a)

end Verif.BTree
