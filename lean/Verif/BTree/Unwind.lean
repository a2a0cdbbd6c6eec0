import Verif.BTree.Iter
/-
Unwinding: what the mutating calls of src/btree/map.rs leave behind when the key comparison panics, or when an `expect("Out of Mem")`
inside `append`/`extend` does, and the caller catches the panic (`catch_unwind`, or a `Drop` that looks at the map).

`fuel` is the number of comparisons that still return; the next one panics.  Comparisons before that answer as `compare` does.  All functions that
take `&self` (`get`, `range`, iteration, the set operations) are left out: they do not change the map.
-/
namespace Verif.BTree
open Verif

variable {K V Q : Type}

/-- Why a call unwound. -/
inductive Why where
  /-- `Ord::cmp` of the key type panicked -/
  | cmp
  /-- `expect("Out of Mem")` -/
  | mem
deriving Repr, DecidableEq

/-- A call returned, or it unwound, leaving `s` in the places it had borrowed. -/
inductive Outcome (σ α : Type) where
  | done (x : α)
  | unwound (s : σ) (why : Why)

/-! ### search -/

/-- The loop of `search_linear` with `fuel` comparisons to go: src/btree/search.rs:58-65. -/
def searchFromP [Ord Q] (bor : K → Q) (q : Q) (i : Nat) : List (K × V) → Nat → Option ((Nat × Bool) × Nat)
  | [], fuel => some ((i, false), fuel)
  | _ :: _, 0 => none
  | kv :: rest, fuel + 1 =>
    match compare q (bor kv.1) with
    | .gt => searchFromP bor q (i + 1) rest fuel
    | .eq => some ((i, true), fuel)
    | .lt => some ((i, false), fuel)

/-- `search_tree` with `fuel` comparisons to go: src/btree/search.rs:14-34. -/
def searchTreeP [Ord Q] (bor : K → Q) (q : Q) :
    (h : Nat) → Tree K V → List Nat → Nat → Exec (Option (SearchResult × Nat))
  | h, t, up, fuel =>
    match searchFromP bor q 0 t.kvs fuel with
    | none => .ok none
    | some ((i, true), fuel) => .ok (some (.found ⟨up, i⟩, fuel))
    | some ((i, false), fuel) =>
      match h with
      | 0 => .ok (some (.goDown ⟨up, i⟩, fuel))
      | h + 1 => do
        let c ← getE t.edges i
        searchTreeP bor q h c (i :: up) fuel

/-- `search_tree` from the root. -/
def Map.searchP [Ord Q] (m : Map K V) (bor : K → Q) (q : Q) (fuel : Nat) : Exec (Option (SearchResult × Nat)) :=
  searchTreeP bor q m.height m.root [] fuel

/-! ### calls that search before they change anything -/

/-- src/btree/map.rs:965-981 `try_entry`. -/
def Map.tryEntryP [Ord K] (m : Map K V) (k : K) (a : Alloc) (fuel : Nat) :
    Exec (Outcome (Map K V) ((Res (Entry K) × Map K V × Alloc) × Nat)) := do
  let r := m.ensureRootIsOwned a
  match r.1 with
  | .error e => .ok (.done ((.error e, r.2), fuel))
  | .ok () => do
    match ← r.2.1.searchP id k fuel with
    | none => .ok (.unwound r.2.1 .cmp)
    | some (.found hd, fuel) => .ok (.done ((.ok (.occupied hd), r.2), fuel))
    | some (.goDown hd, fuel) => .ok (.done ((.ok (.vacant k hd), r.2), fuel))

/-- src/btree/map.rs:754-762 `try_insert`. -/
def Map.tryInsertP [Ord K] (m : Map K V) (k : K) (v : V) (a : Alloc) (fuel : Nat) :
    Exec (Outcome (Map K V) ((Res (Option V) × Map K V × Alloc) × Nat)) := do
  match ← m.tryEntryP k a fuel with
  | .unwound m w => .ok (.unwound m w)
  | .done ((.error e, m, a), fuel) => .ok (.done ((.error e, m, a), fuel))
  | .done ((.ok (.occupied hd), m, a), fuel) => do
    let (m, old) ← m.setVal hd v
    .ok (.done ((.ok (some old), m, a), fuel))
  | .done ((.ok (.vacant k hd), m, a), fuel) => do
    let (r, m, a) ← m.vacantInsert hd k v a
    match r with
    | .error e => .ok (.done ((.error e, m, a), fuel))
    | .ok _ => .ok (.done ((.ok none, m, a), fuel))

/-- src/btree/map.rs:783-799 `remove` (and `Recover::take`, 309-323). -/
def Map.removeEntryP [Ord Q] (m : Map K V) (bor : K → Q) (q : Q) (fuel : Nat) :
    Exec (Outcome (Map K V) ((Option (K × V) × Map K V) × Nat)) := do
  match ← m.searchP bor q fuel with
  | none => .ok (.unwound m .cmp)
  | some (.found hd, fuel) => do
    let (kv, m) ← m.removeKv hd
    .ok (.done ((some kv, m), fuel))
  | some (.goDown _, fuel) => .ok (.done ((none, m), fuel))

/-- src/btree/map.rs:1796-1800 `extend`: `insert` each pair.  A refused request makes `insert` panic (`expect`) after `try_insert` returned its
error; the pairs not inserted yet are dropped with the iterator. -/
def Map.extendP [Ord K] (m : Map K V) : List (K × V) → Alloc → Nat →
    Exec (Outcome (Map K V) ((Map K V × Alloc) × Nat))
  | [], a, fuel => .ok (.done ((m, a), fuel))
  | (k, v) :: rest, a, fuel => do
    match ← m.tryInsertP k v a fuel with
    | .unwound m w => .ok (.unwound m w)
    | .done ((.error _, m, _), _) => .ok (.unwound m .mem)
    | .done ((.ok _, m, a), fuel) => m.extendP rest a fuel

/-! ### append -/

/-- `MergeIter` run until it is exhausted or its comparison panics: the pairs it handed out, and the comparisons left (`none`: it
panicked).  `next` compares before it takes anything: src/btree/map.rs:2662-2684. -/
def mergeIterP [Ord K] : Nat → List (K × V) → List (K × V) → List (K × V) × Option Nat
  | fuel, [], r => (r, some fuel)
  | fuel, a :: l, [] => (a :: l, some fuel)
  | 0, _ :: _, _ :: _ => ([], none)
  | fuel + 1, a :: l, b :: r =>
    match compare a.1 b.1 with
    | .lt => let x := mergeIterP fuel l (b :: r); (a :: x.1, x.2)
    | .gt => let x := mergeIterP fuel (a :: l) r; (b :: x.1, x.2)
    | .eq => let x := mergeIterP fuel l r; (b :: x.1, x.2)

/-- The loop of `from_sorted_iter` (src/btree/map.rs:987-1029), keeping `self` and counting `self.length` (1028) as it goes.  When a
request is refused the nodes of the unfinished right subtree leak (`Root` has no destructor); the tree itself has changed only if
`push_level` (1010) had already been granted: then the old root sits under an internal node without pairs. -/
def fromSortedP : (t : Nat × Tree K V) → (len : Nat) → List (K × V) → Alloc →
    Exec (Outcome (Map K V) ((Nat × Tree K V) × Alloc))
  | t, _, [], a => .ok (.done (t, a))
  | t, len, kv :: rest, a =>
    match pushSorted t.1 t.2 kv a with
    | .ub => .ub
    | .panic _ => .ok (.unwound ⟨t.1, t.2, false, len⟩ .mem)
    | .ok (some t', a) => fromSortedP ⟨t.1, t'⟩ (len + 1) rest a
    | .ok (none, a) =>
      let r := a.request
      if r.1 then
        let r2 := Alloc.requests (t.1 + 1) r.2
        let top : Tree K V := ⟨[], [t.2]⟩
        if r2.1 then do
          let top ← top.pushInternal kv (emptySpine t.1)
          fromSortedP ⟨t.1 + 1, top⟩ (len + 1) rest r2.2
        else .ok (.unwound ⟨t.1 + 1, top, false, len⟩ .mem)
      else .ok (.unwound ⟨t.1, t.2, false, len⟩ .mem)

/-- src/btree/map.rs:830-853 `append`: `(self, other)` afterwards.  Both maps are replaced by `new()` before merging starts (842-843), so unwinding
leaves `other` empty and `self` half built; the pairs still in the two iterators are dropped. -/
def Map.appendP [Ord K] (m other : Map K V) (a : Alloc) (fuel : Nat) :
    Exec (Outcome (Map K V × Map K V) ((Map K V × Map K V × Alloc) × Nat)) :=
  if other.len = 0 then .ok (.done ((m, other, a), fuel))
  else if m.len = 0 then .ok (.done ((other, m, a), fuel))
  else do
    let l ← m.toListE
    let r ← other.toListE
    let own := (Map.new : Map K V).ensureRootIsOwned a
    match own.1 with
    | .error _ => .ok (.unwound (own.2.1, Map.new) .mem)
    | .ok () => do
      let items := mergeIterP fuel l r
      match ← fromSortedP ⟨own.2.1.height, own.2.1.root⟩ own.2.1.length items.1 own.2.2 with
      | .unwound m' w => .ok (.unwound (m', Map.new) w)
      | .done (t, a) =>
        match items.2 with
        | none => .ok (.unwound (⟨t.1, t.2, own.2.1.shared, own.2.1.length + items.1.length⟩, Map.new) .cmp)
        | some fuel => do
          let t' ← fixRightEdge t.1 t.2
          .ok (.done ((⟨t.1, t', own.2.1.shared, own.2.1.length + items.1.length⟩, Map.new, a), fuel))

/-! ### split_off -/

/-- The loop of `split_off` over left and right node, with `fuel` comparisons to go: src/btree/map.rs:1104-1125.  Pairs moved to the
right tree before the panic stay moved. -/
def splitLoopP [Ord Q] (bor : K → Q) (q : Q) :
    (h : Nat) → Tree K V → Tree K V → Nat → Exec (Outcome (Tree K V × Tree K V) ((Tree K V × Tree K V) × Nat))
  | h, l, r, fuel =>
    match searchFromP bor q 0 l.kvs fuel with
    | none => .ok (.unwound (l, r) .cmp)
    | some ((i, _), fuel) =>
      match h with
      | 0 => do
        let lr ← l.moveSuffix r i
        .ok (.done (lr, fuel))
      | h + 1 => do
        let (l, r) ← l.moveSuffix r i
        let cl ← getE l.edges i
        let cr ← getE r.edges 0
        match ← splitLoopP bor q h cl cr fuel with
        | .done ((cl, cr), fuel) => do
          let le ← setE l.edges i cl
          let re ← setE r.edges 0 cr
          .ok (.done (({ l with edges := le }, { r with edges := re }), fuel))
        | .unwound (cl, cr) w => do
          let le ← setE l.edges i cl
          let re ← setE r.edges 0 cr
          .ok (.unwound ({ l with edges := le }, { r with edges := re }) w)

/-- src/btree/map.rs:1084-1140 `split_off`.  When it unwinds, `self` has its root as far as it was cut and its old `length`; the map under construction
(`length` still 0) is dropped, so the pairs moved there leak. -/
def Map.splitOffP [Ord Q] (m : Map K V) (bor : K → Q) (q : Q) (a : Alloc) (fuel : Nat) :
    Exec (Outcome (Map K V) ((Res (Map K V) × Map K V × Alloc) × Nat)) :=
  if m.isEmpty then .ok (.done ((.ok Map.new, m, a), fuel))
  else
    let total := m.length
    let g := Alloc.requests (m.height + 1) a
    if g.1 then do
      match ← splitLoopP bor q m.height m.root (emptySpine m.height) fuel with
      | .unwound (l, _) w => .ok (.unwound { m with root := l } w)
      | .done ((l, r), fuel) => do
        let l ← fixRightBorder ⟨m.height, l⟩
        let r ← fixLeftBorder ⟨m.height, r⟩
        if l.1 < r.1 then do
          let ll ← dfsLen l.1 l.2
          require (ll ≤ total)
          .ok (.done ((.ok ⟨r.1, r.2, false, total - ll⟩, ⟨l.1, l.2, m.shared, ll⟩, g.2), fuel))
        else do
          let rl ← dfsLen r.1 r.2
          require (rl ≤ total)
          .ok (.done ((.ok ⟨r.1, r.2, false, rl⟩, ⟨l.1, l.2, m.shared, total - rl⟩, g.2), fuel))
    else .ok (.done ((.error .allocError, m, g.2), fuel))

end Verif.BTree
