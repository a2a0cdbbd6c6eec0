import Verif.BTree.Map
/-
The search of src/btree/search.rs once more, this time counting the calls of `Ord::cmp`.
-/
namespace Verif.BTree
open Verif

variable {K V Q : Type}

/-- `searchFrom` (src/btree/search.rs:58-65) with the number of calls of `cmp` made. -/
def searchFromC [Ord Q] (bor : K → Q) (q : Q) (i : Nat) : List (K × V) → Nat → (Nat × Bool) × Nat
  | [], n => ((i, false), n)
  | kv :: rest, n =>
    match compare q (bor kv.1) with
    | .gt => searchFromC bor q (i + 1) rest (n + 1)
    | .eq => ((i, true), n + 1)
    | .lt => ((i, false), n + 1)

/-- `searchTree` (src/btree/search.rs:14-34) with the number of calls of `cmp` made so far. -/
def searchTreeC [Ord Q] (bor : K → Q) (q : Q) : (h : Nat) → Tree K V → List Nat → Nat → Exec (SearchResult × Nat)
  | 0, t, up, n =>
    match searchFromC bor q 0 t.kvs n with
    | ((i, true), n) => .ok (.found ⟨up, i⟩, n)
    | ((i, false), n) => .ok (.goDown ⟨up, i⟩, n)
  | h + 1, t, up, n =>
    match searchFromC bor q 0 t.kvs n with
    | ((i, true), n) => .ok (.found ⟨up, i⟩, n)
    | ((i, false), n) => do
      let c ← getE t.edges i
      searchTreeC bor q h c (i :: up) n

/-- `Map.search` (src/btree/map.rs:635) with the number of calls of `cmp` made. -/
def Map.searchC [Ord Q] (m : Map K V) (bor : K → Q) (q : Q) : Exec (SearchResult × Nat) :=
  searchTreeC bor q m.height m.root [] 0

/-- `Map.get` (src/btree/map.rs:630-639) with the number of calls of `cmp` made. -/
def Map.getC [Ord Q] (m : Map K V) (bor : K → Q) (q : Q) : Exec (Option V × Nat) := do
  match ← m.searchC bor q with
  | (.found hd, n) => do
    let kv ← m.kvAt hd
    .ok (some kv.2, n)
  | (.goDown _, n) => .ok (none, n)

end Verif.BTree
