import Verif.BTree.History
/-
Programs that go on after an insertion failed for want of memory.  A failed insertion may leave a map whose `len()` is larger
than the number of its entries (C15, C16, C63).  Some calls take `len` for that number and walk off the tree on such a map:
`iter`, `iter_mut`, `into_iter`, `append`, `clear`, `drop` (src/btree/map.rs:129-135, 608-610, 830-850, 1256-1467, 2030-2080).
A careful program keeps a list `bad` of the maps that may have been harmed and makes no such call on them.
-/
namespace Verif.Spec

variable {K V Q : Type}

/-- The calls that rely on `len()` being the number of entries of a map that may have been harmed. -/
def Op.trusts (bad : List Nat) : Op K V Q → Bool
  | .clear i => bad.contains i
  | .append i j => bad.contains i || bad.contains j
  | .iterate i _ => bad.contains i
  | .iterMut i _ => bad.contains i
  | .intoIter i _ => bad.contains i
  | .views i _ => bad.contains i
  | _ => false

/-- The map, key and value of a call that may insert an entry and can return `Err`. -/
def Op.inserting : Op K V Q → Option (Nat × K × V)
  | .insert i k v => some (i, k, v)
  | .entryOrInsert i k v _ => some (i, k, v)
  | .entryOrInsertWith i k v _ => some (i, k, v)
  | .replace i k v => some (i, k, v)
  | _ => none

/-- The maps that may have been harmed after the call `op` answered `o`; `lens` are the maps' `len()` before the call.  An insertion that
failed harms its map, unless that was empty; a part split off from a harmed map may be harmed. -/
def Op.mark (bad lens : List Nat) (op : Op K V Q) (o : Out K V) : List Nat :=
  match o with
  | .failed =>
    match op.inserting with
    | some x => if x.1 ∈ bad ∨ lens[x.1]? = some 0 then bad else x.1 :: bad
    | none => bad
  | .done =>
    match op with
    | .splitOff i _ => if i ∈ bad then lens.length :: bad else bad
    | _ => bad
  | _ => bad

/-- What a call that returned `Err` leaves: an insertion may have lost entries of its map (one stretch of at least five of those a success
would have left, the new one possibly among them), or none; the key was not there before, and nothing is lost from an empty map that was not harmed. -/
def Op.leaves [Ord K] (bad : List Nat) (s : List (List (K × V))) (op : Op K V Q) (s' : List (List (K × V))) : Prop :=
  match op.inserting with
  | some x => ∃ l l', s[x.1]? = some l ∧ find? id x.2.1 l = none ∧ Torn 5 l (Spec.insert x.2.1 x.2.2 l) l' ∧
      (x.1 ∉ bad → l = [] → l' = []) ∧ s' = s.set x.1 l'
  | none => s' = s

/-- The two answers of a harmed map that can be wrong: `len()` may be too large, and `is_empty()` too pessimistic. -/
def Op.miscounts (bad : List Nat) (s : List (List (K × V))) (op : Op K V Q) (o : Out K V) : Prop :=
  match op with
  | .len i => i ∈ bad ∧ ∃ l n, s[i]? = some l ∧ o = .count n ∧ l.length ≤ n
  | .isEmpty i => i ∈ bad ∧ ∃ l b, s[i]? = some l ∧ o = .flag b ∧ (b = true → l = [])
  | _ => False

/-- What a call may answer and leave: a call that trusts a harmed map is not made; a call may return `Err`; `len` and `is_empty` of a harmed map
may be off; otherwise the call does what it does to lists. -/
def Op.allowed [Ord K] [Ord Q] (bor : K → Q) (bad : List Nat) (s : List (List (K × V))) (op : Op K V Q) (o : Out K V) (s' : List (List (K × V))) : Prop :=
  if op.trusts bad then o = .skipped ∧ s' = s
  else (o, s') = op.spec bor s ∨ (o = .failed ∧ op.leaves bad s s') ∨ (op.miscounts bad s o ∧ s' = s)

/-- What a careful program may answer (`os`), and leave (the possibly harmed maps `bad'`, and the entries `s'` of all maps). -/
def Op.alloweds [Ord K] [Ord Q] (bor : K → Q) :
    List (Op K V Q) → List Nat → List (List (K × V)) → List (Out K V) → List Nat → List (List (K × V)) → Prop
  | [], bad, s, os, bad', s' => os = [] ∧ bad' = bad ∧ s' = s
  | op :: ops, bad, s, os, bad', s' => ∃ o os1 s1, os = o :: os1 ∧ op.allowed bor bad s o s1 ∧
      Op.alloweds bor ops (op.mark bad (s.map List.length) o) s1 os1 bad' s'

/-- What belongs to the maps that are not in `bad`; `n` is the number of the first one. -/
def soundOf {α : Type} (bad : List Nat) : Nat → List α → List α
  | _, [] => []
  | n, l :: s => if bad.contains n then soundOf bad (n + 1) s else l :: soundOf bad (n + 1) s

end Verif.Spec

namespace Verif.BTree
open Verif Verif.Spec

variable {K V Q : Type}

/-- A careful program on the model: the calls that trust a harmed map are left out. -/
def Op.goOn [Ord K] [Ord Q] (bor : K → Q) :
    List (Op K V Q) → List Nat → List (Map K V) → Alloc → Exec (List (Out K V) × List Nat × List (Map K V) × Alloc)
  | [], bad, p, a => .ok ([], bad, p, a)
  | op :: ops, bad, p, a =>
    if op.trusts bad then do
      let rs ← Op.goOn bor ops bad p a
      .ok (.skipped :: rs.1, rs.2)
    else do
      let r ← Op.run bor p a op
      let rs ← Op.goOn bor ops (op.mark bad (p.map Map.len) r.1) r.2.1 r.2.2
      .ok (r.1 :: rs.1, rs.2)

end Verif.BTree
