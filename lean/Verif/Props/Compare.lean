import Verif.Heap.Proofs.Compare
import Verif.Props.MutLook
import Verif.Props.Whole
/-
C79: comparing, hashing, printing and indexing maps in memory.
-/
namespace Verif.Props
open Verif Verif.Heap Verif.Spec
open Verif.BTree (Map Reach)

variable {K V Q S : Type} {pl : Nat → Heap.Addr}

/-- **C23** (partial order) `partial_cmp` goes through the two entry sequences (each entry compared by key, then value) up to the first comparison that does not answer
`Some(Equal)`, and gives that answer; if there is none, the shorter sequence is less. -/
theorem C23_partial_cmp {m o : Map K V} {l r : List (K × V)} (hl : m.toListE = .ok l) (hr : o.toListE = .ok r) (f : Orders K V S) :
    ∃ c, m.partialCmp o f.partialK f.partialV = .ok c ∧ FirstDecides f.partial l r c := by
  refine ⟨BTree.lexPartial f.partial l r, ?_, BTree.lexPartial_spec l r⟩
  simp only [BTree.Map.partialCmp, hl, hr, Exec.ok_bind, orders_partial]

/-- **C79** After any program over maps, with any key order, any questions about any of the maps (`==`, `partial_cmp`, `cmp`, `hash`, `{:?}`, indexing; a map may be compared
with itself), with any comparisons of keys and values and any hasher, are answered, and the memory is left as it is.  The answers are right for the entries of the maps (`ls`, the lists
that the level-1 model computes), except that for an indexing it is only promised that a value given back is stored under an equal key. -/
theorem C79_any_order [Ord K] [Ord Q] {bor : K → Q} {ops : List (Op K V Q)} {al : Alloc} {os : List (Out K V)} {p : List HMap} {s : Heap K V}
    (hr : Op.hprog bor ops [] (Heap.start al pl) = .ok ((os, true, p), s)) (f : Orders K V S) :
    ∃ p' al', BTree.Op.runs bor ops [] al = .ok (os, p', al') ∧ p'.length = p.length ∧
      ∀ asks : List (Ask Q), ∃ ts, Ask.hruns f bor p asks s = .ok (ts, s) ∧ All2 (fun a t => a.Right f bor False (p'.map Map.toList) t) asks ts := by
  obtain ⟨hg, p', al', h1, hl, hp, hw⟩ := hprog_pool hr
  exact ⟨p', al', h1, hl.symm, fun asks => asks_ref hg hp (fun h => h.elim) hw hl asks⟩

/-- **C79** With a lawful key order and no failed allocation the lists are the sorted lists that the program computes, and an indexing gives the value stored for the key,
and panics if there is none. -/
theorem C79_history [Ord K] [Std.TransOrd K] [Ord Q] [Std.TransOrd Q] {bor : K → Q} (hbo : BorrowOK bor) {ops : List (Op K V Q)} {al : Alloc} {os : List (Out K V)}
    {p : List HMap} {s : Heap K V} (hr : Op.hprog bor ops [] (Heap.start al pl) = .ok ((os, true, p), s)) (hf : .failed ∉ os) (f : Orders K V S) (asks : List (Ask Q)) :
    ∃ ts, Ask.hruns f bor p asks s = .ok (ts, s) ∧ All2 (fun a t => a.Right f bor True (Op.specs bor ops []).2 t) asks ts := by
  obtain ⟨hg, p', al', hl, hp, he, hw⟩ := hprog_specs hbo hr hf
  rw [← he]
  exact asks_ref hg (fun m h => (hp m h).toShaped) (fun _ M hM q => BTree.Map.getKeyValue_spec hbo (hp M hM) q) hw hl asks

/-! ### the hypotheses are met -/

def fortyPairs : List (Nat × Nat) := (List.range 40).map fun i => (i, i)

/-- Four maps: 40 entries; the same, inserted in the opposite order; one that differs in the value of 20; and an empty one. -/
def cmpProgram : List (Op Nat Nat Nat) :=
  [.new, .new, .new, .new, .extend 0 fortyPairs, .extend 1 fortyPairs.reverse, .extend 2 fortyPairs, .insert 2 20 0]

/-- Keys are compared as numbers; values 0 and 20 are incomparable. -/
def numOrders : Orders Nat Nat Nat where
  eqK := (· == ·)
  eqV := (· == ·)
  partialK a b := some (compare a b)
  partialV a b := if a == 0 && b == 20 then none else some (compare a b)
  cmpK a b := compare a b
  cmpV a b := compare a b
  feed st x := (31 * st + 7 * x.1 + x.2) % 65537
  init := 1

def toldNumber : Told Nat Nat Nat → Nat
  | .bool b => if b then 1 else 0
  | .part none => 9
  | .part (some .lt) => 10
  | .part (some .eq) => 11
  | .part (some .gt) => 12
  | .ord .lt => 20
  | .ord .eq => 21
  | .ord .gt => 22
  | .state st => 100 + st
  | .entries l => l.length
  | .value none => 99
  | .value (some v) => 1000 + v
  | .skipped => 98

def onMaps (asks : List (Ask Nat)) : List Nat :=
  match Op.hprog id cmpProgram [] (Heap.Heap.start allOk reuse) with
  | .ok ((_, true, p), s) =>
    match Ask.hruns numOrders id p asks s with
    | .ok (ts, _) => ts.map toldNumber
    | _ => []
  | _ => []

example : onMaps [.eq 0 1, .eq 0 2, .eq 0 0, .eq 3 0, .partialCmp 0 1, .partialCmp 2 0, .partialCmp 0 2, .partialCmp 3 0, .partialCmp 0 3, .cmp 0 1, .cmp 2 0, .cmp 0 2, .cmp 3 0, .debug 1,
    .debug 3, .index 0 20, .index 2 20, .index 0 77, .index 9 1, .eq 0 9] =
  [1, 0, 1, 0, 11, 9, 12, 10, 12, 21, 20, 22, 20, 40, 0, 1020, 1000, 99, 98, 98] := by decide +kernel

example : (match onMaps [.hash 0, .hash 1, .hash 2, .hash 3] with
  | [a, b, c, d] => a == b && a != c && d == 101
  | _ => false) = true := by decide +kernel

end Verif.Props
