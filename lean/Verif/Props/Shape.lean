import Verif.BTree.Proofs.Count
import Verif.Props.Demo
/-
Node occupancy (C19) and the cost of a lookup (C20).  Both hold for any `Ord`, lawful or not.
-/
namespace Verif.Props
open Verif Verif.BTree Verif.Spec

variable {K V Q : Type}

/-- **C19** A node of a reachable map (reached from the root by any path `p`) has at most 11 pairs, at least 4 unless it is
the root; a node above the leaves has one more child than pairs, leaves have none, and all leaves are equally deep. -/
theorem C19_occupancy {m : Map K V} (h : ReachAny m) {p hn n} (hp : nodeAt m.height m.root p = .ok (hn, n)) :
    n.len ≤ 11 ∧ (p ≠ [] → 4 ≤ n.len) ∧ (hn = 0 → n.edges = []) ∧ (0 < hn → n.edges.length = n.len + 1) ∧
      p.length + hn = m.height := by
  obtain ⟨h1, h2, h3, h4⟩ := nodeAt_shape h.wf.below h.wf.shape.1 hp
  refine ⟨h1, h2, ?_, ?_, h4⟩
  · rintro rfl; exact h3
  · intro h0
    obtain ⟨k, rfl⟩ : ∃ k, hn = k + 1 := ⟨hn - 1, by omega⟩
    exact h3.1

/-- Eleven pairs in order, then one to the left of the middle. -/
def thin : Map Nat Nat :=
  match Map.fromIter ((List.range 11).map (fun i => (2 * i, i)) ++ [(1, 0)]) allOk with
  | .ok (m, _) => m
  | _ => Map.new
theorem thin_reach : Reach thin :=
  .extend (l := (List.range 11).map (fun i => (2 * i, i)) ++ [(1, 0)]) (a := allOk) (a' := allOk) .new rfl

/-- **C19** (the documented minimum `B - 1 = 5` is not kept) a map built by twelve successful insertions has a node that is not
the root and has only 4 pairs. -/
theorem C19_min_len_violated : ∃ m : Map Nat Nat, Reach m ∧ ∃ p hn n, p ≠ [] ∧
    nodeAt m.height m.root p = .ok (hn, n) ∧ n.len = 4 :=
  ⟨thin, thin_reach, [1], 0, _, by simp, rfl, rfl⟩

set_option maxRecDepth 10000 in
example : nodeAt demo.height demo.root [0] = .ok (0, ⟨demoList.take 6, []⟩) := rfl

/-- **C20** A lookup calls `Ord::cmp` at most `11 * (h + 1)` times, where `h` is the height, and the height is logarithmic in the
number of entries (`2 * 5^h ≤ n + 1`).  `getC` is `get` with a counter. -/
theorem C20_lookup_cost [Ord Q] {m : Map K V} (h : ReachAny m) (bor : K → Q) (q : Q) :
    ∃ r n, m.getC bor q = .ok (r, n) ∧ m.get bor q = .ok r ∧ n ≤ 11 * (m.height + 1) ∧
      (1 ≤ m.height → 2 * 5 ^ m.height ≤ m.len + 1) := by
  obtain ⟨r, n, h1, h2, h3⟩ := Map.getC_spec h.wf bor q
  refine ⟨r, n, h1, h2, h3, fun h0 => ?_⟩
  have := RootOK.size h.wf.shape h0
  have hl := h.wf.len
  simp only [Map.toList] at hl
  simp only [Map.len]
  omega

set_option maxRecDepth 10000 in
example : demo.getC id 78 = .ok (some 39, 10) ∧ demo.height = 1 := ⟨rfl, rfl⟩

end Verif.Props
