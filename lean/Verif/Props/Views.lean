import Verif.BTree.Proofs.Views
import Verif.BTree.Proofs.ReachInv
import Verif.BTree.Proofs.AlgViews
import Verif.Props.Set
/-
C56, C57: several shared iterators over one map, or several set-algebra iterators over two sets, at the same time.
-/
namespace Verif.Props
open Verif Verif.BTree Verif.Spec

variable {K V Q : Type}

/-- **C56** Any program that opens, clones, asks, measures and prints any number of iterators over a map sees each of them as a
sequence of its own: clones go on from where the original stood and do not disturb it, `size_hint` is exact for the iterators that
promise it, and printing lists what is still to come without consuming it. -/
theorem C56_views [Ord K] [Std.TransOrd K] [Ord Q] [Std.TransOrd Q] {bor : K → Q} (hbo : BorrowOK bor) {m : Map K V} {l} (h : Reach m)
    (hl : m.toListE = .ok l) (acts : List (ViewAct Q)) :
    ViewAct.runs m bor acts [] = .ok (ViewAct.specs bor l acts []) := by
  have hv := h.valid
  obtain rfl := Exec.ok_unique hl (Map.toListE_spec hv.toShaped)
  exact ViewAct.runs_spec hbo hv acts ⟨rfl, by simp⟩

/-- A program over the map with the keys 0, 2, …, 78. -/
def viewDemo : List (ViewAct Nat) :=
  [.start .iter, .ask 0 .front, .clone 0, .ask 0 .front, .ask 1 .back, .hint 0, .hint 1, .start (.range (.excluded 4) (.included 9)), .clone 2,
   .ask 3 .back, .debug 2, .debug 3, .hint 3, .start (.range (.included 9) (.excluded 4)), .start .values, .ask 4 .back, .ask 7 .front]

set_option maxRecDepth 10000 in
example : Reach demo ∧ ViewAct.runs demo id viewDemo [] = .ok [.opened, .item (some (.pair (0, 0))), .opened, .item (some (.pair (2, 1))),
    .item (some (.pair (78, 39))), .hint (38, some 38), .hint (38, some 38), .opened, .opened, .item (some (.pair (8, 4))),
    .list [.pair (6, 3), .pair (8, 4)], .list [.pair (6, 3)], .hint (0, none), .panicked, .opened, .item (some (.val 39)), .skipped] :=
  ⟨demo_reach, rfl⟩

/-- **C57** Any program that opens, clones, asks and measures any number of set-algebra iterators over two sets sees each of them as
the sequence of the elements of its operation: clones go on from where the original stood (with an item already peeked from an
underlying iterator, too) and do not disturb it, at every moment the size hint holds for what is still to come, and printing lists (at least) what is
still to come and changes nothing. -/
theorem C57_algebra_views {T : Type} [Ord T] [Std.TransOrd T] {s o : BSet T} {l r} (hs : SetReach s) (ho : SetReach o)
    (hl : s.items = .ok l) (hr : o.items = .ok r) :
    ∃ outs : AlgKind → List T, IsDifference l r (outs .difference) ∧ IsSymDiff l r (outs .symmetricDifference) ∧
      (if l.length ≤ r.length then IsIntersection l r (outs .intersection) else IsIntersection r l (outs .intersection)) ∧
      IsUnion l r (outs .union) ∧
      ∀ acts, ∃ xs, AlgAct.runs s o acts [] = .ok xs ∧ AlgAct.AllRight outs acts [] xs := by
  have hs := hs.valid
  have ho := ho.valid
  obtain rfl := BTree.Exec.ok_unique hl (BSet.items_spec hs.toShaped)
  obtain rfl := BTree.Exec.ok_unique hr (BSet.items_spec ho.toShaped)
  obtain ⟨p⟩ := algPlan hs.toShaped ho.toShaped
  obtain ⟨hc, h⟩ := p.lawful hs ho
  exact ⟨p.outs, h .difference, h .symmetricDifference, h .intersection, h .union, fun acts => p.runs acts fun _ _ _ h => h.hint hs ho hc⟩

/-- A program over {3, 4, 9, 10, 11, 70} and {1, 4, 10, 80}: the clone is made while an item of the other set is peeked. -/
example : AlgAct.runs mid (setOf [1, 4, 10, 80]) [.start .symmetricDifference, .next 0, .clone 0, .next 0, .next 0, .next 1, .hint 1, .start .difference,
    .next 2, .clone 2, .next 3, .next 3, .next 2, .hint 2, .next 5] [] =
    .ok [.opened, .item (some 1), .opened, .item (some 3), .item (some 9), .item (some 3), .hint (0, some 8), .opened,
      .item (some 3), .opened, .item (some 9), .item (some 11), .item (some 9), .hint (1, some 3), .skipped] := by decide +kernel

/-- The same with printing: an item of the second set is peeked, then one of the first. -/
example : AlgAct.runs mid (setOf [1, 4, 10, 80]) [.start .symmetricDifference, .debug 0, .next 0, .debug 0, .next 0, .next 0, .debug 0, .start .difference, .debug 1, .next 1,
    .debug 1, .start .intersection, .next 2, .debug 2] [] =
    .ok [.opened, .printed [.peekable [3, 4, 9, 10, 11, 70] none, .peekable [1, 4, 10, 80] none], .item (some 1),
      .printed [.peekable [4, 9, 10, 11, 70] (some (some 3)), .peekable [4, 10, 80] none], .item (some 3), .item (some 9),
      .printed [.peekable [10, 11, 70] none, .peekable [80] (some (some 10))], .opened,
      .printed [.iter [3, 4, 9, 10, 11, 70], .peekable [1, 4, 10, 80] none], .item (some 3),
      .printed [.iter [4, 9, 10, 11, 70], .peekable [10, 80] (some (some 4))], .opened, .item (some 4),
      .printed [.iter [10, 80], .iter [9, 10, 11, 70]]] := by decide +kernel

end Verif.Props
