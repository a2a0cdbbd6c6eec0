import Verif.BTree.Proofs.Calls
/-
An insertion never fails in the specification.
-/
namespace Verif.Spec

variable {K V Q : Type}

theorem onList_not_failed {s : List (List (K × V))} {i : Nat} {f : List (K × V) → Out K V × List (K × V)} (h : ∀ l, (f l).1 ≠ .failed) :
    (onList s i f).1 ≠ .failed := by
  unfold onList
  cases s[i]? with
  | none => simp
  | some l => exact h l

theorem spec_not_failed [Ord K] [Ord Q] (bor : K → Q) (s : List (List (K × V))) (op : Op K V Q) (hi : op.inserts = true) : (op.spec bor s).1 ≠ .failed := by
  cases op <;> simp only [Op.inserts, Bool.false_eq_true] at hi <;> simp only [Op.spec] <;>
    (refine onList_not_failed fun l => ?_
     first
     | (simp; done)
     | (dsimp only; split <;> simp; done)
     | (split <;> simp))

end Verif.Spec
