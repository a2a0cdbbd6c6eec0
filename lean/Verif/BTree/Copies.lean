import Verif.Spec
import Verif.BTree.Bulk
/-
Specification of a copy that stopped halfway.
-/
namespace Verif.Spec
open Verif.BTree (Cloner)

/-- A copy of the entries `l` that was cut short by the error `e`: `made` are clones of the first entries, one each and in order; then the clone of the next key failed, or the
clone of its value (`lone` is then the clone of the key), or memory was refused. -/
def CutShort {K V : Type} (ck : Cloner K) (cv : Cloner V) (e : TryReserveError) (l made : List (K × V)) (lone : List K) : Prop :=
  ∃ pre post, l = pre ++ post ∧
    All2 (fun x y => (∃ a a', ck x.1 a = (.ok y.1, a')) ∧ ∃ a a', cv x.2 a = (.ok y.2, a')) pre made ∧
    ((∃ x rest a a', post = x :: rest ∧ ck x.1 a = (.error e, a') ∧ lone = []) ∨
      (∃ x rest k a a₁ a₂, post = x :: rest ∧ ck x.1 a = (.ok k, a₁) ∧ cv x.2 a₁ = (.error e, a₂) ∧ lone = [k]) ∨
      (e = .allocError ∧ lone = []))

end Verif.Spec
