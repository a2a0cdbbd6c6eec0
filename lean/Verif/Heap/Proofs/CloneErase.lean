import Verif.Heap.CloneLedger
import Verif.Heap.Proofs.Insert
/-
The ledger of `try_clone` only records: without it the calls are those of the model without a ledger.
-/
namespace Verif.Heap
open Verif
open Verif.BTree (CAPACITY Cloner)

variable {K V α β γ : Type}

/-- A call whose result is changed afterwards. -/
def fm (f : α → β) (m : HM K V α) : HM K V β := m >>= fun a => pure (f a)

theorem fm_pure (f : α → β) (a : α) : fm f (pure a : HM K V α) = pure (f a) := rfl

theorem fm_bind (f : β → γ) (m : HM K V α) (k : α → HM K V β) : fm f (m >>= k) = (m >>= fun a => fm f (k a)) := bind_assoc'

theorem bind_fm {f : α → β} {m : HM K V α} {m' : HM K V β} (h : fm f m = m') (k : β → HM K V γ) : (m' >>= k) = (m >>= fun a => k (f a)) := by
  rw [← h]
  exact bind_assoc'

theorem fm_ended {σ ρ σ' ρ' : Type} (f : σ → σ') (g : ρ → ρ') (x : σ ⊕ ρ) : fm g (ended x : HM K V ρ) = ended (Sum.map f g x) := by
  cases x with
  | inl s => rfl
  | inr r => rfl

theorem loopN_fm {σ ρ σ' ρ' : Type} {f : σ → σ'} {g : ρ → ρ'} {step : σ → HM K V (σ ⊕ ρ)} {step' : σ' → HM K V (σ' ⊕ ρ')}
    (h : ∀ s, fm (Sum.map f g) (step s) = step' (f s)) : ∀ (n : Nat) (s : σ), fm (Sum.map f g) (loopN step n s) = loopN step' n (f s)
  | 0, s => rfl
  | n + 1, s => by
    rw [loopN_succ, loopN_succ, fm_bind, bind_fm (h s)]
    refine bind_congr' fun x => ?_
    cases x with
    | inl s => exact loopN_fm h n s
    | inr r => rfl

theorem cloneKvL_fm (ck : Cloner K) (cv : Cloner V) (kv : K × V) : fm Prod.fst (cloneKvL ck cv kv) = cloneKv ck cv kv := by
  unfold cloneKvL cloneKv
  rw [fm_bind]
  refine bind_congr' fun rk => ?_
  cases rk with
  | error e => rfl
  | ok k =>
    dsimp only
    rw [fm_bind]
    refine bind_congr' fun rv => ?_
    cases rv <;> rfl

/-- State and end of a loop without the ledger. -/
abbrev bare : (Nat × Nat × List (K × V)) → Nat × Nat := fun s => (s.1, s.2.1)
abbrev bareEnd : (Option TryReserveError × Nat × Ledger K V) → Option TryReserveError × Nat := fun s => (s.1, s.2.1)

theorem cloneLeafStepL_fm (ck : Cloner K) (cv : Cloner V) (src out : Addr) (s : Nat × Nat × List (K × V)) :
    fm (Sum.map bare bareEnd) (cloneLeafStepL ck cv src out s) = cloneLeafStep ck cv src out (bare s) := by
  unfold cloneLeafStepL cloneLeafStep
  rw [fm_bind]
  refine bind_congr' fun len => ?_
  dsimp only
  split
  · rw [fm_bind]
    refine bind_congr' fun kv => ?_
    rw [fm_bind]
    refine bind_congr' fun e => ?_
    rw [fm_bind, bind_fm (cloneKvL_fm ck cv kv)]
    refine bind_congr' fun r => ?_
    obtain ⟨r, lone⟩ := r
    cases r with
    | error e => rfl
    | ok kv' =>
      dsimp only
      rw [fm_bind]
      exact bind_congr' fun _ => rfl
  · rfl

theorem cloneInternalStepL_fm (ck : Cloner K) (cv : Cloner V) {rec : Addr → HM K V (Res HMap × Ledger K V)} {rec' : Addr → HM K V (Res HMap)}
    (hrec : ∀ a, fm Prod.fst (rec a) = rec' a) (src out : NRef) (s : Nat × Nat × List (K × V)) :
    fm (Sum.map bare bareEnd) (cloneInternalStepL ck cv rec src out s) = cloneInternalStep ck cv rec' src out (bare s) := by
  unfold cloneInternalStepL cloneInternalStep
  rw [fm_bind]
  refine bind_congr' fun len => ?_
  dsimp only
  split
  · rw [fm_bind]
    refine bind_congr' fun kv => ?_
    rw [fm_bind]
    refine bind_congr' fun e => ?_
    rw [fm_bind, bind_fm (cloneKvL_fm ck cv kv)]
    refine bind_congr' fun r => ?_
    obtain ⟨r, lone⟩ := r
    cases r with
    | error e => rfl
    | ok kv' =>
      dsimp only
      rw [fm_bind]
      refine bind_congr' fun c => ?_
      rw [fm_bind, bind_fm (hrec c.node)]
      refine bind_congr' fun sub => ?_
      obtain ⟨sub, L⟩ := sub
      cases sub with
      | error e => rfl
      | ok m =>
        dsimp only
        rw [fm_bind]
        exact bind_congr' fun _ => rfl
  · rfl

theorem cloneSubtreeL_fm (ck : Cloner K) (cv : Cloner V) : ∀ (h : Nat) (a : Addr), fm Prod.fst (cloneSubtreeL ck cv h a) = cloneSubtree ck cv h a
  | 0, a => by
    unfold cloneSubtreeL cloneSubtree
    rw [fm_bind]
    refine bind_congr' fun r => ?_
    cases r with
    | none => rfl
    | some r =>
      dsimp only
      rw [fm_bind]
      refine bind_congr' fun e => ?_
      rw [fm_bind, show (e.idx, 0) = bare (e.idx, 0, ([] : List (K × V))) from rfl,
        bind_fm (loopN_fm (f := bare) (g := bareEnd) (cloneLeafStepL_fm ck cv a r.node) (CAPACITY + 1) (e.idx, 0, []))]
      refine bind_congr' fun x => ?_
      rw [fm_bind, bind_fm (fm_ended bare bareEnd x)]
      refine bind_congr' fun x => ?_
      obtain ⟨x, n, L⟩ := x
      cases x with
      | none => rfl
      | some er =>
        dsimp only
        rw [fm_bind]
        exact bind_congr' fun _ => rfl
  | h + 1, a => by
    unfold cloneSubtreeL cloneSubtree
    rw [fm_bind]
    refine bind_congr' fun e => ?_
    rw [fm_bind]
    refine bind_congr' fun c => ?_
    rw [fm_bind, bind_fm (cloneSubtreeL_fm ck cv h c.node)]
    refine bind_congr' fun first => ?_
    obtain ⟨first, L⟩ := first
    cases first with
    | error e => rfl
    | ok m =>
      dsimp only
      rw [fm_bind]
      refine bind_congr' fun r => ?_
      cases r with
      | none =>
        dsimp only
        rw [fm_bind]
        exact bind_congr' fun _ => rfl
      | some r =>
        dsimp only
        rw [fm_bind]
        refine bind_congr' fun e => ?_
        rw [fm_bind, show (e.idx, m.length) = bare (e.idx, m.length, L.made) from rfl,
          bind_fm (loopN_fm (f := bare) (g := bareEnd) (cloneInternalStepL_fm ck cv (cloneSubtreeL_fm ck cv h) ⟨h + 1, a⟩ r) (CAPACITY + 1) (e.idx, m.length, L.made))]
        refine bind_congr' fun x => ?_
        rw [fm_bind, bind_fm (fm_ended bare bareEnd x)]
        refine bind_congr' fun x => ?_
        obtain ⟨x, n, L⟩ := x
        cases x with
        | none => rfl
        | some er =>
          dsimp only
          rw [fm_bind]
          exact bind_congr' fun _ => rfl

theorem tryCloneL_fm (m : HMap) (ck : Cloner K) (cv : Cloner V) : fm Prod.fst (m.tryCloneL ck cv) = m.tryClone ck cv := by
  unfold HMap.tryCloneL HMap.tryClone
  split
  · rfl
  · exact cloneSubtreeL_fm ck cv _ _

end Verif.Heap
