import Verif.Heap.Unwind
import Verif.Heap.Proofs.Program
import Verif.Heap.Proofs.DropUb
import Verif.BTree.Proofs.Spoilt
/-
`extend` and `from_iter` that panic half-way, in memory.
-/
namespace Verif.Heap
open Verif
open Verif.BTree (Map Spoilt)
open Verif.Spec (End Out)

variable {K V Q α β : Type} {E : String → Prop}

/-- What `extend` leaves: the extended map, or the map of a failed insertion and some lost memory. -/
def ExtendPost [Ord K] (M : Map K V) (l : List (K × V)) (al : Alloc) (o : Bool × HMap) : HProp K V :=
  hex fun y : Map K V × Alloc => fact (
      (o.1 = true ∧ M.extend l al = .ok y) ∨
      (o.1 = false ∧ M.extend l al = .panic "Out of Mem" ∧ ∃ l1 k v l2 M0 a0 e, l = l1 ++ (k, v) :: l2 ∧ M.extend l1 al = .ok (M0, a0) ∧ M0.WF ∧
        M0.tryInsert k v a0 = .ok (.error e, y))) ∗ rep o.2 y.1 ∗ sched y.2 ∗ leak o.1

theorem extendU_ref [Ord K] : ∀ {l : List (K × V)} {hm : HMap} {M : Map K V} {al : Alloc}, M.WF →
    Triple E (rep hm M ∗ sched al) (hm.extendU l) (ExtendPost M l al)
  | [], hm, M, al, _ => by
    refine Triple.ofPure ?_
    refine Ent.hex_right (M, al) (Ent.fact_right (.inl ⟨rfl, rfl⟩) ?_)
    simp only [leak, sep_emp]
    exact Ent.refl _
  | (k, v) :: l, hm, M, al, hM => by
    obtain ⟨res, M1, al1, h1, h2, _⟩ := BTree.Map.tryInsert_wf hM k v al
    show Triple E _ (hm.tryInsert k v >>= _) _
    refine Triple.seq (tryInsert_rep h1) fun r => ?_
    obtain ⟨r, hm1⟩ := r
    cases res with
    | error e =>
      rw [insertPost_error]
      refine Triple.getFact fun ho => ?_
      dsimp only at ho
      subst ho
      refine Triple.ofPure ?_
      refine Ent.hex_right (M1, al1) (Ent.fact_right (.inr ⟨rfl, by simp [BTree.Map.extend, h1], [], k, v, l, M, al, e, rfl, rfl, hM, h1⟩) ?_)
      exact Ent.trans (Q := rep hm1 M1 ∗ sched al1 ∗ litter) (by ent_ac) (Ent.sep (Ent.refl _) (Ent.sep (Ent.refl _) (ent_anything _)))
    | ok old =>
      rw [insertPost_ok]
      refine Triple.getFact fun ho => ?_
      dsimp only at ho
      subst ho
      dsimp only
      refine Triple.pre (Triple.post (extendU_ref (l := l) (hm := hm1) (M := M1) (al := al1) h2.1) fun o => ?_) (by ent_ac)
      unfold ExtendPost
      rintro w ⟨y, hw⟩
      refine ⟨y, ?_⟩
      revert w
      show Ent _ _
      refine Ent.fact_left fun hf => ?_
      refine Ent.fact_right ?_ (Ent.refl _)
      have e : ∀ l, M.extend ((k, v) :: l) al = M1.extend l al1 := fun l => by simp [BTree.Map.extend, h1]
      rcases hf with ⟨f1, f2⟩ | ⟨f1, f2, l1, k', v', l2, M0, a0, er, f3, f4, f5, f6⟩
      · exact .inl ⟨f1, by rw [e, f2]⟩
      · exact .inr ⟨f1, by rw [e, f2], (k, v) :: l1, k', v', l2, M0, a0, er, by rw [f3]; rfl, by rw [e, f4], f5, f6⟩

/-- A described computation that cannot panic returns. -/
theorem Triple.returns {P : HProp K V} {m : HM K V α} {Qb : α → HProp K V} (h : Triple (fun _ => False) P m Qb) {R : HProp K V} {s : Heap K V}
    (hg : s.Good) (hw : (P ∗ R) s.world) : ∃ a s', m s = .ok (a, s') ∧ s'.Good ∧ (Qb a ∗ R) s'.world := by
  have := h R s hg hw
  cases hm : m s with
  | ok r => rw [hm] at this; exact ⟨r.1, r.2, rfl, this.1, this.2⟩
  | ub => rw [hm] at this; exact this.elim
  | panic msg => rw [hm] at this; exact this.elim

/-- `extend` on a map that has never held anything, when there is no memory. -/
theorem extendU_shared [Ord K] {m : HMap} (hm : m.root.node = SHARED) (k : K) (v : V) (l : List (K × V)) {s : Heap K V} (ha : s.alloc 0 = false) :
    ∃ s', m.extendU ((k, v) :: l) s = .ok ((false, m), s') ∧ s'.cells = s.cells := by
  refine ⟨{ s with alloc := s.alloc.request.2 }, ?_, rfl⟩
  show HM.bind (m.tryInsert k v) _ s = _
  have h1 : m.tryInsert k v s = .ok ((none, m), { s with alloc := s.alloc.request.2 }) := by
    show HM.bind (m.tryEntry k) _ s = _
    have h2 : m.tryEntry (V := V) k s = .ok ((none, m), { s with alloc := s.alloc.request.2 }) := by
      show HM.bind m.ensureRootIsOwned _ s = _
      have h3 : m.ensureRootIsOwned s = .ok (none, { s with alloc := s.alloc.request.2 }) := by
        unfold HMap.ensureRootIsOwned
        rw [if_pos hm]
        show HM.bind newLeaf _ s = _
        have h4 : (newLeaf : HM K V _) s = .ok (none, { s with alloc := s.alloc.request.2 }) := by
          show HM.bind (allocNode .leaf) _ s = _
          have h5 : (allocNode .leaf : HM K V _) s = .ok (none, { s with alloc := s.alloc.request.2 }) := by
            simp [allocNode, Alloc.request, ha]
          simp only [HM.bind, h5]
          rfl
        simp only [HM.bind, h4]
        rfl
      simp only [HM.bind, h3]
      rfl
    simp only [HM.bind, h2]
    rfl
  simp only [HM.bind, h1]
  rfl

/-- Dropping a map that has never held anything. -/
theorem drop_shared {m : HMap} (hm : m = ⟨⟨0, SHARED⟩, 0⟩) (s : Heap K V) : m.drop s = .ok ([], s) := by
  subst hm; rfl

end Verif.Heap
