import Verif.Heap.Proofs.UnwindDrop
import Verif.Props.Budget
import Verif.Props.Heap
/-
C66: destructors of keys and values that panic.
-/
namespace Verif.Props
open Verif Verif.Heap Verif.Spec
open Verif.BTree (Map)

variable {K V Q : Type} {pl : Nat → Heap.Addr}

/-- A program with panicking destructors that starts with nothing allocated. -/
theorem hcalls_cases [Ord K] [Ord Q] (bor : K → Q) (ops : List (Op K V Q × Nat)) (al : Alloc) (pl : Nat → Addr) :
    match Op.hcalls bor ops [] (Heap.start al pl) with
    | .ok (r, s) => s.Good ∧ CallsPost bor ops [] al r s.world
    | .ub => False
    | .panic msg => BTree.Op.runs bor (ops.map (·.1)) [] al = .panic msg := by
  have h := hcalls_ref (E := fun msg => BTree.Op.runs bor (ops.map (·.1)) [] al = .panic msg) bor ops (hs := []) (p := []) (by simp) al (fun _ h => h)
    emp (Heap.start al pl) (start_good al) (start_world al)
  cases hr : Op.hcalls bor ops [] (Heap.start al pl) with
  | ok r =>
    rw [hr] at h
    exact ⟨h.1, by simpa only [sep_emp] using h.2⟩
  | ub => rw [hr] at h; exact h
  | panic msg => rw [hr] at h; exact h

/-- **C66** Whatever destructors panic while `clear` or a dropped owning iterator (or the map itself) runs them, in a program over any number of maps, with any
key order and allocator: caught or not, it is never undefined behaviour. -/
theorem C66_no_ub [Ord K] [Ord Q] (bor : K → Q) (ops : List (Op K V Q × Nat)) (al : Alloc) (pl : Nat → Addr) : Op.hcalls bor ops [] (Heap.start al pl) ≠ .ub := by
  intro h
  have := hcalls_cases bor ops al pl
  rw [h] at this
  exact this

/-- **C66** The answers and the maps are those of the same program in which no destructor panics: a map whose entries were being dropped is a new map, all others
are as they were.  Every map can be dropped, which drops its entries, and if no destructor panicked nothing is allocated afterwards. -/
theorem C66_calls [Ord K] [Ord Q] {bor : K → Q} {ops : List (Op K V Q × Nat)} {al : Alloc} {rs : List (Out K V × List (K × V) × Bool)} {p : List HMap} {s : Heap K V}
    (hr : Op.hcalls bor ops [] (Heap.start al pl) = .ok ((rs, true, p), s)) :
    ∃ ms al', BTree.Op.runs bor (ops.map (·.1)) [] al = .ok (rs.map (·.1), ms, al') ∧ rs.map (·.2) = BTree.Op.runDrops bor ops [] al ∧
      ∃ s', dropAll p s = .ok (ms.map Map.toList, s') ∧ ((∀ r ∈ rs, r.2.2 = true) → ∀ a, s'.cells a = none) := by
  have h := hcalls_cases bor ops al pl
  rw [hr] at h
  obtain ⟨hg, ⟨ms, al'⟩, hw⟩ := h
  obtain ⟨⟨h1, h2, h3, _⟩, hw⟩ := fact_sep.1 hw
  dsimp only at h1 h2 h3 hw
  obtain ⟨h3, h4⟩ := h3 rfl
  have hl : (BTree.Op.runDrops bor ops [] al).length ≤ ops.length := by
    have : ∀ (ops : List (Op K V Q × Nat)) p al, (BTree.Op.runDrops bor ops p al).length ≤ ops.length := by
      intro ops
      induction ops with
      | nil => intro p al; exact Nat.le_refl _
      | cons x ops ih =>
        intro p al
        unfold BTree.Op.runDrops
        rw [List.length_cons, List.length_cons]
        split
        · exact Nat.succ_le_succ (ih _ _)
        · simp
    exact this _ _ _
  rw [List.take_of_length_le (by rw [List.length_map, h3]; exact Nat.le_refl _)] at h1
  rw [List.take_of_length_le (by omega)] at h2
  refine ⟨ms, al', h1, h2, ?_⟩
  by_cases hb : ∀ r ∈ rs, r.2.2 = true
  · rw [show (true && rs.all (·.2.2)) = true by simpa using hb] at hw
    simp only [leak, sep_emp] at hw
    obtain ⟨s', k1, k2⟩ := all_freed (dropAll_spec h4) hg hw
    exact ⟨s', k1, fun _ => k2⟩
  · obtain ⟨x, s', k1, _, k3⟩ := Triple.returns (dropAll_spec (E := fun _ => False) h4) hg hw
    obtain ⟨rfl, _⟩ := fact_sep.1 k3
    exact ⟨s', k1, fun h => absurd h hb⟩

theorem runDrops_agree [Ord K] [Std.TransOrd K] [Ord Q] [Std.TransOrd Q] {bor : K → Q} (hbo : BorrowOK bor) : ∀ (ops : List (Op K V Q × Nat))
    (p : List (Map K V)) (_ : ∀ m ∈ p, m.Valid) (al : Alloc) {os : List (Out K V)} {p' : List (Map K V)} {al' : Alloc},
    BTree.Op.runs bor (ops.map (·.1)) p al = .ok (os, p', al') → .failed ∉ os →
    BTree.Op.runDrops bor ops p al = Op.dropss bor ops (p.map Map.toList)
  | [], _, _, _, _, _, _, _, _ => rfl
  | (op, calm) :: ops, p, hp, al, os, p', al', hr, hf => by
    rw [List.map_cons] at hr
    unfold BTree.Op.runs at hr
    obtain ⟨⟨o, p1, a1⟩, e1, hr⟩ := Exec.bind_eq_ok.1 hr
    obtain ⟨⟨os1, p2, a2⟩, e2, hr⟩ := Exec.bind_eq_ok.1 hr
    simp only [Exec.ok.injEq, Prod.mk.injEq] at hr
    obtain ⟨rfl, rfl, rfl⟩ := hr
    rw [List.mem_cons, not_or] at hf
    rcases BTree.Op.run_agrees hbo hp al op with ⟨⟨msg, h1⟩, _⟩ | ⟨o', q, b, h1, _, h3⟩
    · rw [h1] at e1; cases e1
    · obtain ⟨rfl, rfl, rfl⟩ := by simpa using BTree.Exec.ok_unique h1 e1
      rcases h3 with ⟨rfl, _⟩ | ⟨h3, h4, h5⟩
      · exact absurd rfl hf.1
      · unfold BTree.Op.runDrops Op.dropss
        rw [h1, ← h5]
        exact congrArg _ (runDrops_agree hbo ops q h3 b e2 hf.2)

/-- **C66** With a lawful order: the answers are those of sorted association lists; each `clear` and each owning iterator runs the destructors of the pairs it had, in
ascending order, up to and including the first one that panics, and returns if none does; dropping the maps at the end drops exactly the entries of the lists. -/
theorem C66_history [Ord K] [Std.TransOrd K] [Ord Q] [Std.TransOrd Q] {bor : K → Q} (hbo : BorrowOK bor) {ops : List (Op K V Q × Nat)} {al : Alloc}
    {rs : List (Out K V × List (K × V) × Bool)} {p : List HMap} {s : Heap K V} (hr : Op.hcalls bor ops [] (Heap.start al pl) = .ok ((rs, true, p), s))
    (hf : .failed ∉ rs.map (·.1)) :
    rs.map (·.1) = (Op.specs bor (ops.map (·.1)) []).1 ∧ rs.map (·.2) = Op.dropss bor ops [] ∧
      ∃ s', dropAll p s = .ok ((Op.specs bor (ops.map (·.1)) []).2, s') ∧ ((∀ r ∈ rs, r.2.2 = true) → ∀ a, s'.cells a = none) := by
  obtain ⟨ms, al', h1, h2, h3⟩ := C66_calls hr
  rcases runs_agree hbo (ops.map (·.1)) [] (by simp) al with ⟨h, _⟩ | ⟨p3, a3, e1, _, e3⟩
  · exact absurd ⟨_, ms, al', h1, hf⟩ h
  · rw [h1] at e1
    simp only [Exec.ok.injEq, Prod.mk.injEq, List.map_nil] at e1 e3
    obtain ⟨e4, rfl, rfl⟩ := e1
    rw [e3] at h3
    exact ⟨e4, by rw [h2, runDrops_agree hbo ops [] (by simp) al h1 hf]; rfl, h3⟩

/-- **C66** Nor does a panicking destructor make a program stop: if the allocator never refuses, every such program comes to its end. -/
theorem C66_ends [Ord K] [Std.TransOrd K] [Ord Q] [Std.TransOrd Q] {bor : K → Q} (hbo : BorrowOK bor) (ops : List (Op K V Q × Nat)) {al : Alloc} (hg : al.Good) :
    ∃ rs p s, Op.hcalls bor ops [] (Heap.start al pl) = .ok ((rs, true, p), s) ∧ rs.map (·.1) = (Op.specs bor (ops.map (·.1)) []).1 := by
  rcases runs_agree hbo (ops.map (·.1)) [] (by simp) al with ⟨_, h⟩ | ⟨p', al', h1, h2, h3⟩
  · exact absurd hg h
  · have hc := hcalls_cases bor ops al pl
    simp only [List.map_nil] at h1
    cases hr : Op.hcalls bor ops [] (Heap.start al pl) with
    | ub => rw [hr] at hc; exact hc.elim
    | panic msg => rw [hr] at hc; rw [h1] at hc; cases hc
    | ok r =>
      obtain ⟨⟨rs, b, p⟩, s⟩ := r
      rw [hr] at hc
      obtain ⟨_, ⟨ms, al2⟩, hw⟩ := hc
      obtain ⟨⟨g1, _, g2, g3⟩, _⟩ := fact_sep.1 hw
      dsimp only at g1 g2 g3
      have ht := runs_take bor (ops.map (·.1)) rs.length h1 g1
      cases b with
      | false =>
        obtain ⟨op, hf, hi⟩ := g3 rfl
        have : (op, .failed) ∈ (ops.map (·.1)).zip (Op.specs bor (ops.map (·.1)) []).1 := by
          rw [ht] at hf
          have hz : (ops.map (·.1)).zip ((Op.specs bor (ops.map (·.1)) []).1.take rs.length) =
              ((ops.map (·.1)).take rs.length).zip ((Op.specs bor (ops.map (·.1)) []).1.take rs.length) := by
            apply List.ext_getElem?
            intro n
            simp only [List.zip, List.getElem?_zipWith, List.getElem?_take]
            by_cases h : n < rs.length <;> cases (ops.map (·.1))[n]? <;> simp [h]
          rw [hz, List.zip, ← List.take_zipWith] at hf
          exact List.mem_of_mem_take hf
        rw [specs_not_failed bor (ops.map (·.1)) [] op this] at hi
        cases hi
      | true =>
        obtain ⟨g4, _⟩ := g2 rfl
        rw [List.take_of_length_le (by rw [List.length_map, g4]; exact Nat.le_refl _)] at g1
        rw [h1] at g1
        simp only [Exec.ok.injEq, Prod.mk.injEq] at g1
        exact ⟨rs, p, s, rfl, g1.1.symm⟩

/-- A map of thirty numbers (destructors of six of them return, the seventh panics while it is cleared), then used again; another one is consumed from
both ends, and the destructor of the first number left panics. -/
def hotDrops : List (Op Nat Nat Nat × Nat) :=
  [(.new, 0), (.new, 0)] ++ (List.range 30).map (fun i => (.insert 0 i 0, 0)) ++ (List.range 20).map (fun i => (.insert 1 i 1, 0)) ++
    [(.clear 0, 6), (.len 0, 0), (.insert 0 7 8, 0), (.intoIter 1 [.front, .back, .front], 0), (.get 0 7, 0)]

/-- What the last five calls did, and what dropping the maps gives and leaves allocated. -/
example : (match Op.hcalls id hotDrops [] (Heap.Heap.start allOk fresh) with
    | .ok ((rs, true, p), s) =>
      (rs.drop 52).map (·.1) == [.done, .count 0, .value none, .items [some (0, 1), some (19, 1), some (1, 1)], .value (some 8)] &&
      (rs.drop 52).map (·.2) == [((List.range 7).map fun i => (i, 0), false), ([], true), ([], true), ([(2, 1)], false), ([], true)] &&
      match dropAll p s with
      | .ok (ls, s') => ls == [[(7, 8)], []] && tally s' == (10, 8)
      | _ => false
    | _ => false) = true := by decide +kernel

end Verif.Props
