import Verif.Heap.Proofs.UnwindMap
import Verif.Props.AfterFail
import Verif.Props.Budget
/-
C64: `extend`, `from_iter`/`collect` when memory runs out: the panic, and the destructors that run while the stack unwinds.
-/
namespace Verif.Props
open Verif Verif.Heap Verif.Spec
open Verif.BTree (Map Spoilt)

variable {K V Q : Type} {pl : Nat → Heap.Addr}

theorem spoilt_drop {hm : HMap} {M M' : Map K V} (h : Spoilt M M') (hne : M.length ≠ 0) {R : HProp K V} {s : Heap K V} (hg : s.Good)
    (hw : (rep hm M' ∗ R) s.world) : hm.drop s = .ub := by
  rcases h with ⟨h1, _⟩ | ⟨_, h2, h3, h4⟩
  · exact absurd h1 hne
  · exact mapDrop_ub h2 h4 R s hg hw

/-- `extend` of any map of any program when memory runs out. -/
theorem extend_fails [Ord K] {hm : HMap} {M : Map K V} (hM : M.WF) {items : List (K × V)} {al : Alloc} {R : HProp K V} {s : Heap K V} (hg : s.Good)
    (hw : ((rep hm M ∗ sched al) ∗ R) s.world) (hs : s.alloc = al) {m' : HMap} {s' : Heap K V} (hr : hm.extendU items s = .ok ((false, m'), s')) :
    (hm.length = 0 ∧ hm.root.node = SHARED ∧ s.alloc 0 = false ∧ m' = hm ∧ s'.cells = s.cells) ∨ (¬ (hm.root.node = SHARED ∧ s.alloc 0 = false) ∧ m'.drop s' = .ub) := by
  obtain ⟨⟨b, m1⟩, s1, h1, h2, h3⟩ := Triple.returns (extendU_ref (E := fun _ => False) (l := items) hM) hg hw
  rw [hr] at h1
  simp only [Exec.ok.injEq, Prod.mk.injEq] at h1
  obtain ⟨⟨rfl, rfl⟩, rfl⟩ := h1
  unfold ExtendPost at h3
  rw [hex_sep] at h3
  obtain ⟨⟨M1, al1⟩, h3⟩ := h3
  rw [sep_assoc] at h3
  obtain ⟨hf, h4⟩ := fact_sep.1 h3
  rcases hf with ⟨hf, _⟩ | ⟨_, _, l1, k, v, l2, M0, a0, e, e1, e2, e3, e4⟩
  · cases hf
  · dsimp only at e4 h4
    by_cases h0 : M0.length = 0
    · obtain ⟨f1, f2, f3⟩ := BTree.tryInsert_failed_empty e3 h0 e4
      have f4 := (BTree.extend_nonempty hM e2).2
      have hl1 : l1 = [] := by
        cases l1 with
        | nil => rfl
        | cons x l1 => exact absurd h0 (f4 (.inr (by simp)))
      subst hl1
      simp only [BTree.Map.extend, Exec.ok.injEq, Prod.mk.injEq] at e2
      obtain ⟨rfl, rfl⟩ := e2
      obtain ⟨w1, w2, _, _, ⟨w3, w4, _, _, ⟨ta, hrep⟩, _⟩, _⟩ := hw
      rw [own_shared f1] at hrep
      have g1 := hrep.1.1
      have g2 : hm.root.node = SHARED := by rw [g1]
      subst hs
      obtain ⟨s2, g3, g4⟩ := extendU_shared g2 k v l2 f2
      rw [e1, List.nil_append] at hr
      rw [hr] at g3
      simp only [Exec.ok.injEq, Prod.mk.injEq, true_and] at g3
      obtain ⟨rfl, rfl⟩ := g3
      exact .inl ⟨by rw [g1]; exact h0, g2, f2, rfl, g4⟩
    · refine .inr ⟨fun hc => ?_, ?_⟩
      · cases hit : items with
        | nil => rw [hit] at e1; simp at e1
        | cons x l =>
          obtain ⟨k', v'⟩ := x
          obtain ⟨s2, g3, g4⟩ := extendU_shared hc.1 k' v' l hc.2
          rw [hit] at hr
          rw [hr] at g3
          simp only [Exec.ok.injEq, Prod.mk.injEq, true_and] at g3
          obtain ⟨rfl, rfl⟩ := g3
          have g5 := rep_length (R := R ∗ sched al) (hm := m') (M := M) (w := s.world) (by
            have : (rep m' M ∗ R ∗ sched al) = ((rep m' M ∗ sched al) ∗ R) := by ac_rfl
            rw [this]; exact hw)
          have g6 : m'.length = M1.length := rep_length (by rw [sep_assoc] at h4; exact h4)
          rcases BTree.tryInsert_spoilt e3 e4 with ⟨q1, _⟩ | ⟨_, _, q3, _⟩
          · exact h0 q1
          · obtain ⟨w1, w2, _, _, ⟨w3, w4, _, _, ⟨ta, hrep⟩, _⟩, _⟩ := hw
            cases hsh : M.shared with
            | true =>
              have := hM.shared hsh
              have hl := hM.len
              rw [BTree.Map.toList, this.1, this.2] at hl
              simp [BTree.emptyLeaf] at hl
              omega
            | false =>
              rw [own_owned hsh] at hrep
              obtain ⟨pi, hrep⟩ := hrep
              obtain ⟨q4, q5⟩ := fact_sep.1 hrep
              obtain ⟨q6, _⟩ := fact_sep.1 (tree_pos _ q5)
              have := hc.1
              rw [q4.2] at this
              exact q6 this
      · exact spoilt_drop (BTree.tryInsert_spoilt e3 e4) h0 h2 (by rw [sep_assoc] at h4; exact h4)

/-- **C64** `extend` on a map of any program, when it panics because memory ran out: unless the map has never held anything and the very first
request was refused (then nothing at all has changed), dropping the map afterwards, for instance while the panic unwinds, is undefined
behaviour. -/
theorem C64_extend [Ord K] [Ord Q] {bor : K → Q} {ops : List (Op K V Q)} {al : Alloc} {os : List (Out K V)} {p : List HMap} {s s' : Heap K V}
    (hr : Op.hprog bor ops [] (Heap.start al pl) = .ok ((os, true, p), s)) {m m' : HMap} (hm : m ∈ p) {items : List (K × V)}
    (hf : m.extendU items s = .ok ((false, m'), s')) :
    (m.length = 0 ∧ s.alloc 0 = false ∧ m' = m ∧ s'.cells = s.cells) ∨ m'.drop s' = .ub := by
  obtain ⟨p', h1, h2, hp⟩ := hprog_alloc hr
  obtain ⟨hg, _⟩ := hprog_ok hr
  obtain ⟨i, hi⟩ := List.mem_iff_getElem?.1 hm
  have hw : (pool p p' ∗ sched s.alloc) s.world := ⟨⟨s.cells, none⟩, ⟨fun _ => none, some s.alloc⟩, ⟨fun _ => .inr rfl, .inl rfl⟩, by
    simp [World.union, Heap.world], hp, rfl⟩
  have hlen : p.length = p'.length := by
    have := Ent.frame pool_length _ _ hw
    rw [sep_assoc] at this
    exact (fact_sep.1 this).1
  have hlt : i < p'.length := by rw [← hlen]; exact (List.getElem?_eq_some_iff.1 hi).1
  obtain ⟨M, hM⟩ : ∃ M, p'[i]? = some M := ⟨_, List.getElem?_eq_getElem hlt⟩
  obtain ⟨hm1, F, e1, e2, _⟩ := pool_split hlen hM
  rw [hi] at e1
  obtain rfl := Option.some.inj e1
  have hw' : ((rep m M ∗ sched s.alloc) ∗ F) s.world := by
    rw [e2] at hw
    have : ((rep m M ∗ sched s.alloc) ∗ F) = ((rep m M ∗ F) ∗ sched s.alloc) := by ac_rfl
    rw [this]; exact hw
  rcases extend_fails (h2 M (List.mem_of_getElem? hM)) hg hw' rfl hf with ⟨a1, _, a2, a3, a4⟩ | ⟨_, a1⟩
  · exact .inl ⟨a1, a2, a3, a4⟩
  · exact .inr a1

/-- **C64** `from_iter` (`collect`; so also the set operators `-`, `|`, `&`, `^`, which collect) in any memory: if there is enough memory it returns the map;
if its very first request is refused it panics and nothing has changed; if any later request is refused, the destructor of the unfinished map
that runs while the panic unwinds is undefined behaviour. -/
theorem C64_from_iter [Ord K] [Ord Q] {bor : K → Q} {ops : List (Op K V Q)} {al : Alloc} {os : List (Out K V)} {p : List HMap} {s : Heap K V}
    (hr : Op.hprog bor ops [] (Heap.start al pl) = .ok ((os, true, p), s)) (items : List (K × V)) :
    (∀ M al', Map.fromIter items s.alloc = .ok (M, al') → ∃ m s', HMap.fromIterU items s = .ok (some m, s') ∧ m.length = M.len ∧
      ∃ s2, m.drop s' = .ok (M.toList, s2) ∧ s2.cells = s.cells) ∧
    (∀ msg, Map.fromIter items s.alloc = .panic msg →
      (s.alloc 0 = false → ∃ s', HMap.fromIterU items s = .ok (none, s') ∧ s'.cells = s.cells) ∧
      (s.alloc 0 = true → HMap.fromIterU items s = .ub)) := by
  obtain ⟨hg, _⟩ := hprog_ok hr
  let W : HProp K V := fun w => w = ⟨s.cells, none⟩
  have hw : ((rep HMap.new (Map.new : Map K V) ∗ sched s.alloc) ∗ W) s.world := by
    rw [rep_new, emp_sep]
    exact ⟨⟨fun _ => none, some s.alloc⟩, ⟨s.cells, none⟩, ⟨fun _ => .inl rfl, .inr rfl⟩, by simp [World.union, Heap.world], rfl, rfl⟩
  have hwf : (Map.new : Map K V).WF := Map.WF_new
  obtain ⟨⟨b, m1⟩, s1, h1, h2, h3⟩ := Triple.returns (extendU_ref (E := fun _ => False) (l := items) hwf) hg hw
  unfold ExtendPost at h3
  rw [hex_sep] at h3
  obtain ⟨⟨M1, al1⟩, h3⟩ := h3
  rw [sep_assoc] at h3
  obtain ⟨hf, h4⟩ := fact_sep.1 h3
  dsimp only at hf h4
  refine ⟨fun M al' hM => ?_, fun msg hM => ?_⟩
  · rcases hf with ⟨rfl, hf⟩ | ⟨_, hf, _⟩
    · have e := BTree.Exec.ok_unique hM hf
      simp only [Prod.mk.injEq] at e
      obtain ⟨rfl, rfl⟩ := e
      have hM' : M.WF := (BTree.extend_nonempty hwf hf).1
      simp only [leak, sep_emp, sep_assoc] at h4
      refine ⟨m1, s1, ?_, rep_length h4, ?_⟩
      · show HM.bind _ _ s = _
        simp only [HM.bind, h1]
        rfl
      · obtain ⟨l, s2, g1, g2, g3⟩ := Triple.returns (mapDrop_spec (E := fun _ => False) (hM'.len.trans (Nat.add_zero _))) h2 h4
        obtain ⟨rfl, g4⟩ := fact_sep.1 g3
        refine ⟨s2, g1, ?_⟩
        obtain ⟨w1, w2, _, g6, g7, g8⟩ := g4
        have g9 := congrArg World.cells g6
        rw [show w1 = _ from g7, show w2 = _ from g8] at g9
        simpa [World.union, Heap.world] using g9
    · rw [show Map.fromIter items s.alloc = (Map.new : Map K V).extend items s.alloc from rfl, hf] at hM; cases hM
  · rcases hf with ⟨_, hf⟩ | ⟨rfl, _, l1, k, v, l2, M0, a0, e, e1, _, _, _⟩
    · rw [show Map.fromIter items s.alloc = (Map.new : Map K V).extend items s.alloc from rfl, hf] at hM; cases hM
    · have hex := extend_fails hwf hg hw rfl h1
      constructor
      · intro ha
        rcases hex with ⟨_, _, _, rfl, a4⟩ | ⟨a1, _⟩
        · refine ⟨s1, ?_, a4⟩
          show HM.bind _ _ s = _
          simp only [HM.bind, h1]
          rfl
        · exact absurd ⟨rfl, ha⟩ a1
      · intro ha
        rcases hex with ⟨_, _, a3, _⟩ | ⟨_, a1⟩
        · rw [ha] at a3; cases a3
        · show HM.bind _ _ s = _
          simp only [HM.bind, h1]
          show HM.bind _ _ s1 = _
          simp only [HM.bind, a1]

/-- The hypotheses hold, and all three cases happen: twelve pairs collected in an empty memory with enough, no, and little memory. -/
example :
    let items := (List.range 12).map fun i => (i, i)
    (match HMap.fromIterU items (Heap.start (K := Nat) (V := Nat) (fun _ => true) reuse) with
      | .ok (some m, _) => m.length == 12
      | _ => false) = true ∧
    (match HMap.fromIterU items (Heap.start (K := Nat) (V := Nat) (fun _ => false) reuse) with
      | .ok (none, _) => true
      | _ => false) = true ∧
    (match HMap.fromIterU items (Heap.start (K := Nat) (V := Nat) (fun n => n < 1) reuse) with
      | .ub => true
      | _ => false) = true := by decide +kernel

end Verif.Props
