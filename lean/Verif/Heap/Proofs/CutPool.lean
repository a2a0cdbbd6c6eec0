import Verif.Heap.Proofs.UnwindOps
import Verif.SpecCut
/-
Programs some of whose calls are unwound by a panicking comparison, in memory and on trees.
-/
namespace Verif.BTree
open Verif Verif.Spec

variable {K V Q : Type}

/-- One call on trees: it returns, or it is unwound after `n` items, in which case one of the maps may own a root node it did not own before. -/
inductive CutStep [Ord K] [Ord Q] (bor : K → Q) (op : Op K V Q) (p : List (Map K V)) (al : Alloc) : Option Nat → Option (Out K V) → List (Map K V) → Alloc → Prop
  | ret {o : Out K V} {p' : List (Map K V)} {al' : Alloc} (h : Op.run bor p al op = .ok (o, p', al')) : CutStep bor op p al none (some o) p' al'
  | cut {n : Nat} {p1 p2 : List (Map K V)} {al1 al2 : Alloc}
      (h1 : match op.upTo n with
        | some op => Op.run bor p al op = .ok (.done, p1, al1)
        | none => p1 = p ∧ al1 = al)
      (h2 : p2 = p1 ∧ al2 = al1 ∨ ∃ i M M', p1[i]? = some M ∧ M.ensureRootIsOwned al1 = (.ok (), M', al2) ∧ p2 = p1.set i M') :
      CutStep bor op p al (some n) none p2 al2

/-- A program. -/
inductive CutRun [Ord K] [Ord Q] (bor : K → Q) : List (Op K V Q × Option Nat) → List (Map K V) → Alloc → List (Option (Out K V)) → List (Map K V) → Alloc → Prop
  | nil {p : List (Map K V)} {al : Alloc} : CutRun bor [] p al [] p al
  | cons {op : Op K V Q} {n : Option Nat} {ops : List (Op K V Q × Option Nat)} {p p1 p2 : List (Map K V)} {al al1 al2 : Alloc} {o : Option (Out K V)}
      {os : List (Option (Out K V))} (h : CutStep bor op p al n o p1 al1) (hs : CutRun bor ops p1 al1 os p2 al2) :
      CutRun bor ((op, n) :: ops) p al (o :: os) p2 al2

theorem WF.set {p : List (Map K V)} {i : Nat} {M : Map K V} (hp : ∀ m ∈ p, m.WF) (h : M.WF) : ∀ m ∈ p.set i M, m.WF := by
  intro m hm
  rcases List.mem_or_eq_of_mem_set hm with hm | rfl
  · exact hp m hm
  · exact h

/-- The trees stay well formed, unless an insertion failed. -/
theorem CutStep.wf [Ord K] [Ord Q] {bor : K → Q} {op : Op K V Q} {p p' : List (Map K V)} {al al' : Alloc} {n : Option Nat} {o : Option (Out K V)}
    (h : CutStep bor op p al n o p' al') (hp : ∀ m ∈ p, m.WF) : (op.inserts = true ∧ o = some .failed) ∨ ∀ m ∈ p', m.WF := by
  cases h with
  | ret h =>
    rcases Op.run_wf bor hp al op with ⟨msg, h'⟩ | ⟨o2, p2, a2, h', h2⟩
    · rw [h] at h'; cases h'
    · rw [h] at h'
      simp only [Exec.ok.injEq, Prod.mk.injEq] at h'
      obtain ⟨rfl, rfl, rfl⟩ := h'
      rcases h2 with h2 | h2
      · exact .inl ⟨h2.1, by rw [h2.2]⟩
      · exact .inr h2
  | @cut n p1 p2 al1 al2 h1 h2 =>
    right
    have hp1 : ∀ m ∈ p1, m.WF := by
      cases hu : op.upTo n with
      | none => rw [hu] at h1; obtain ⟨rfl, rfl⟩ := h1; exact hp
      | some op' =>
        rw [hu] at h1
        dsimp only at h1
        rcases Op.run_wf bor hp al op' with ⟨msg, h'⟩ | ⟨o2, p2, a2, h', h2⟩
        · rw [h1] at h'; cases h'
        · rw [h1] at h'
          simp only [Exec.ok.injEq, Prod.mk.injEq] at h'
          obtain ⟨rfl, rfl, rfl⟩ := h'
          rcases h2 with h2 | h2
          · cases h2.2
          · exact h2
    rcases h2 with ⟨rfl, rfl⟩ | ⟨i, M, M', hi, h3, rfl⟩
    · exact hp1
    · refine WF.set hp1 ?_
      obtain ⟨r, m', a', e1, e2, _⟩ := Map.ensureRoot_spec (hp1 M (List.mem_of_getElem? hi)) al1
      rw [h3] at e1
      simp only [Prod.mk.injEq] at e1
      obtain ⟨_, rfl, _⟩ := e1
      exact e2

end Verif.BTree

namespace Verif.Heap
open Verif
open Verif.BTree (Map CutStep CutRun)
open Verif.Spec (End Op Out)

variable {K V Q α β : Type} {E : String → Prop}

/-- What a call leaves behind. -/
def CutPost [Ord K] [Ord Q] (bor : K → Q) (op : Op K V Q) (p : List (Map K V)) (al : Alloc) (r : Option (Out K V) × List HMap) : HProp K V :=
  hex fun y : Option Nat × List (Map K V) × Alloc => fact (CutStep bor op p al y.1 r.1 y.2.1 y.2.2) ∗ pool r.2 y.2.1 ∗ sched y.2.2 ∗
    (match r.1 with
    | some o => spill op.inserts o
    | none => emp)

theorem hcut_ref [Ord K] [Ord Q] (bor : K → Q) {hs : List HMap} {p : List (Map K V)} (hp : ∀ m ∈ p, m.WF) (al : Alloc) (op : Op K V Q) (fuel : Nat)
    (hE : ∀ msg, BTree.Op.run bor p al op = .panic msg → E msg) :
    Triple E (pool hs p ∗ sched al) (Op.hcut bor hs op fuel) (CutPost bor op p al) := by
  intro R s hg hw
  have hj := hcut_judge bor hs op fuel s
  have hrun := hrun_ref (E := E) bor (hs := hs) hp al op hE R s hg hw
  cases hr : Op.hcut bor hs op fuel s with
  | ub => rw [hr] at hj; unfold OpJudge at hj; dsimp only at hj; rw [hj] at hrun; exact hrun
  | panic msg => rw [hr] at hj; unfold OpJudge at hj; dsimp only at hj; rw [hj] at hrun; exact hrun
  | ok r =>
    obtain ⟨⟨o, hs'⟩, s'⟩ := r
    rw [hr] at hj
    cases o with
    | some o =>
      unfold OpJudge at hj
      dsimp only at hj
      rw [hj] at hrun
      dsimp only at hrun ⊢
      refine ⟨hrun.1, ?_⟩
      refine Ent.frame ?_ R _ hrun.2
      unfold PoolPost CutPost
      rintro w ⟨y, hw⟩
      obtain ⟨h1, hw⟩ := fact_sep.1 hw
      exact ⟨(none, y), fact_sep.2 ⟨.ret h1, hw⟩⟩
    | none =>
      unfold OpJudge at hj
      dsimp only at hj ⊢
      obtain ⟨⟨n, p1, s1, h1, h2⟩, _⟩ := hj
      have key : ∃ P1 al1, (match op.upTo n with
          | some op => BTree.Op.run bor p al op = .ok (.done, P1, al1)
          | none => P1 = p ∧ al1 = al) ∧ s1.Good ∧ (pool p1 P1 ∗ sched al1 ∗ R) s1.world := by
        cases hu : op.upTo n with
        | none =>
          rw [hu] at h1
          obtain ⟨rfl, rfl⟩ := h1
          exact ⟨p, al, ⟨rfl, rfl⟩, hg, by rw [← sep_assoc]; exact hw⟩
        | some op' =>
          rw [hu] at h1
          dsimp only at h1 ⊢
          have hrun := hrun_ref (E := fun _ => True) bor (hs := hs) hp al op' (fun _ _ => trivial) R s hg hw
          rw [h1] at hrun
          dsimp only at hrun
          obtain ⟨hg', hw'⟩ := hrun
          unfold PoolPost at hw'
          rw [hex_sep] at hw'
          obtain ⟨y, hw'⟩ := hw'
          rw [sep_assoc] at hw'
          obtain ⟨h3, hw'⟩ := fact_sep.1 hw'
          refine ⟨y.1, y.2, h3, hg', ?_⟩
          rw [spill_ne (by simp), sep_emp, sep_assoc] at hw'
          exact hw'
      obtain ⟨P1, al1, k1, k2, k3⟩ := key
      rcases h2 with ⟨rfl, rfl⟩ | ⟨i, m, m', hi, h3, rfl⟩
      · refine ⟨k2, ?_⟩
        unfold CutPost
        rw [hex_sep]
        refine ⟨(some n, P1, al1), ?_⟩
        dsimp only
        rw [sep_assoc]
        refine fact_sep.2 ⟨.cut k1 (.inl ⟨rfl, rfl⟩), ?_⟩
        rw [sep_emp, sep_assoc]
        exact k3
      · have k4 := Ent.frame pool_length _ _ k3
        rw [sep_assoc] at k4
        obtain ⟨hl, -⟩ := fact_sep.1 k4
        have hlt : i < P1.length := by
          have := (List.getElem?_eq_some_iff.1 hi).1
          omega
        obtain ⟨hm, F, e1, e2, e3⟩ := pool_split hl (List.getElem?_eq_getElem hlt)
        rw [hi] at e1
        obtain rfl := Option.some.inj e1
        rw [e2] at k3
        unfold rep at k3
        rw [hex_sep, hex_sep] at k3
        obtain ⟨ta, k3⟩ := k3
        have hen := ensureRoot_spec (E := fun _ => True) (hm := m) (M := P1[i]) (ta := ta) (al := al1) (F ∗ R) s1 k2
          (by refine Ent.of_eq ?_ _ k3; ac_rfl)
        rw [h3] at hen
        dsimp only at hen
        obtain ⟨hg', hw'⟩ := hen
        refine ⟨hg', ?_⟩
        generalize hx : P1[i].ensureRootIsOwned al1 = x at hw'
        obtain ⟨r, M', al'⟩ := x
        dsimp only at hw'
        cases r with
        | error e =>
          dsimp only at hw'
          have hw' : (fact ((some m' : Option HMap) = none) ∗ (sched al' ∗ own m M' ta ∗ F ∗ R)) s'.world := by
            refine Ent.of_eq ?_ _ hw'
            ac_rfl
          obtain ⟨h, _⟩ := fact_sep.1 hw'
          cases h
        | ok u =>
          dsimp only at hw'
          rw [sep_hex, hex_sep] at hw'
          obtain ⟨x, hw'⟩ := hw'
          have hw' : (fact ((some m' : Option HMap) = some x.1 ∧ M'.shared = false) ∗ (own x.1 M' x.2 ∗ F ∗ sched al' ∗ R)) s'.world := by
            refine Ent.of_eq ?_ _ hw'
            ac_rfl
          obtain ⟨⟨h, _⟩, hw2⟩ := fact_sep.1 hw'
          obtain rfl := Option.some.inj h
          unfold CutPost
          rw [hex_sep]
          refine ⟨(some n, P1.set i M', al'), ?_⟩
          dsimp only
          rw [sep_assoc]
          refine fact_sep.2 ⟨.cut k1 (.inr ⟨i, P1[i], M', List.getElem?_eq_getElem hlt, hx, rfl⟩), ?_⟩
          rw [sep_emp, e3]
          unfold rep
          rw [sep_assoc, sep_assoc, hex_sep]
          refine ⟨x.2, ?_⟩
          refine Ent.of_eq ?_ _ hw2
          ac_rfl

/-- What a program leaves behind. -/
def CutsPost [Ord K] [Ord Q] (bor : K → Q) (ops : List (Op K V Q × Nat)) (p : List (Map K V)) (al : Alloc) (r : List (Option (Out K V)) × Bool × List HMap) : HProp K V :=
  hex fun y : List (Option Nat) × List (Map K V) × Alloc =>
    fact (y.1.length = r.1.length ∧ CutRun bor ((ops.map (·.1)).zip y.1) p al r.1 y.2.1 y.2.2 ∧
      (r.2.1 = true → r.1.length = ops.length ∧ (∀ m ∈ y.2.1, m.WF)) ∧
      (r.2.1 = false → ∃ op, (op, some .failed) ∈ (ops.map (·.1)).zip r.1 ∧ op.inserts = true)) ∗
    pool r.2.2 y.2.1 ∗ sched y.2.2 ∗ leak r.2.1

theorem hcuts_ref [Ord K] [Ord Q] (bor : K → Q) : ∀ (ops : List (Op K V Q × Nat)) {hs : List HMap} {p : List (Map K V)} (_ : ∀ m ∈ p, m.WF) (al : Alloc)
    (_ : ∀ pre os q b op msg, CutRun bor pre p al os q b → BTree.Op.run bor q b op = .panic msg → E msg),
    Triple E (pool hs p ∗ sched al) (Op.hcuts bor ops hs) (CutsPost bor ops p al)
  | [], hs, p, hp, al, hE => by
    refine Triple.ofPure ?_
    refine Ent.hex_right ([], p, al) (Ent.fact_right ⟨rfl, .nil, fun _ => ⟨rfl, hp⟩, by simp⟩ ?_)
    show Ent _ (pool hs p ∗ sched al ∗ emp)
    rw [sep_emp]
    exact Ent.refl _
  | (op, fuel) :: ops, hs, p, hp, al, hE => by
    unfold Op.hcuts
    refine Triple.seq (hcut_ref bor hp al op fuel fun msg h => hE [] [] p al op msg .nil h) fun r => ?_
    obtain ⟨o, hs'⟩ := r
    unfold CutPost
    refine Triple.ofHex fun y => ?_
    obtain ⟨n, p', al'⟩ := y
    dsimp only
    refine Triple.getFact fun hx => ?_
    by_cases hsp : o.any (Op.spoils op) = true
    · rw [if_pos hsp]
      refine Triple.ofPure ?_
      obtain ⟨o', rfl, hsp⟩ : ∃ o', o = some o' ∧ Op.spoils op o' = true := by
        cases o with
        | none => simp at hsp
        | some o => exact ⟨o, rfl, by simpa using hsp⟩
      refine Ent.hex_right ([n], p', al') ?_
      refine Ent.fact_right ⟨rfl, .cons hx (by simpa using CutRun.nil), by simp, fun _ => ⟨op, by simp [(spoils_iff.1 hsp).2], (spoils_iff.1 hsp).1⟩⟩ ?_
      exact Ent.sep (Ent.refl _) (Ent.sep (Ent.refl _) fun _ _ => trivial)
    · rw [if_neg hsp]
      have hk : (match o with
          | some o => spill op.inserts o
          | none => (emp : HProp K V)) = emp := by
        cases o with
        | none => rfl
        | some o => exact spill_keep (by simpa using hsp)
      rw [hk, sep_emp]
      have hp' : ∀ m ∈ p', m.WF := by
        rcases hx.wf hp with ⟨h1, rfl⟩ | h
        · exact absurd (spoils_iff.2 ⟨h1, rfl⟩) (by simpa using hsp)
        · exact h
      refine Triple.seq (hcuts_ref bor ops hp' al' fun pre os q b op' msg h1 h2 => hE _ _ q b op' msg (.cons hx h1) h2) fun rs => ?_
      unfold CutsPost
      refine Triple.ofHex fun y => ?_
      obtain ⟨ns, p2, al2⟩ := y
      dsimp only
      refine Triple.getFact fun hy => ?_
      refine Triple.ofPure ?_
      refine Ent.hex_right (n :: ns, p2, al2) ?_
      obtain ⟨h1, h0, h2, h3⟩ := hy
      refine Ent.fact_right ⟨by simp [h1], .cons hx h0, fun hb => ⟨by simp [(h2 hb).1], (h2 hb).2⟩,
        fun hb => let ⟨o', h4, h5⟩ := h3 hb; ⟨o', by simp [h4], h5⟩⟩ ?_
      exact Ent.refl _

end Verif.Heap
