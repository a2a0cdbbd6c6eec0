import Verif.Heap.Proofs.UnwindMap
import Verif.BTree.Destructors
/-
Destructors that panic, in memory.
-/
namespace Verif.BTree
open Verif Verif.Spec

variable {K V Q : Type}

/-- The same for a program on trees. -/
def Op.runDrops [Ord K] [Ord Q] (bor : K → Q) : List (Op K V Q × Nat) → List (Map K V) → Alloc → List (List (K × V) × Bool)
  | [], _, _ => []
  | (op, calm) :: ops, p, a => op.drops (p.map Map.toList) calm :: match Op.run bor p a op with
    | .ok (_, p, a) => Op.runDrops bor ops p a
    | _ => []

end Verif.BTree

namespace Verif.Heap
open Verif
open Verif.BTree (Map)
open Verif.Spec (End Op Out)

variable {K V Q α β : Type} {E : String → Prop}

theorem drainP_spec {H : Nat} : ∀ (n calm : Nat) {it : HIntoIter} {l : List (K × V)}, l.length < n →
    Triple E (consuming H it l) (it.drainP H n calm : HM K V _)
      (fun o => fact (o.1 = l.take (calm + 1) ∧ o.2.1 = decide (l.length ≤ calm)) ∗ consuming H o.2.2 (l.drop (calm + 1)))
  | 0, _, _, _, h => by omega
  | n + 1, calm, it, l, h => by
    unfold HIntoIter.drainP
    refine Triple.seq next_spec fun x => ?_
    obtain ⟨x, it'⟩ := x
    refine Triple.ofFact fun hx => ?_
    dsimp only at hx ⊢
    cases l with
    | nil =>
      subst hx
      exact Triple.ofPure (Ent.fact_right ⟨rfl, by simp⟩ (Ent.refl _))
    | cons kv l =>
      subst hx
      dsimp only [List.head?_cons]
      cases calm with
      | zero => exact Triple.ofPure (Ent.fact_right ⟨rfl, by simp⟩ (Ent.refl _))
      | succ calm =>
        refine Triple.seq (drainP_spec n calm (by simpa using h)) fun r => ?_
        obtain ⟨r, b, it''⟩ := r
        refine Triple.ofFact fun hr => ?_
        dsimp only at hr ⊢
        obtain ⟨rfl, rfl⟩ := hr
        exact Triple.ofPure (Ent.fact_right ⟨rfl, decide_eq_decide.2 (by simp)⟩ (Ent.refl _))

theorem dropP_spec {H calm : Nat} {it : HIntoIter} {l : List (K × V)} (hn : it.length = l.length) :
    Triple E (consuming H it l) (it.dropP H calm : HM K V _) (fun o => fact (o = (l.take (calm + 1), decide (l.length ≤ calm))) ∗ leak o.2) := by
  unfold HIntoIter.dropP
  refine Triple.seq (drainP_spec _ calm (by omega)) fun x => ?_
  obtain ⟨l', b, it'⟩ := x
  refine Triple.ofFact fun hx => ?_
  dsimp only at hx ⊢
  obtain ⟨rfl, rfl⟩ := hx
  by_cases hc : l.length ≤ calm
  · rw [if_pos (by simpa using hc), List.drop_of_length_le (by omega)]
    refine consuming_elim (fun p pi hg hit hlist => ?_) fun _ hit => ?_
    · subst hit
      refine Triple.pre ?_ (mem_first_pos hg)
      refine Triple.ofFact fun hne => ?_
      dsimp only
      rw [if_neg hne]
      refine Triple.callEq (Q₀ := emp) ((freeUp_spec (E := E) (l := (none, pi)) hg hlist (.inl rfl)).post fun o => Ent.of_eq (sep_emp _).symm) ?_
      exact Triple.ofPure (Ent.fact_right (by simp [hc]) (Ent.of_eq (sep_emp _)))
    · subst hit
      exact Triple.ofPure (Ent.fact_right (by simp [hc]) (Ent.refl _))
  · rw [if_neg (by simpa using hc)]
    exact Triple.ofPure (Ent.fact_right (by simp [hc]) (fun _ _ => trivial))

theorem mapDropP_spec {calm : Nat} {hm : HMap} {M : Map K V} (hl : M.length = M.toList.length) :
    Triple E (rep hm M) (hm.dropP calm : HM K V _) (fun o => fact (o = (M.toList.take (calm + 1), decide (M.toList.length ≤ calm))) ∗ leak o.2) := by
  unfold HMap.dropP
  refine Triple.seq (intoIter_spec hl) fun it => ?_
  refine Triple.getFact fun hh => ?_
  rw [hh]
  refine Triple.pre ?_ consuming_length
  refine Triple.getFact fun hn => ?_
  exact dropP_spec hn

theorem intoIterP_spec {calm : Nat} {es : List End} {hm : HMap} {M : Map K V} (hl : M.length = M.toList.length) :
    Triple E (rep hm M) (hm.intoIterP es calm : HM K V _) (fun o => fact (o = ((Spec.pops es M.toList).1, (Spec.pops es M.toList).2.take (calm + 1),
      decide ((Spec.pops es M.toList).2.length ≤ calm))) ∗ leak o.2.2) := by
  unfold HMap.intoIterP
  refine Triple.seq (intoIter_spec hl) fun it => ?_
  refine Triple.getFact fun hh => ?_
  rw [hh]
  refine Triple.seq (asks_spec es) fun xs => ?_
  refine Triple.getFact fun hx => ?_
  refine Triple.pre ?_ consuming_length
  refine Triple.getFact fun hn => ?_
  refine Triple.seq (dropP_spec hn) fun o => ?_
  refine Triple.getFact fun ho => ?_
  subst ho
  exact Triple.ofPure (Ent.fact_right (by rw [hx]; rfl) (Ent.refl _))

/-- What a call leaves behind. -/
def CallPost [Ord K] [Ord Q] (bor : K → Q) (op : Op K V Q) (calm : Nat) (p : List (Map K V)) (al : Alloc) (r : Out K V × List (K × V) × Bool × List HMap) : HProp K V :=
  hex fun y : List (Map K V) × Alloc => fact (BTree.Op.run bor p al op = .ok (r.1, y.1, y.2) ∧ (r.2.1, r.2.2.1) = op.drops (p.map Map.toList) calm) ∗
    pool r.2.2.2 y.1 ∗ sched y.2 ∗ spill op.inserts r.1 ∗ leak r.2.2.1

theorem hcall_other [Ord K] [Ord Q] {bor : K → Q} {hs : List HMap} {p : List (Map K V)} (hp : ∀ m ∈ p, m.WF) (al : Alloc) {op : Op K V Q} (calm : Nat)
    (hE : ∀ msg, BTree.Op.run bor p al op = .panic msg → E msg) (hd : op.drops (p.map Map.toList) calm = ([], true)) :
    Triple E (pool hs p ∗ sched al) (Op.hrun bor hs op >>= fun x => pure (x.1, [], true, x.2)) (CallPost bor op calm p al) := by
  refine Triple.seq (hrun_ref bor hp al op hE) fun r => ?_
  unfold PoolPost
  refine Triple.ofHex fun y => ?_
  refine Triple.getFact fun hx => ?_
  refine Triple.ofPure ?_
  refine Ent.hex_right y (Ent.fact_right ⟨hx, hd.symm⟩ ?_)
  simp only [leak, sep_emp]
  exact Ent.refl _

theorem hcall_ref [Ord K] [Ord Q] (bor : K → Q) {hs : List HMap} {p : List (Map K V)} (hp : ∀ m ∈ p, m.WF) (al : Alloc) (op : Op K V Q) (calm : Nat)
    (hE : ∀ msg, BTree.Op.run bor p al op = .panic msg → E msg) :
    Triple E (pool hs p ∗ sched al) (Op.hcall bor hs op calm) (CallPost bor op calm p al) := by
  by_cases h1 : ∃ i, op = .clear i
  · obtain ⟨i, rfl⟩ := h1
    refine Triple.pre ?_ (Ent.frame pool_length _)
    rw [sep_assoc]
    refine Triple.getFact fun hl => ?_
    unfold Op.hcall
    dsimp only
    cases hi : p[i]? with
    | none =>
      rw [pool_none hl hi]
      refine Triple.ofPure ?_
      refine Ent.hex_right (p, al) (Ent.fact_right ⟨by simp [BTree.Op.run, BTree.onMap, hi], by simp [Op.drops, hi]⟩ ?_)
      dsimp only [leak]
      rw [spill_ne (by simp), sep_emp, sep_emp]
      exact Ent.refl _
    | some M =>
      obtain ⟨hm, F, e1, e2, e3⟩ := pool_split hl hi
      rw [e1, e2]
      have hM := hp M (List.mem_of_getElem? hi)
      unfold HMap.clearP
      refine Triple.assoc ?_
      refine Triple.pre (P := rep hm M ∗ (sched al ∗ F)) ?_ (by ent_ac)
      refine Triple.seq ((mapDropP_spec (hM.len.trans (Nat.add_zero _))).frame _) fun o => ?_
      rw [sep_assoc]
      refine Triple.getFact fun ho => ?_
      subst ho
      refine Triple.ofPure ?_
      refine Ent.hex_right (p.set i Map.new, al) (Ent.fact_right ⟨by simp [BTree.Op.run, BTree.onMap, hi, BTree.Map.clear], by simp [Op.drops, hi, Spec.dropsOf]⟩ ?_)
      dsimp only
      rw [e3, rep_new, emp_sep, spill_ne (by simp), emp_sep]
      ent_ac
  by_cases h2 : ∃ i es, op = .intoIter i es
  · obtain ⟨i, es, rfl⟩ := h2
    refine Triple.pre ?_ (Ent.frame pool_length _)
    rw [sep_assoc]
    refine Triple.getFact fun hl => ?_
    unfold Op.hcall
    dsimp only
    cases hi : p[i]? with
    | none =>
      rw [pool_none hl hi]
      refine Triple.ofPure ?_
      refine Ent.hex_right (p, al) (Ent.fact_right ⟨by simp [BTree.Op.run, BTree.onMap, hi], by simp [Op.drops, hi]⟩ ?_)
      dsimp only [leak]
      rw [spill_ne (by simp), sep_emp, sep_emp]
      exact Ent.refl _
    | some M =>
      obtain ⟨hm, F, e1, e2, e3⟩ := pool_split hl hi
      rw [e1, e2]
      have hM := hp M (List.mem_of_getElem? hi)
      obtain ⟨it, it', k1, k2⟩ := BTree.iterRun_wf hM es
      refine Triple.pre (P := rep hm M ∗ (sched al ∗ F)) ?_ (by ent_ac)
      refine Triple.seq ((intoIterP_spec (hM.len.trans (Nat.add_zero _))).frame _) fun o => ?_
      rw [sep_assoc]
      refine Triple.getFact fun ho => ?_
      subst ho
      refine Triple.ofPure ?_
      refine Ent.hex_right (p.set i Map.new, al) (Ent.fact_right ⟨by simp [BTree.Op.run, BTree.onMap, hi, k1, k2], by simp [Op.drops, hi, Spec.dropsOf]⟩ ?_)
      dsimp only
      rw [e3, rep_new, emp_sep, spill_ne (by simp), emp_sep]
      ent_ac
  cases op with
  | clear i => exact absurd ⟨i, rfl⟩ h1
  | intoIter i es => exact absurd ⟨i, es, rfl⟩ h2
  | _ => exact hcall_other hp al calm hE rfl

/-- What a program leaves behind. -/
def CallsPost [Ord K] [Ord Q] (bor : K → Q) (ops : List (Op K V Q × Nat)) (p : List (Map K V)) (al : Alloc)
    (r : List (Out K V × List (K × V) × Bool) × Bool × List HMap) : HProp K V :=
  hex fun y : List (Map K V) × Alloc =>
    fact (BTree.Op.runs bor ((ops.map (·.1)).take r.1.length) p al = .ok (r.1.map (·.1), y.1, y.2) ∧
      r.1.map (·.2) = (BTree.Op.runDrops bor ops p al).take r.1.length ∧
      (r.2.1 = true → r.1.length = ops.length ∧ (∀ m ∈ y.1, m.WF)) ∧
      (r.2.1 = false → ∃ op, (op, .failed) ∈ (ops.map (·.1)).zip (r.1.map (·.1)) ∧ op.inserts = true)) ∗
    pool r.2.2 y.1 ∗ sched y.2 ∗ leak (r.2.1 && r.1.all (·.2.2))

theorem leak_and {a b : Bool} : Ent (leak a ∗ leak b : HProp K V) (leak (a && b)) := by
  cases a <;> cases b
  · exact fun _ _ => trivial
  · exact fun _ _ => trivial
  · exact fun _ _ => trivial
  · simp only [leak, sep_emp, Bool.and_self]
    exact Ent.refl _

theorem hcalls_ref [Ord K] [Ord Q] (bor : K → Q) : ∀ (ops : List (Op K V Q × Nat)) {hs : List HMap} {p : List (Map K V)} (_ : ∀ m ∈ p, m.WF) (al : Alloc)
    (_ : ∀ msg, BTree.Op.runs bor (ops.map (·.1)) p al = .panic msg → E msg),
    Triple E (pool hs p ∗ sched al) (Op.hcalls bor ops hs) (CallsPost bor ops p al)
  | [], hs, p, hp, al, hE => by
    refine Triple.ofPure ?_
    refine Ent.hex_right (p, al) (Ent.fact_right ⟨rfl, rfl, fun _ => ⟨rfl, hp⟩, by simp⟩ ?_)
    show Ent _ (pool hs p ∗ sched al ∗ emp)
    rw [sep_emp]
    exact Ent.refl _
  | (op, calm) :: ops, hs, p, hp, al, hE => by
    unfold Op.hcalls
    refine Triple.seq (hcall_ref bor hp al op calm fun msg h => hE msg (by simp [BTree.Op.runs, h])) fun r => ?_
    obtain ⟨o, l, b, hs'⟩ := r
    unfold CallPost
    refine Triple.ofHex fun y => ?_
    obtain ⟨p', al'⟩ := y
    dsimp only
    refine Triple.getFact fun hx => ?_
    obtain ⟨hx, hd⟩ := hx
    by_cases hsp : Op.spoils op o = true
    · rw [if_pos hsp]
      refine Triple.ofPure ?_
      refine Ent.hex_right (p', al') ?_
      refine Ent.fact_right ⟨by simp [BTree.Op.runs, hx], by simp [BTree.Op.runDrops, hd], by simp,
        fun _ => ⟨op, by simp [(spoils_iff.1 hsp).2], (spoils_iff.1 hsp).1⟩⟩ ?_
      exact Ent.sep (Ent.refl _) (Ent.sep (Ent.refl _) fun _ _ => trivial)
    · rw [if_neg hsp]
      have hsp' : Op.spoils op o = false := by simpa using hsp
      rw [spill_keep hsp', emp_sep]
      have hp' : ∀ m ∈ p', m.WF := by
        rcases BTree.Op.run_wf bor hp al op with ⟨msg, h⟩ | ⟨o2, p2, a2, h, h2⟩
        · rw [hx] at h; cases h
        · rw [hx] at h
          simp only [Exec.ok.injEq, Prod.mk.injEq] at h
          obtain ⟨rfl, rfl, rfl⟩ := h
          rcases h2 with h2 | h2
          · exact absurd (spoils_iff.2 h2) hsp
          · exact h2
      rw [← sep_assoc]
      refine Triple.seq ((hcalls_ref bor ops hp' al' fun msg h => hE msg (by simp [BTree.Op.runs, hx, h])).frame _) fun rs => ?_
      unfold CallsPost
      rw [hex_sep]
      refine Triple.ofHex fun y => ?_
      obtain ⟨p2, al2⟩ := y
      dsimp only
      rw [sep_assoc]
      refine Triple.getFact fun hy => ?_
      refine Triple.ofPure ?_
      refine Ent.hex_right (p2, al2) ?_
      obtain ⟨h1, h0, h2, h3⟩ := hy
      refine Ent.fact_right ⟨by simp [BTree.Op.runs, hx, h1], by simp [BTree.Op.runDrops, hd, hx, h0], fun hb => ⟨by simp [(h2 hb).1], (h2 hb).2⟩,
        fun hb => let ⟨o', h4, h5⟩ := h3 hb; ⟨o', by simp [h4], h5⟩⟩ ?_
      dsimp only [List.all_cons]
      have : (rs.2.1 && (b && rs.1.all (·.2.2))) = ((rs.2.1 && rs.1.all (·.2.2)) && b) := by
        cases rs.2.1 <;> cases b <;> cases rs.1.all (·.2.2) <;> rfl
      rw [this]
      simp only [sep_assoc]
      exact Ent.sep (Ent.refl _) (Ent.sep (Ent.refl _) leak_and)

end Verif.Heap
