import Verif.Heap.Layout
import Verif.Heap.Proofs.Pool
/-
Whole programs in memory, from an empty memory to the end of all maps.
-/
namespace Verif.Heap
open Verif
open Verif.BTree (Map)
open Verif.Spec (Bound End MutAct Op Out)

variable {K V Q α β : Type} {E : String → Prop} {pl : Nat → Addr}

theorem spoils_iff {op : Op K V Q} {o : Out K V} : Op.spoils op o = true ↔ op.inserts = true ∧ o = .failed := by
  cases op <;> cases o <;> simp [Op.spoils, Op.inserts]

theorem spill_keep {op : Op K V Q} {o : Out K V} (h : Op.spoils op o = false) : spill op.inserts o = (emp : HProp K V) := by
  cases hb : op.inserts with
  | false => exact spill_false
  | true => exact spill_ne fun ho => by rw [spoils_iff.2 ⟨hb, ho⟩] at h; cases h

/-- Memory that was leaked by a failed insertion, if there was one. -/
def leak : Bool → HProp K V
  | true => emp
  | false => anything

theorem spill_leak {b : Bool} {o : Out K V} : Ent (spill b o) (leak false) := fun _ _ => trivial

/-- What a program leaves behind. -/
def ProgPost [Ord K] [Ord Q] (bor : K → Q) (ops : List (Op K V Q)) (p : List (Map K V)) (al : Alloc) (r : List (Out K V) × Bool × List HMap) : HProp K V :=
  hex fun y : List (Map K V) × Alloc =>
    fact (BTree.Op.runs bor (ops.take r.1.length) p al = .ok (r.1, y.1, y.2) ∧
      (r.2.1 = true → r.1.length = ops.length ∧ (∀ m ∈ y.1, m.WF)) ∧
      (r.2.1 = false → ∃ op, (op, .failed) ∈ ops.zip r.1 ∧ op.inserts = true)) ∗ pool r.2.2 y.1 ∗ sched y.2 ∗ leak r.2.1

theorem hprog_ref [Ord K] [Ord Q] (bor : K → Q) : ∀ (ops : List (Op K V Q)) {hs : List HMap} {p : List (Map K V)} (_ : ∀ m ∈ p, m.WF) (al : Alloc)
    (_ : ∀ msg, BTree.Op.runs bor ops p al = .panic msg → E msg),
    Triple E (pool hs p ∗ sched al) (Op.hprog bor ops hs) (ProgPost bor ops p al)
  | [], hs, p, hp, al, hE => by
    refine Triple.ofPure ?_
    unfold ProgPost
    refine Ent.hex_right (p, al) ?_
    refine Ent.fact_right ⟨rfl, fun _ => ⟨rfl, hp⟩, by simp⟩ ?_
    show Ent _ (pool hs p ∗ sched al ∗ emp)
    rw [sep_emp]
    exact Ent.refl _
  | op :: ops, hs, p, hp, al, hE => by
    unfold Op.hprog
    refine Triple.seq (hrun_ref bor hp al op fun msg h => hE msg (by simp [BTree.Op.runs, h])) fun r => ?_
    obtain ⟨o, hs'⟩ := r
    unfold PoolPost
    refine Triple.ofHex fun y => ?_
    obtain ⟨p', al'⟩ := y
    dsimp only
    refine Triple.getFact fun hx => ?_
    by_cases hsp : Op.spoils op o = true
    · rw [if_pos hsp]
      refine Triple.ofPure ?_
      unfold ProgPost
      refine Ent.hex_right (p', al') ?_
      refine Ent.fact_right ⟨by simp [BTree.Op.runs, hx], by simp, fun _ => ⟨op, by simp [(spoils_iff.1 hsp).2], (spoils_iff.1 hsp).1⟩⟩ ?_
      exact Ent.sep (Ent.refl _) (Ent.sep (Ent.refl _) spill_leak)
    · rw [if_neg hsp]
      have hsp' : Op.spoils op o = false := by simpa using hsp
      rw [spill_keep hsp', sep_emp]
      have hp' : ∀ m ∈ p', m.WF := by
        rcases BTree.Op.run_wf bor hp al op with ⟨msg, h⟩ | ⟨o2, p2, a2, h, h2⟩
        · rw [hx] at h; cases h
        · rw [hx] at h
          simp only [Exec.ok.injEq, Prod.mk.injEq] at h
          obtain ⟨rfl, rfl, rfl⟩ := h
          rcases h2 with h2 | h2
          · exact absurd (spoils_iff.2 h2) hsp
          · exact h2
      refine Triple.seq (hprog_ref bor ops hp' al' fun msg h => hE msg (by simp [BTree.Op.runs, hx, h])) fun rs => ?_
      unfold ProgPost
      refine Triple.ofHex fun y => ?_
      obtain ⟨p2, al2⟩ := y
      dsimp only
      refine Triple.getFact fun hy => ?_
      refine Triple.ofPure ?_
      refine Ent.hex_right (p2, al2) ?_
      obtain ⟨h1, h2, h3⟩ := hy
      refine Ent.fact_right ⟨by simp [BTree.Op.runs, hx, h1], fun hb => ⟨by simp [(h2 hb).1], (h2 hb).2⟩, fun hb => let ⟨o', h4, h5⟩ := h3 hb; ⟨o', by simp [h4], h5⟩⟩ ?_
      exact Ent.refl _

/-- Dropping all the maps. -/
theorem dropAll_len : ∀ {hs : List HMap} {p : List (Map K V)}, (∀ m ∈ p, m.length = m.toList.length) →
    Triple E (pool hs p) (dropAll hs) (fun r => fact (r = p.map Map.toList))
  | [], [], _ => Triple.ofPure (fun w hw => ⟨rfl, hw⟩)
  | [], _ :: _, _ => Triple.ofFalse
  | _ :: _, [], _ => Triple.ofFalse
  | h :: hs, m :: p, hp => by
    rw [pool_cons]
    unfold dropAll
    refine Triple.seq ((mapDrop_spec (hp m (by simp))).frame _) fun l => ?_
    refine Triple.getFact fun hl => ?_
    refine Triple.seq (dropAll_len fun m hm => hp m (by simp [hm])) fun ls => ?_
    refine Triple.ofPure fun w hw => ⟨?_, hw.2⟩
    rw [hl, hw.1]; rfl

theorem dropAll_spec {hs : List HMap} {p : List (Map K V)} (hp : ∀ m ∈ p, m.WF) :
    Triple E (pool hs p) (dropAll hs) (fun r => fact (r = p.map Map.toList)) :=
  dropAll_len fun m hm => (hp m hm).len.trans (Nat.add_zero _)

/-- Consuming one map. -/
theorem consume_spec {es : List End} {hm : HMap} {M : Map K V} (hM : M.WF) :
    Triple E (rep hm M) (hm.consume es) (fun r => fact (r = Spec.pops es M.toList)) := by
  unfold HMap.consume
  refine Triple.seq (intoIter_spec (hM.len.trans (Nat.add_zero _))) fun it => ?_
  refine Triple.getFact fun hh => ?_
  rw [hh]
  refine Triple.seq (asks_spec es) fun xs => ?_
  refine Triple.getFact fun hx => ?_
  refine Triple.pre ?_ consuming_length
  refine Triple.getFact fun hn => ?_
  refine Triple.seq (drop_spec hn) fun l => ?_
  refine Triple.ofPure fun w hw => ⟨?_, hw.2⟩
  rw [hx, hw.1]; rfl

theorem consumeAll_spec : ∀ {hs : List HMap} {p : List (Map K V)} (ess : List (List End)), (∀ m ∈ p, m.WF) →
    Triple E (pool hs p) (consumeAll hs ess) (fun r => fact (r = popsAll (p.map Map.toList) ess))
  | [], [], _, _ => Triple.ofPure (fun w hw => ⟨rfl, hw⟩)
  | [], _ :: _, _, _ => Triple.ofFalse
  | _ :: _, [], _, _ => Triple.ofFalse
  | h :: hs, m :: p, ess, hp => by
    rw [pool_cons]
    unfold consumeAll
    refine Triple.seq ((consume_spec (hp m (by simp))).frame _) fun l => ?_
    refine Triple.getFact fun hl => ?_
    refine Triple.seq (consumeAll_spec ess.tail fun m hm => hp m (by simp [hm])) fun ls => ?_
    refine Triple.ofPure fun w hw => ⟨?_, hw.2⟩
    rw [hl, hw.1]; rfl

theorem start_good (al : Alloc) : (Heap.start al pl : Heap K V).Good := ⟨fun _ _ => rfl, rfl, by simp [Heap.start]⟩

theorem start_world (al : Alloc) : ((pool [] ([] : List (Map K V)) ∗ sched al) ∗ emp) (Heap.start al pl : Heap K V).world := by
  rw [pool_nil, emp_sep, sep_emp]; rfl

end Verif.Heap
