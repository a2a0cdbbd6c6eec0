import Verif.Heap.Api
import Verif.Heap.Proofs.AppendMap
import Verif.Heap.Proofs.CloneMap
import Verif.Heap.Proofs.RangeMap
import Verif.Heap.Proofs.IterRun
/-
Each call on one map in memory answers what the level-1 model answers, and leaves the map in memory that the level-1 model
says.
-/
namespace Verif.Heap
open Verif
open Verif.BTree (B MIN_LEN CAPACITY Tree Handle Map emptyLeaf Entry Range Iter)
open Verif.Spec (Bound End MutAct Op Out)

variable {K V Q α β : Type} {E : String → Prop}

/-- What a failed insertion may have lost (see C15). -/
def spill : Bool → Out K V → HProp K V
  | true, .failed => litter
  | _, _ => emp

theorem spill_false {o : Out K V} : spill false o = emp := by cases o <;> rfl

theorem spill_ne {b : Bool} {o : Out K V} (h : o ≠ .failed) : spill b o = emp := by
  cases b <;> cases o <;> first | rfl | exact absurd rfl h

/-- The answer `o`, and the map `M'` in memory. -/
def Done (b : Bool) (o : Out K V) (M' : Map K V) (al' : Alloc) (r : Out K V × HMap) : HProp K V :=
  fact (r.1 = o) ∗ rep r.2 M' ∗ sched al' ∗ spill b o

theorem Ent.ofRep {hm : HMap} {M : Map K V} {ta : ATree K V} : Ent (own hm M ta) (rep hm M) := Ent.hex_right ta (Ent.refl _)

theorem done_ok {b : Bool} {o : Out K V} {M : Map K V} {al : Alloc} {hm : HMap} {P : HProp K V} (h : Ent P (rep hm M ∗ sched al)) (ho : b = false ∨ o ≠ .failed) :
    Ent P (Done b o M al (o, hm)) := by
  unfold Done
  refine Ent.fact_right rfl ?_
  rcases ho with rfl | ho
  · rw [spill_false, sep_emp]; exact h
  · rw [spill_ne ho, sep_emp]; exact h

/-! ### entries -/

theorem vacPost_ok {M' : Map K V} {hd : Handle} {o : Option HRef × HMap} : VacPost M' (.ok hd) o =
    hex fun x : ATree K V × HRef => fact (o.1 = some x.2 ∧ HandleAt M'.height x.1 hd x.2) ∗ own o.2 M' x.1 := rfl

theorem vacPost_error {M' : Map K V} {e : TryReserveError} {o : Option HRef × HMap} : VacPost M' (.error e) o =
    (fact (o.1 = none) ∗ rep o.2 M' ∗ litter) := rfl

theorem entryPost_ok {M' : Map K V} {e : Entry K} {o : Option (HEntry K) × HMap} : EntryPost M' (.ok e) o =
    hex fun x : ATree K V × HEntry K => fact (o.1 = some x.2 ∧ M'.shared = false ∧ EntryAt M'.height x.1 e x.2) ∗ own o.2 M' x.1 := rfl

theorem entryPost_error {M' : Map K V} {e : TryReserveError} {o : Option (HEntry K) × HMap} : EntryPost M' (.error e) o =
    (fact (o.1 = none) ∗ rep o.2 M') := rfl

/-- `try_entry`, then the rest of the program on the entry. -/
theorem Triple.bindEntry [Ord K] {hm : HMap} {M M' : Map K V} {k : K} {al al' : Alloc} {res : Res (Entry K)} {f : Option (HEntry K) × HMap → HM K V β}
    {Qb : β → HProp K V} (hx : M.tryEntry k al = .ok (res, M', al'))
    (herr : ∀ e hm', res = .error e → Triple E (rep hm' M' ∗ sched al') (f (none, hm')) Qb)
    (hok : ∀ e e' hm' ta, res = .ok e → M'.shared = false → EntryAt M'.height ta e e' →
      Triple E (own hm' M' ta ∗ sched al') (f (some e', hm')) Qb) :
    Triple E (rep hm M ∗ sched al) (hm.tryEntry k >>= f) Qb := by
  unfold rep
  rw [hex_sep]
  refine Triple.ofHex fun ta => ?_
  refine Triple.seq (tryEntry_spec hx) fun o => ?_
  obtain ⟨o, hm'⟩ := o
  cases res with
  | error e =>
    rw [entryPost_error]
    refine Triple.getFact fun ho => ?_
    dsimp only at ho
    subst ho
    refine Triple.pre (herr e hm' rfl) ?_
    ent_ac
  | ok e =>
    rw [entryPost_ok, sep_hex]
    refine Triple.ofHex fun x => ?_
    obtain ⟨ta1, e'⟩ := x
    refine Triple.getFact fun ho => ?_
    obtain ⟨ho, h1, h2⟩ := ho
    dsimp only at ho h1 h2
    subst ho
    refine Triple.pre (hok e e' hm' ta1 rfl h1 h2) ?_
    ent_ac

theorem orTryInsert_spec {hm : HMap} {M M' : Map K V} {ta : ATree K V} {e : Entry K} {e' : HEntry K} {v : V} {al al' : Alloc} {res : Res Handle}
    (hs : M.shared = false) (hat : EntryAt M.height ta e e') (hx : M.orTryInsert e v al = .ok (res, M', al')) :
    Triple E (own hm M ta ∗ sched al) (hm.orTryInsert e' v) (fun o => sched al' ∗ VacPost M' res o) := by
  cases e with
  | occupied hd =>
    cases e' with
    | vacant _ _ => exact hat.elim
    | occupied hr =>
      simp only [BTree.Map.orTryInsert, Exec.ok.injEq, Prod.mk.injEq] at hx
      obtain ⟨rfl, rfl, rfl⟩ := hx
      refine Triple.ofPure ?_
      rw [vacPost_ok, sep_hex]
      refine Ent.hex_right (ta, hr) ?_
      refine Ent.putFact ⟨rfl, hat⟩ ?_
      ent_ac
  | vacant k hd =>
    cases e' with
    | occupied _ => exact hat.elim
    | vacant k' hr =>
      obtain ⟨rfl, hat⟩ := hat
      exact vacantInsert_spec hs hat hx

/-- `*r = f(*r)`. -/
theorem occUpdate_own {hm : HMap} {M M' : Map K V} {ta : ATree K V} {hd : Handle} {hr : HRef} {f : V → V}
    (hat : HandleAt M.height ta hd hr) (hx : M.occUpdate hd f = .ok M') :
    Triple E (own hm M ta) (updVal hr f) (fun _ => rep hm M') := by
  simp only [BTree.Map.occUpdate] at hx
  obtain ⟨kv, hk, hx⟩ := Exec.bind_eq_ok.1 hx
  obtain ⟨⟨M2, old⟩, hs, hx⟩ := Exec.bind_eq_ok.1 hx
  simp only [Exec.ok.injEq] at hx
  subst hx
  refine (updVal_own hat hk hs).post fun _ => ?_
  intro w hw
  obtain ⟨ta', hw⟩ := hw
  exact ⟨ta', (fact_sep.1 hw).2⟩

theorem entryOrInsert_ref [Ord K] {hm : HMap} {M M' : Map K V} {k : K} {v : V} {f : V → V} {al al' : Alloc} {o : Out K V}
    (hx : M.entryOrInsert k v f al = .ok (o, M', al')) :
    Triple E (rep hm M ∗ sched al) (hm.entryOrInsert k v f) (Done true o M' al') := by
  simp only [BTree.Map.entryOrInsert] at hx
  obtain ⟨⟨res, M1, al1⟩, he, hx⟩ := Exec.bind_eq_ok.1 hx
  unfold HMap.entryOrInsert
  refine Triple.bindEntry he (fun e hm1 hr => ?_) fun e e' hm1 ta hr hs hat => ?_
  · subst hr
    simp only [Exec.ok.injEq, Prod.mk.injEq] at hx
    obtain ⟨rfl, rfl, rfl⟩ := hx
    refine Triple.ofPure ?_
    unfold Done
    refine Ent.fact_right rfl ?_
    refine Ent.trans (Q := rep hm1 M1 ∗ sched al1 ∗ emp) (by ent_ac) ?_
    exact Ent.sep (Ent.refl _) (Ent.sep (Ent.refl _) emp_litter)
  · subst hr
    dsimp only at hx ⊢
    obtain ⟨⟨r2, M2, al2⟩, hi, hx⟩ := Exec.bind_eq_ok.1 hx
    refine Triple.seq (orTryInsert_spec hs hat hi) fun o2 => ?_
    obtain ⟨o2, hm2⟩ := o2
    cases r2 with
    | error e2 =>
      simp only [Exec.ok.injEq, Prod.mk.injEq] at hx
      obtain ⟨rfl, rfl, rfl⟩ := hx
      rw [vacPost_error]
      refine Triple.getFact fun ho => ?_
      dsimp only at ho
      subst ho
      refine Triple.ofPure ?_
      unfold Done spill
      refine Ent.fact_right rfl ?_
      ent_ac
    | ok hd =>
      dsimp only at hx
      obtain ⟨old, hg, hx⟩ := Exec.bind_eq_ok.1 hx
      obtain ⟨M3, hu, hx⟩ := Exec.bind_eq_ok.1 hx
      simp only [Exec.ok.injEq, Prod.mk.injEq] at hx
      obtain ⟨rfl, rfl, rfl⟩ := hx
      simp only [BTree.Map.occGet] at hg
      obtain ⟨kv, hk, hg⟩ := Exec.bind_eq_ok.1 hg
      simp only [Exec.ok.injEq] at hg
      subst hg
      rw [vacPost_ok, sep_hex]
      refine Triple.ofHex fun x => ?_
      obtain ⟨ta2, hr2⟩ := x
      refine Triple.getFact fun ho => ?_
      obtain ⟨ho, hat2⟩ := ho
      dsimp only at ho hat2 ⊢
      subst ho
      refine Triple.callEq (P₀ := own hm2 M2 ta2) (kvOf_own hk hat2) ?_
      refine Triple.call (P₀ := own hm2 M2 ta2) (occUpdate_own hat2 hu) fun _ => ?_
      refine Triple.ofPure (done_ok ?_ (.inr (by simp)))
      ent_ac

theorem entryOrInsertWith_ref [Ord K] {hm : HMap} {M M' : Map K V} {k : K} {v : V} {f : V → V} {al al' : Alloc} {o : Out K V}
    (hx : M.entryOrInsertWith k v f al = .ok (o, M', al')) :
    Triple E (rep hm M ∗ sched al) (hm.entryOrInsertWith k v f) (Done true o M' al') := by
  simp only [BTree.Map.entryOrInsertWith] at hx
  obtain ⟨⟨res, M1, al1⟩, he, hx⟩ := Exec.bind_eq_ok.1 hx
  unfold HMap.entryOrInsertWith
  refine Triple.bindEntry he (fun e hm1 hr => ?_) fun e e' hm1 ta hr hs hat => ?_
  · subst hr
    simp only [Exec.ok.injEq, Prod.mk.injEq] at hx
    obtain ⟨rfl, rfl, rfl⟩ := hx
    refine Triple.ofPure ?_
    unfold Done
    refine Ent.fact_right rfl ?_
    refine Ent.trans (Q := rep hm1 M1 ∗ sched al1 ∗ emp) (by ent_ac) ?_
    exact Ent.sep (Ent.refl _) (Ent.sep (Ent.refl _) emp_litter)
  · subst hr
    dsimp only at hx ⊢
    obtain ⟨⟨r2, M2, al2, ran⟩, hi, hx⟩ := Exec.bind_eq_ok.1 hx
    have hi2 : M1.orTryInsert e v al1 = .ok (r2, M2, al2) ∧ ran = e'.isVacant := by
      cases e with
      | occupied hd =>
        cases e' with
        | vacant _ _ => exact hat.elim
        | occupied hr =>
          simp only [BTree.Map.orTryInsertWith, Exec.ok.injEq, Prod.mk.injEq] at hi
          obtain ⟨rfl, rfl, rfl, rfl⟩ := hi
          exact ⟨rfl, rfl⟩
      | vacant k hd =>
        cases e' with
        | occupied _ => exact hat.elim
        | vacant _ _ =>
          simp only [BTree.Map.orTryInsertWith] at hi
          obtain ⟨⟨a1, a2, a3⟩, hv, hi⟩ := Exec.bind_eq_ok.1 hi
          simp only [Exec.ok.injEq, Prod.mk.injEq] at hi
          obtain ⟨rfl, rfl, rfl, rfl⟩ := hi
          exact ⟨hv, rfl⟩
    obtain ⟨hi2, rfl⟩ := hi2
    refine Triple.seq (orTryInsert_spec hs hat hi2) fun o2 => ?_
    obtain ⟨o2, hm2⟩ := o2
    cases r2 with
    | error e2 =>
      simp only [Exec.ok.injEq, Prod.mk.injEq] at hx
      obtain ⟨rfl, rfl, rfl⟩ := hx
      rw [vacPost_error]
      refine Triple.getFact fun ho => ?_
      dsimp only at ho
      subst ho
      refine Triple.ofPure ?_
      unfold Done spill
      refine Ent.fact_right rfl ?_
      ent_ac
    | ok hd =>
      dsimp only at hx
      obtain ⟨M3, hu, hx⟩ := Exec.bind_eq_ok.1 hx
      simp only [Exec.ok.injEq, Prod.mk.injEq] at hx
      obtain ⟨rfl, rfl, rfl⟩ := hx
      rw [vacPost_ok, sep_hex]
      refine Triple.ofHex fun x => ?_
      obtain ⟨ta2, hr2⟩ := x
      refine Triple.getFact fun ho => ?_
      obtain ⟨ho, hat2⟩ := ho
      dsimp only at ho hat2 ⊢
      subst ho
      refine Triple.call (P₀ := own hm2 M2 ta2) (occUpdate_own hat2 hu) fun _ => ?_
      refine Triple.ofPure (done_ok ?_ (.inr (by simp)))
      ent_ac

theorem entryRemove_ref [Ord K] {hm : HMap} {M M' : Map K V} {k : K} {al al' : Alloc} {o : Out K V}
    (hx : M.entryRemove k al = .ok (o, M', al')) :
    Triple E (rep hm M ∗ sched al) (hm.entryRemove k) (Done false o M' al') := by
  simp only [BTree.Map.entryRemove] at hx
  obtain ⟨⟨res, M1, al1⟩, he, hx⟩ := Exec.bind_eq_ok.1 hx
  unfold HMap.entryRemove
  refine Triple.bindEntry he (fun e hm1 hr => ?_) fun e e' hm1 ta hr hs hat => ?_
  · subst hr
    simp only [Exec.ok.injEq, Prod.mk.injEq] at hx
    obtain ⟨rfl, rfl, rfl⟩ := hx
    exact Triple.ofPure (done_ok (Ent.refl _) (.inl rfl))
  · subst hr
    cases e with
    | occupied hd =>
      cases e' with
      | vacant _ _ => exact hat.elim
      | occupied hr =>
        dsimp only at hx ⊢
        obtain ⟨⟨kv, M2⟩, hr2, hx⟩ := Exec.bind_eq_ok.1 hx
        simp only [Exec.ok.injEq, Prod.mk.injEq] at hx
        obtain ⟨rfl, rfl, rfl⟩ := hx
        refine Triple.call (P₀ := own hm1 M1 ta) (removeKv_spec hs hat hr2) fun r => ?_
        rw [sep_assoc]
        refine Triple.getFact fun hf => ?_
        subst hf
        refine Triple.ofPure (done_ok ?_ (.inl rfl))
        ent_ac
    | vacant k1 hd =>
      cases e' with
      | occupied _ => exact hat.elim
      | vacant _ _ =>
        simp only [Exec.ok.injEq, Prod.mk.injEq] at hx
        obtain ⟨rfl, rfl, rfl⟩ := hx
        exact Triple.ofPure (done_ok (Ent.frame Ent.ofRep _) (.inl rfl))

theorem entryModify_ref [Ord K] {hm : HMap} {M M' : Map K V} {k : K} {f : V → V} {al al' : Alloc} {o : Out K V}
    (hx : M.entryModify k f al = .ok (o, M', al')) :
    Triple E (rep hm M ∗ sched al) (hm.entryModify k f) (Done false o M' al') := by
  simp only [BTree.Map.entryModify] at hx
  obtain ⟨⟨res, M1, al1⟩, he, hx⟩ := Exec.bind_eq_ok.1 hx
  unfold HMap.entryModify
  refine Triple.bindEntry he (fun e hm1 hr => ?_) fun e e' hm1 ta hr hs hat => ?_
  · subst hr
    simp only [Exec.ok.injEq, Prod.mk.injEq] at hx
    obtain ⟨rfl, rfl, rfl⟩ := hx
    exact Triple.ofPure (done_ok (Ent.refl _) (.inl rfl))
  · subst hr
    dsimp only at hx ⊢
    obtain ⟨⟨M2, e2⟩, hm2, hx⟩ := Exec.bind_eq_ok.1 hx
    simp only [Exec.ok.injEq, Prod.mk.injEq] at hx
    obtain ⟨rfl, rfl, rfl⟩ := hx
    cases e with
    | occupied hd =>
      cases e' with
      | vacant _ _ => exact hat.elim
      | occupied hr =>
        simp only [BTree.Map.andModify] at hm2
        obtain ⟨kv, hk, hm2⟩ := Exec.bind_eq_ok.1 hm2
        obtain ⟨⟨M3, old⟩, hs2, hm2⟩ := Exec.bind_eq_ok.1 hm2
        simp only [Exec.ok.injEq, Prod.mk.injEq] at hm2
        obtain ⟨rfl, rfl⟩ := hm2
        show Triple E _ (updVal hr f >>= _) _
        refine Triple.call (P₀ := own hm1 M1 ta) (occUpdate_own (M' := M3) hat (by simp [BTree.Map.occUpdate, hk, hs2])) fun r => ?_
        refine Triple.ofPure (done_ok ?_ (.inl rfl))
        ent_ac
    | vacant k1 hd =>
      cases e' with
      | occupied _ => exact hat.elim
      | vacant _ _ =>
        simp only [BTree.Map.andModify, Exec.ok.injEq, Prod.mk.injEq] at hm2
        obtain ⟨rfl, rfl⟩ := hm2
        exact Triple.bindPure (a := ()) (Triple.ofPure (done_ok (Ent.frame Ent.ofRep _) (.inl rfl)))

theorem entryKeyOf_ref [Ord K] {hm : HMap} {M M' : Map K V} {k : K} {al al' : Alloc} {o : Out K V}
    (hx : M.entryKeyOf k al = .ok (o, M', al')) :
    Triple E (rep hm M ∗ sched al) (hm.entryKeyOf k) (Done false o M' al') := by
  simp only [BTree.Map.entryKeyOf] at hx
  obtain ⟨⟨res, M1, al1⟩, he, hx⟩ := Exec.bind_eq_ok.1 hx
  unfold HMap.entryKeyOf
  refine Triple.bindEntry he (fun e hm1 hr => ?_) fun e e' hm1 ta hr hs hat => ?_
  · subst hr
    simp only [Exec.ok.injEq, Prod.mk.injEq] at hx
    obtain ⟨rfl, rfl, rfl⟩ := hx
    exact Triple.ofPure (done_ok (Ent.refl _) (.inl rfl))
  · subst hr
    dsimp only at hx ⊢
    obtain ⟨k2, hk2, hx⟩ := Exec.bind_eq_ok.1 hx
    simp only [Exec.ok.injEq, Prod.mk.injEq] at hx
    obtain ⟨rfl, rfl, rfl⟩ := hx
    cases e with
    | occupied hd =>
      cases e' with
      | vacant _ _ => exact hat.elim
      | occupied hr =>
        simp only [BTree.Map.entryKey] at hk2
        obtain ⟨kv, hk, hk2⟩ := Exec.bind_eq_ok.1 hk2
        simp only [Exec.ok.injEq] at hk2
        subst hk2
        show Triple E _ ((kvOf hr >>= _) >>= _) _
        refine Triple.assoc ?_
        refine Triple.callEq (P₀ := own hm1 M1 ta) (kvOf_own hk hat) ?_
        refine Triple.bindPure (a := kv.1) ?_
        exact Triple.ofPure (done_ok (Ent.frame Ent.ofRep _) (.inl rfl))
    | vacant k1 hd =>
      cases e' with
      | occupied _ => exact hat.elim
      | vacant k3 _ =>
        simp only [BTree.Map.entryKey, Exec.ok.injEq] at hk2
        obtain ⟨rfl, hat⟩ := hat
        subst hk2
        refine Triple.bindPure (a := k3) ?_
        exact Triple.ofPure (done_ok (Ent.frame Ent.ofRep _) (.inl rfl))

theorem entryInsert_ref [Ord K] {hm : HMap} {M M' : Map K V} {k : K} {v : V} {al al' : Alloc} {o : Out K V}
    (hx : M.entryInsert k v al = .ok (o, M', al')) :
    Triple E (rep hm M ∗ sched al) (hm.entryInsert k v) (Done false o M' al') := by
  simp only [BTree.Map.entryInsert] at hx
  obtain ⟨⟨res, M1, al1⟩, he, hx⟩ := Exec.bind_eq_ok.1 hx
  unfold HMap.entryInsert
  refine Triple.bindEntry he (fun e hm1 hr => ?_) fun e e' hm1 ta hr hs hat => ?_
  · subst hr
    simp only [Exec.ok.injEq, Prod.mk.injEq] at hx
    obtain ⟨rfl, rfl, rfl⟩ := hx
    exact Triple.ofPure (done_ok (Ent.refl _) (.inl rfl))
  · subst hr
    cases e with
    | occupied hd =>
      cases e' with
      | vacant _ _ => exact hat.elim
      | occupied hr =>
        dsimp only at hx ⊢
        obtain ⟨⟨old, M2⟩, hr2, hx⟩ := Exec.bind_eq_ok.1 hx
        simp only [Exec.ok.injEq, Prod.mk.injEq] at hx
        obtain ⟨rfl, rfl, rfl⟩ := hx
        simp only [BTree.Map.occInsert] at hr2
        obtain ⟨⟨M3, old2⟩, hs2, hr2⟩ := Exec.bind_eq_ok.1 hr2
        simp only [Exec.ok.injEq, Prod.mk.injEq] at hr2
        obtain ⟨rfl, rfl⟩ := hr2
        refine Triple.call (P₀ := own hm1 M1 ta) (setVal_spec hs hat hs2) fun r => ?_
        rw [hex_sep]
        refine Triple.ofHex fun ta2 => ?_
        rw [sep_assoc]
        refine Triple.getFact fun hf => ?_
        obtain ⟨rfl, _⟩ := hf
        refine Triple.ofPure (done_ok ?_ (.inl rfl))
        refine Ent.trans (Q := own hm1 M3 ta2 ∗ sched al1) (by ent_ac) (Ent.frame Ent.ofRep _)
    | vacant k1 hd =>
      cases e' with
      | occupied _ => exact hat.elim
      | vacant _ _ =>
        simp only [Exec.ok.injEq, Prod.mk.injEq] at hx
        obtain ⟨rfl, rfl, rfl⟩ := hx
        exact Triple.ofPure (done_ok (Ent.frame Ent.ofRep _) (.inl rfl))

theorem HMap.replaceKey_eq [Ord K] (m : HMap) (k : K) (v : V) : m.replaceKey k v = (do
    let x ← m.tryEntry k
    match x.1 with
    | none => pure (none, x.2)
    | some (.occupied h) => do
      let old ← setKey h k
      pure (some (some old), x.2)
    | some (.vacant k h) => do
      let y ← x.2.vacantInsert h (k, v)
      match y.1 with
      | none => pure (none, y.2)
      | some _ => pure (some none, y.2) : HM K V (Option (Option K) × HMap)) := by
  funext s
  simp only [HMap.replaceKey, HMap.tryEntry, Bind.bind, HM.bind]
  cases h1 : (m.ensureRootIsOwned : HM K V _) s with
  | ub => rfl
  | panic => rfl
  | ok a =>
    obtain ⟨r, s1⟩ := a
    cases r with
    | none => rfl
    | some m1 =>
      dsimp only [HM.bind]
      cases h2 : (m1.search id k : HM K V _) s1 with
      | ub => rfl
      | panic => rfl
      | ok b =>
        obtain ⟨r, s2⟩ := b
        cases r <;> rfl

theorem replaceKey_eq [Ord K] (M : Map K V) (k : K) (v : V) (al : Alloc) : M.replaceKey k v al = (do
    let x ← M.tryEntry k al
    match x.1 with
    | .error e => .ok (.error e, x.2.1, x.2.2)
    | .ok (.occupied hd) => do
      let p ← x.2.1.setKey hd k
      .ok (.ok (some p.2), p.1, x.2.2)
    | .ok (.vacant k hd) => do
      let p ← x.2.1.vacantInsert hd k v x.2.2
      match p.1 with
      | .error e => .ok (.error e, p.2.1, p.2.2)
      | .ok _ => .ok (.ok none, p.2.1, p.2.2)) := by
  simp only [BTree.Map.replaceKey, BTree.Map.tryEntry]
  obtain ⟨r, m1, a1⟩ := M.ensureRootIsOwned al
  cases r with
  | error e => rfl
  | ok u =>
    dsimp only
    cases h : m1.search id k with
    | ub => rfl
    | panic => rfl
    | ok b => cases b <;> rfl

theorem replaceCall_ref [Ord K] {hm : HMap} {M M' : Map K V} {k : K} {v : V} {al al' : Alloc} {o : Out K V}
    (hx : M.replaceCall k v al = .ok (o, M', al')) :
    Triple E (rep hm M ∗ sched al) (hm.replaceCall k v) (Done true o M' al') := by
  simp only [BTree.Map.replaceCall, replaceKey_eq] at hx
  obtain ⟨⟨res2, M2, al2⟩, hx1, hx⟩ := Exec.bind_eq_ok.1 hx
  obtain ⟨⟨res, M1, al1⟩, he, hx1⟩ := Exec.bind_eq_ok.1 hx1
  dsimp only at hx1 hx
  unfold HMap.replaceCall
  rw [HMap.replaceKey_eq]
  refine Triple.assoc ?_
  refine Triple.bindEntry he (fun e hm1 hr => ?_) fun e e' hm1 ta hr hs hat => ?_
  · subst hr
    simp only [Exec.ok.injEq, Prod.mk.injEq] at hx1
    obtain ⟨rfl, rfl, rfl⟩ := hx1
    simp only [Exec.ok.injEq, Prod.mk.injEq] at hx
    obtain ⟨rfl, rfl, rfl⟩ := hx
    dsimp only
    refine Triple.bindPure ?_
    refine Triple.ofPure ?_
    unfold Done
    refine Ent.fact_right rfl ?_
    refine Ent.trans (Q := rep hm1 M1 ∗ sched al1 ∗ emp) (by ent_ac) ?_
    exact Ent.sep (Ent.refl _) (Ent.sep (Ent.refl _) emp_litter)
  · subst hr
    cases e with
    | occupied hd =>
      cases e' with
      | vacant _ _ => exact hat.elim
      | occupied hr =>
        dsimp only at hx1 ⊢
        obtain ⟨⟨M3, old⟩, hk, hx1⟩ := Exec.bind_eq_ok.1 hx1
        simp only [Exec.ok.injEq, Prod.mk.injEq] at hx1
        obtain ⟨rfl, rfl, rfl⟩ := hx1
        simp only [Exec.ok.injEq, Prod.mk.injEq] at hx
        obtain ⟨rfl, rfl, rfl⟩ := hx
        refine Triple.assoc ?_
        refine Triple.call (P₀ := own hm1 M1 ta) (setKey_spec hs hat hk) fun r => ?_
        rw [hex_sep]
        refine Triple.ofHex fun ta2 => ?_
        rw [sep_assoc]
        refine Triple.getFact fun hf => ?_
        obtain ⟨rfl, _⟩ := hf
        refine Triple.bindPure ?_
        refine Triple.ofPure (done_ok ?_ (.inr (by simp)))
        refine Ent.trans (Q := own hm1 M3 ta2 ∗ sched al1) (by ent_ac) (Ent.frame Ent.ofRep _)
    | vacant k1 hd =>
      cases e' with
      | occupied _ => exact hat.elim
      | vacant k2 hr =>
        obtain ⟨rfl, hat⟩ := hat
        dsimp only at hx1 ⊢
        obtain ⟨⟨r3, M3, al3⟩, hv, hx1⟩ := Exec.bind_eq_ok.1 hx1
        dsimp only at hx1
        refine Triple.assoc ?_
        refine Triple.seq (vacantInsert_spec hs hat hv) fun o2 => ?_
        obtain ⟨o2, hm2⟩ := o2
        cases r3 with
        | error e2 =>
          simp only [Exec.ok.injEq, Prod.mk.injEq] at hx1
          obtain ⟨rfl, rfl, rfl⟩ := hx1
          simp only [Exec.ok.injEq, Prod.mk.injEq] at hx
          obtain ⟨rfl, rfl, rfl⟩ := hx
          rw [vacPost_error]
          refine Triple.getFact fun ho => ?_
          dsimp only at ho
          subst ho
          refine Triple.bindPure ?_
          refine Triple.ofPure ?_
          unfold Done spill
          refine Ent.fact_right rfl ?_
          ent_ac
        | ok hd3 =>
          simp only [Exec.ok.injEq, Prod.mk.injEq] at hx1
          obtain ⟨rfl, rfl, rfl⟩ := hx1
          simp only [Exec.ok.injEq, Prod.mk.injEq] at hx
          obtain ⟨rfl, rfl, rfl⟩ := hx
          rw [vacPost_ok, sep_hex]
          refine Triple.ofHex fun x => ?_
          obtain ⟨ta2, hr2⟩ := x
          refine Triple.getFact fun ho => ?_
          obtain ⟨ho, hat2⟩ := ho
          dsimp only at ho hat2 ⊢
          subst ho
          dsimp only
          refine Triple.bindPure ?_
          refine Triple.ofPure (done_ok ?_ (.inr (by simp)))
          refine Ent.trans (Q := own hm2 M3 ta2 ∗ sched al3) (by ent_ac) (Ent.frame Ent.ofRep _)

/-! ### the other calls -/

theorem insertPost_ok {M' : Map K V} {v : Option V} {o : Option (Option V) × HMap} : InsertPost M' (.ok v) o = (fact (o.1 = some v) ∗ rep o.2 M') := rfl

theorem insertPost_error {M' : Map K V} {e : TryReserveError} {o : Option (Option V) × HMap} :
    InsertPost M' (.error e) o = (fact (o.1 = none) ∗ rep o.2 M' ∗ litter) := rfl

theorem tryInsert_rep [Ord K] {hm : HMap} {M M' : Map K V} {k : K} {v : V} {al al' : Alloc} {res : Res (Option V)}
    (hx : M.tryInsert k v al = .ok (res, M', al')) :
    Triple E (rep hm M ∗ sched al) (hm.tryInsert k v) (fun o => sched al' ∗ InsertPost M' res o) := by
  unfold rep
  rw [hex_sep]
  exact Triple.ofHex fun ta => tryInsert_spec hx

theorem insertCall_ref [Ord K] {hm : HMap} {M M' : Map K V} {k : K} {v : V} {al al' : Alloc} {o : Out K V}
    (hx : (do
      let (r, m, a) ← M.tryInsert k v al
      match r with
      | .ok old => .ok (.value old, m, a)
      | .error _ => .ok (.failed, m, a)) = Exec.ok (o, M', al')) :
    Triple E (rep hm M ∗ sched al) (hm.insertCall k v) (Done true o M' al') := by
  obtain ⟨⟨res, M1, al1⟩, hi, hx⟩ := Exec.bind_eq_ok.1 hx
  unfold HMap.insertCall
  refine Triple.seq (tryInsert_rep hi) fun r => ?_
  obtain ⟨r, hm1⟩ := r
  cases res with
  | error e =>
    simp only [Exec.ok.injEq, Prod.mk.injEq] at hx
    obtain ⟨rfl, rfl, rfl⟩ := hx
    rw [insertPost_error]
    refine Triple.getFact fun ho => ?_
    dsimp only at ho
    subst ho
    refine Triple.ofPure ?_
    unfold Done spill
    refine Ent.fact_right rfl ?_
    ent_ac
  | ok old =>
    simp only [Exec.ok.injEq, Prod.mk.injEq] at hx
    obtain ⟨rfl, rfl, rfl⟩ := hx
    rw [insertPost_ok]
    refine Triple.getFact fun ho => ?_
    dsimp only at ho
    subst ho
    refine Triple.ofPure (done_ok ?_ (.inr (by simp)))
    ent_ac

theorem removeCall_ref [Ord Q] {bor : K → Q} {q : Q} {hm : HMap} {M M' : Map K V} {al : Alloc} {r : Option (K × V)} {b : Bool}
    (hx : M.removeEntry bor q = .ok (r, M')) :
    Triple E (rep hm M ∗ sched al) (do
      let (r, m) ← hm.removeEntry bor q
      pure (Out.value (r.map (·.2)), m)) (Done b (.value (r.map (·.2))) M' al) := by
  unfold rep
  rw [hex_sep]
  refine Triple.ofHex fun ta => ?_
  refine Triple.call (P₀ := own hm M ta) (removeEntry_spec hx) fun o => ?_
  rw [sep_assoc]
  refine Triple.getFact fun ho => ?_
  subst ho
  exact Triple.ofPure (done_ok (Ent.of_eq rfl) (.inr (by simp)))

theorem takeCall_ref [Ord Q] {bor : K → Q} {q : Q} {hm : HMap} {M M' : Map K V} {al : Alloc} {r : Option (K × V)} {b : Bool}
    (hx : M.removeEntry bor q = .ok (r, M')) :
    Triple E (rep hm M ∗ sched al) (do
      let (r, m) ← hm.removeEntry bor q
      pure (Out.oldKey (r.map (·.1)), m)) (Done b (.oldKey (r.map (·.1))) M' al) := by
  unfold rep
  rw [hex_sep]
  refine Triple.ofHex fun ta => ?_
  refine Triple.call (P₀ := own hm M ta) (removeEntry_spec hx) fun o => ?_
  rw [sep_assoc]
  refine Triple.getFact fun ho => ?_
  subst ho
  exact Triple.ofPure (done_ok (Ent.of_eq rfl) (.inr (by simp)))

/-- A call that only looks at the map. -/
theorem readCall_ref {hm : HMap} {M : Map K V} {al : Alloc} {m : HM K V α} {x : α} {g : α → Out K V} {b : Bool}
    (h : ∀ ta, Triple E (own hm M ta) m (fun o => fact (o = x) ∗ own hm M ta)) (hb : b = false ∨ g x ≠ .failed) :
    Triple E (rep hm M ∗ sched al) (do
      let r ← m
      pure (g r, hm)) (Done b (g x) M al) := by
  unfold rep
  rw [hex_sep]
  refine Triple.ofHex fun ta => ?_
  refine Triple.callEq (P₀ := own hm M ta) (h ta) ?_
  exact Triple.ofPure (done_ok (Ent.frame Ent.ofRep _) hb)

theorem updateVal_ref [Ord Q] {bor : K → Q} {q : Q} {f : V → V} {hm : HMap} {M M' : Map K V} {al : Alloc} {x b : Bool}
    (hx : M.updateVal bor q f = .ok (x, M')) :
    Triple E (rep hm M ∗ sched al) (do
      let r ← hm.updateVal bor q f
      pure (Out.flag r, hm)) (Done b (.flag x) M' al) := by
  simp only [BTree.Map.updateVal, BTree.Map.getMut] at hx
  obtain ⟨hd, hs, hx⟩ := Exec.bind_eq_ok.1 hx
  obtain ⟨sr, hs, hs2⟩ := Exec.bind_eq_ok.1 hs
  unfold rep
  rw [hex_sep]
  refine Triple.ofHex fun ta => ?_
  unfold HMap.updateVal
  refine Triple.assoc ?_
  refine Triple.call (P₀ := own hm M ta) (search_spec hs) fun o => ?_
  rw [sep_assoc]
  refine Triple.getFact fun hf => ?_
  cases sr with
  | found hd2 =>
    simp only [Exec.ok.injEq] at hs2
    subst hs2
    dsimp only at hx
    obtain ⟨M2, hu, hx⟩ := Exec.bind_eq_ok.1 hx
    simp only [Exec.ok.injEq, Prod.mk.injEq] at hx
    obtain ⟨rfl, rfl⟩ := hx
    cases o with
    | goDown hr => exact hf.elim
    | found hr =>
      obtain ⟨hd0, e, hat⟩ := hf
      simp only [List.append_nil] at e
      subst e
      dsimp only
      refine Triple.assoc ?_
      refine Triple.call (P₀ := own hm M ta) (occUpdate_own hat hu) fun _ => ?_
      refine Triple.bindPure (a := true) ?_
      refine Triple.ofPure (done_ok ?_ (.inr (by simp)))
      ent_ac
  | goDown hd2 =>
    simp only [Exec.ok.injEq] at hs2
    subst hs2
    simp only [Exec.ok.injEq, Prod.mk.injEq] at hx
    obtain ⟨rfl, rfl⟩ := hx
    cases o with
    | found hr => exact hf.elim
    | goDown hr =>
      refine Triple.bindPure (a := false) ?_
      exact Triple.ofPure (done_ok (Ent.frame Ent.ofRep _) (.inr (by simp)))

theorem clear_ref {hm : HMap} {M : Map K V} {al : Alloc} {b : Bool} (hM : M.WF) :
    Triple E (rep hm M ∗ sched al) (do
      let m ← hm.clear
      pure (Out.done, m)) (Done b .done Map.new al) := by
  unfold HMap.clear
  refine Triple.assoc ?_
  refine Triple.call (P₀ := rep hm M) (mapDrop_spec (hM.len.trans (Nat.add_zero _))) fun o => ?_
  refine Triple.getFact fun _ => ?_
  refine Triple.bindPure (a := HMap.new) ?_
  refine Triple.ofPure (done_ok ?_ (.inr (by simp)))
  rw [rep_new]
  ent_ac

theorem extend_ref [Ord K] : ∀ {l : List (K × V)} {x : Nat} {hm : HMap} {M : Map K V} {al : Alloc}, M.Shaped x → (∀ msg, M.extend l al = .panic msg → E msg) →
    Triple E (rep hm M ∗ sched al) (hm.extend l) (fun o => hex fun y : Map K V × Alloc => fact (M.extend l al = .ok y) ∗ rep o y.1 ∗ sched y.2)
  | [], x, hm, M, al, _, _ => by
    refine Triple.ofPure ?_
    exact Ent.hex_right (M, al) (Ent.fact_right rfl (Ent.refl _))
  | (k, v) :: l, x, hm, M, al, hM, hE => by
    obtain ⟨res, M1, al1, h1, h2, _⟩ := BTree.Map.tryInsert_wf hM k v al
    show Triple E _ (hm.tryInsert k v >>= _) _
    refine Triple.seq (tryInsert_rep h1) fun r => ?_
    obtain ⟨r, hm1⟩ := r
    cases res with
    | error e =>
      rw [insertPost_error]
      refine Triple.getFact fun ho => ?_
      dsimp only at ho
      subst ho
      exact Triple.ofPanic (hE _ (by simp [BTree.Map.extend, h1]))
    | ok old =>
      rw [insertPost_ok]
      refine Triple.getFact fun ho => ?_
      dsimp only at ho
      subst ho
      dsimp only
      have e : M.extend ((k, v) :: l) al = M1.extend l al1 := by simp [BTree.Map.extend, h1]
      rw [e] at hE ⊢
      refine Triple.pre (extend_ref h2.1 hE) ?_
      ent_ac

/-- A panic of code that only reads. -/
theorem Triple.catchRead {P : HProp K V} {m : HM K V α} {Q : α → HProp K V} (h : Triple E P m Q) {E' : String → Prop} :
    Triple E' P (catchRead m) (fun o => match o with | some a => Q a | none => fact (∃ msg, E msg) ∗ P) := by
  intro R s hg hw
  have := h R s hg hw
  unfold Heap.catchRead
  cases hm : m s with
  | ub => rw [hm] at this; exact this.elim
  | panic msg =>
    rw [hm] at this
    refine ⟨hg, ?_⟩
    dsimp only
    rw [sep_assoc]
    exact fact_sep.2 ⟨⟨msg, this⟩, hw⟩
  | ok x =>
    rw [hm] at this
    exact this

theorem rangeRun_ref [Ord Q] {bor : K → Q} {lo hi : Bound Q} {es : List End} {hm : HMap} {M : Map K V} {ta : ATree K V} {o : Out K V}
    (hx : M.rangeRun bor lo hi es = .ok o) :
    Triple E (own hm M ta) (hm.rangeRun bor lo hi es) (fun r => fact (r = o) ∗ own hm M ta) := by
  have hu : M.range bor lo hi ≠ .ub := fun h => by simp [BTree.Map.rangeRun, h] at hx
  unfold HMap.rangeRun
  refine Triple.pre (P := fact (hm.root.height = M.height) ∗ own hm M ta) ?_ ?_
  rotate_left
  · exact Ent.trans own_length (Ent.frame (fun w hw => ⟨hw.1.2, hw.2⟩) _)
  refine Triple.getFact fun hh => ?_
  refine Triple.seq (Triple.catchRead (range_own rfl hu)) fun r => ?_
  cases r with
  | none =>
    dsimp only
    refine Triple.getFact fun hp => ?_
    obtain ⟨_, m, hp⟩ := hp
    simp only [BTree.Map.rangeRun, hp, Exec.ok.injEq] at hx
    subst hx
    exact Triple.ofPure (Ent.fact_right rfl (Ent.refl _))
  | some r =>
    dsimp only
    refine Triple.getFact fun hp => ?_
    obtain ⟨y, hy, hat⟩ := hp
    simp only [BTree.Map.rangeRun, hy] at hx
    obtain ⟨xs, hr, hx⟩ := Exec.bind_eq_ok.1 hx
    simp only [Exec.ok.injEq] at hx
    subst hx
    refine Triple.seq (range_run_own (by rw [hh]; exact Nat.le_refl _) hr hat) fun z => ?_
    refine Triple.getFact fun hz => ?_
    exact Triple.ofPure (Ent.fact_right (by rw [hz]) (Ent.refl _))

theorem rangeMutRun_ref [Ord Q] {bor : K → Q} {lo hi : Bound Q} {acts : List (MutAct V)} {hm : HMap} {M M' : Map K V} {ta : ATree K V} {o : Out K V}
    (hx : M.rangeMutRun bor lo hi acts = .ok (o, M')) :
    Triple E (own hm M ta) (hm.rangeMutRun bor lo hi acts) (fun r => fact (r = o) ∗ rep hm M') := by
  have hu : M.range bor lo hi ≠ .ub := fun h => by simp [BTree.Map.rangeMutRun, h] at hx
  unfold HMap.rangeMutRun
  refine Triple.pre (P := fact (hm.root.height = M.height) ∗ own hm M ta) ?_ ?_
  rotate_left
  · exact Ent.trans own_length (Ent.frame (fun w hw => ⟨hw.1.2, hw.2⟩) _)
  refine Triple.getFact fun hh => ?_
  refine Triple.seq (Triple.catchRead (range_own rfl hu)) fun r => ?_
  cases r with
  | none =>
    dsimp only
    refine Triple.getFact fun hp => ?_
    obtain ⟨_, m, hp⟩ := hp
    simp only [BTree.Map.rangeMutRun, hp, Exec.ok.injEq, Prod.mk.injEq] at hx
    obtain ⟨rfl, rfl⟩ := hx
    exact Triple.ofPure (Ent.fact_right rfl Ent.ofRep)
  | some r =>
    dsimp only
    refine Triple.getFact fun hp => ?_
    obtain ⟨y, hy, hat⟩ := hp
    simp only [BTree.Map.rangeMutRun, hy] at hx
    obtain ⟨⟨xs, M2, refs⟩, hr, hx⟩ := Exec.bind_eq_ok.1 hx
    simp only [Exec.ok.injEq, Prod.mk.injEq] at hx
    obtain ⟨rfl, rfl⟩ := hx
    refine Triple.seq (mutRun_own (bnd := hm.root.height) (hstep := HRange.stepH hm.root.height) (step := Range.stepH) range_stepH (fun h hat => ⟨h _ _ hat.1, h _ _ hat.2⟩) (by rw [hh]; exact Nat.le_refl _) hr hat RefsAt.nil) fun z => ?_
    refine Triple.getFact fun hz => ?_
    exact Triple.ofPure (Ent.fact_right (by rw [hz]) (Ent.refl _))

theorem iterRun_ref {es : List End} {hm : HMap} {M : Map K V} {ta : ATree K V} {it : Iter} {xs : List (Option (K × V)) × Iter}
    (h1 : M.iter = .ok it) (h2 : it.run M es = .ok xs) :
    Triple E (own hm M ta) (hm.iterRun es) (fun r => fact (r = .items xs.1) ∗ own hm M ta) := by
  unfold HMap.iterRun
  refine Triple.pre (P := fact (hm.root.height = M.height) ∗ own hm M ta) ?_ ?_
  rotate_left
  · exact Ent.trans own_length (Ent.frame (fun w hw => ⟨hw.1.2, hw.2⟩) _)
  refine Triple.getFact fun hh => ?_
  refine Triple.seq (iter_own h1) fun r => ?_
  refine Triple.getFact fun hat => ?_
  refine Triple.seq (iter_run_own (by rw [hh]; exact Nat.le_refl _) h2 hat) fun z => ?_
  refine Triple.getFact fun hz => ?_
  exact Triple.ofPure (Ent.fact_right (by rw [hz]) (Ent.refl _))

theorem iterMutRun_ref {acts : List (MutAct V)} {hm : HMap} {M M' : Map K V} {ta : ATree K V} {it : Iter} {xs : List (Option (K × V))} {refs : List Handle}
    (h1 : M.iter = .ok it) (h2 : BTree.mutRun Iter.stepH acts M it [] = .ok (xs, M', refs)) :
    Triple E (own hm M ta) (hm.iterMutRun acts) (fun r => fact (r = .items xs) ∗ rep hm M') := by
  unfold HMap.iterMutRun
  refine Triple.pre (P := fact (hm.root.height = M.height) ∗ own hm M ta) ?_ ?_
  rotate_left
  · exact Ent.trans own_length (Ent.frame (fun w hw => ⟨hw.1.2, hw.2⟩) _)
  refine Triple.getFact fun hh => ?_
  refine Triple.seq (iter_own h1) fun r => ?_
  refine Triple.getFact fun hat => ?_
  refine Triple.seq (mutRun_own (bnd := hm.root.height) (hstep := HIter.stepH hm.root.height) (step := Iter.stepH) iter_stepH IterAt.mono (by rw [hh]; exact Nat.le_refl _) h2 hat RefsAt.nil) fun z => ?_
  refine Triple.getFact fun hz => ?_
  exact Triple.ofPure (Ent.fact_right (by rw [hz]) (Ent.refl _))

theorem intoIterRun_ref {es : List End} {hm : HMap} {M : Map K V} (hM : M.WF) :
    Triple E (rep hm M) (hm.intoIterRun es) (fun r => fact (r = .items (Spec.pops es M.toList).1)) := by
  unfold HMap.intoIterRun
  refine Triple.seq (intoIter_spec (hM.len.trans (Nat.add_zero _))) fun it => ?_
  refine Triple.getFact fun hh => ?_
  rw [hh]
  refine Triple.seq (asks_spec es) fun xs => ?_
  refine Triple.getFact fun hx => ?_
  refine Triple.pre ?_ consuming_length
  refine Triple.getFact fun hn => ?_
  refine Triple.seq (drop_spec hn) fun l => ?_
  refine Triple.pre (P := fact (l = (Spec.pops es (BTree.toList M.height M.root)).2) ∗ emp) ?_ (Ent.of_eq (sep_emp _).symm)
  refine Triple.getFact fun _ => ?_
  refine Triple.ofPure ?_
  rw [fact_of]
  · exact Ent.refl _
  · rw [hx]; rfl

end Verif.Heap
