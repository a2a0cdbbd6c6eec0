import Verif.Heap.Proofs.Views
import Verif.BTree.Proofs.GoOn
/-
Programs over several maps in one memory do what the level-1 model says.
-/
namespace Verif.Heap
open Verif
open Verif.BTree (Map CallWF PoolWF Loose onMap)
open Verif.Spec (Bound End MutAct Op Out)

variable {K V Q α β : Type} {E : String → Prop}

/-- The maps of a program in memory, apart from each other. -/
def pool : List HMap → List (Map K V) → HProp K V
  | [], [] => emp
  | h :: hs, m :: ms => rep h m ∗ pool hs ms
  | _, _ => fact False

theorem pool_nil : (pool [] [] : HProp K V) = emp := rfl
theorem pool_cons {h : HMap} {hs : List HMap} {m : Map K V} {ms : List (Map K V)} : pool (h :: hs) (m :: ms) = (rep h m ∗ pool hs ms) := rfl

theorem false_sep {P : HProp K V} : Ent (fact False ∗ P) (fact False) := fun _ hw => (fact_sep.1 hw).1.elim

theorem pool_length : ∀ {hs : List HMap} {ms : List (Map K V)}, Ent (pool hs ms) (fact (hs.length = ms.length) ∗ pool hs ms)
  | [], [] => Ent.fact_right rfl (Ent.refl _)
  | [], _ :: _ => fun _ hw => hw.1.elim
  | _ :: _, [] => fun _ hw => hw.1.elim
  | h :: hs, m :: ms => by
    rw [pool_cons]
    refine Ent.trans (Ent.sep (Ent.refl _) pool_length) ?_
    refine Ent.trans (Q := fact (hs.length = ms.length) ∗ rep h m ∗ pool hs ms) (by ent_ac) ?_
    exact Ent.sep (fun w hw => ⟨by simp [hw.1], hw.2⟩) (Ent.refl _)

theorem pool_split : ∀ {hs : List HMap} {ms : List (Map K V)} {i : Nat} {M : Map K V}, hs.length = ms.length → ms[i]? = some M →
    ∃ hm F, hs[i]? = some hm ∧ pool hs ms = (rep hm M ∗ F) ∧ ∀ hm' M', pool (hs.set i hm') (ms.set i M') = (rep hm' M' ∗ F)
  | [], [], i, M, _, h => by simp at h
  | [], _ :: _, i, M, hl, _ => by simp at hl
  | _ :: _, [], i, M, hl, _ => by simp at hl
  | h :: hs, m :: ms, 0, M, _, hm => by
    simp only [List.getElem?_cons_zero, Option.some.injEq] at hm
    subst hm
    exact ⟨h, pool hs ms, rfl, rfl, fun hm' M' => rfl⟩
  | h :: hs, m :: ms, i + 1, M, hl, hm => by
    simp only [List.getElem?_cons_succ] at hm
    obtain ⟨hm1, F, e1, e2, e3⟩ := pool_split (by simpa using hl) hm
    refine ⟨hm1, rep h m ∗ F, by simpa using e1, ?_, fun hm' M' => ?_⟩
    · rw [pool_cons, e2]; ac_rfl
    · simp only [List.set_cons_succ]
      rw [pool_cons, e3]; ac_rfl

theorem pool_none {hs : List HMap} {ms : List (Map K V)} {i : Nat} (hl : hs.length = ms.length) (h : ms[i]? = none) : hs[i]? = none := by
  rw [List.getElem?_eq_none_iff] at h ⊢
  omega

theorem pool_snoc : ∀ {hs : List HMap} {ms : List (Map K V)} {h : HMap} {m : Map K V}, hs.length = ms.length →
    pool (hs ++ [h]) (ms ++ [m]) = (rep h m ∗ pool hs ms)
  | [], [], h, m, _ => rfl
  | [], _ :: _, h, m, hl => by simp at hl
  | _ :: _, [], h, m, hl => by simp at hl
  | h1 :: hs, m1 :: ms, h, m, hl => by
    simp only [List.cons_append]
    rw [pool_cons, pool_snoc (by simpa using hl), pool_cons]
    ac_rfl

/-- What running the call `op` in memory means: it panics only if the level-1 call panics, and otherwise gives its answer
and the maps it says. -/
def PoolPost (b : Bool) (x : Exec (Out K V × List (Map K V) × Alloc)) (r : Out K V × List HMap) : HProp K V :=
  hex fun y : List (Map K V) × Alloc => fact (x = .ok (r.1, y.1, y.2)) ∗ pool r.2 y.1 ∗ sched y.2 ∗ spill b r.1

theorem onHMap_ref {b : Bool} {hs : List HMap} {p : List (Map K V)} (i : Nat) (al : Alloc)
    {f : Map K V → Exec (Out K V × Map K V × Alloc)} {hf : HMap → HM K V (Out K V × HMap)}
    (h : ∀ M hm, p[i]? = some M → ∃ o M' al', f M = .ok (o, M', al') ∧ ∀ {E : String → Prop}, Triple E (rep hm M ∗ sched al) (hf hm) (Done b o M' al')) :
    Triple E (pool hs p ∗ sched al) (onHMap hs i hf) (PoolPost b (onMap p i al f)) := by
  refine Triple.pre ?_ (Ent.frame pool_length _)
  rw [sep_assoc]
  refine Triple.getFact fun hl => ?_
  unfold onHMap onMap
  cases hi : p[i]? with
  | none =>
    rw [pool_none hl hi]
    refine Triple.ofPure ?_
    unfold PoolPost
    refine Ent.hex_right (p, al) ?_
    refine Ent.fact_right rfl ?_
    rw [spill_ne (by simp), sep_emp]
    exact Ent.refl _
  | some M =>
    obtain ⟨hm, F, e1, e2, e3⟩ := pool_split hl hi
    rw [e1, e2]
    obtain ⟨o, M', al', h1, h2⟩ := h M hm hi
    simp only [h1, Exec.ok_bind]
    refine Triple.pre (P := (rep hm M ∗ sched al) ∗ F) ?_ (by ent_ac)
    refine Triple.seq (h2.frame F) fun r => ?_
    obtain ⟨r1, hm'⟩ := r
    unfold Done
    simp only [sep_assoc]
    refine Triple.getFact fun hr => ?_
    subst hr
    refine Triple.ofPure ?_
    unfold PoolPost
    refine Ent.hex_right (p.set i M', al') ?_
    refine Ent.fact_right rfl ?_
    rw [e3]
    ent_ac

theorem Done.call {b : Bool} {o : Out K V} {M : Map K V} {al : Alloc} {P : HProp K V} {m : HM K V (Out K V)} {hm : HMap}
    (h : ∀ {E : String → Prop}, Triple E P m (fun r => fact (r = o) ∗ rep hm M)) (ho : o ≠ .failed) :
    ∀ {E : String → Prop}, Triple E (P ∗ sched al) (do
      let r ← m
      pure (r, hm)) (Done b o M al) := by
  intro E
  refine Triple.seq (h.frame _) fun r => ?_
  rw [sep_assoc]
  refine Triple.getFact fun hr => ?_
  subst hr
  exact Triple.ofPure (done_ok (Ent.refl _) (.inr ho))

theorem Triple.ofRep {hm : HMap} {M : Map K V} {m : HM K V α} {Q : α → HProp K V} (h : ∀ ta, Triple E (own hm M ta) m Q) : Triple E (rep hm M) m Q :=
  Triple.ofHex h

theorem rangeRun_ne [Ord Q] {M : Map K V} {bor : K → Q} {lo hi : Bound Q} {es : List End} {o : Out K V} (h : M.rangeRun bor lo hi es = .ok o) : o ≠ .failed := by
  unfold BTree.Map.rangeRun at h
  cases hr : M.range bor lo hi with
  | ub => rw [hr] at h; cases h
  | panic m => rw [hr] at h; simp only [Exec.ok.injEq] at h; subst h; simp
  | ok r =>
    rw [hr] at h
    obtain ⟨x, _, h⟩ := Exec.bind_eq_ok.1 h
    simp only [Exec.ok.injEq] at h; subst h; simp

theorem rangeMutRun_ne [Ord Q] {M M' : Map K V} {bor : K → Q} {lo hi : Bound Q} {acts : List (MutAct V)} {o : Out K V} (h : M.rangeMutRun bor lo hi acts = .ok (o, M')) : o ≠ .failed := by
  unfold BTree.Map.rangeMutRun at h
  cases hr : M.range bor lo hi with
  | ub => rw [hr] at h; cases h
  | panic m => rw [hr] at h; simp only [Exec.ok.injEq, Prod.mk.injEq] at h; obtain ⟨rfl, _⟩ := h; simp
  | ok r =>
    rw [hr] at h
    obtain ⟨⟨x, y, z⟩, _, h⟩ := Exec.bind_eq_ok.1 h
    simp only [Exec.ok.injEq, Prod.mk.injEq] at h; obtain ⟨rfl, _⟩ := h; simp

theorem shared_none {x : Nat} {M : Map K V} (hM : M.Shaped x) (h : M.shared = true) : M.length = 0 := by
  have h2 := hM.shared h
  have h3 := hM.len
  have h4 := hM.tidy h
  simp [BTree.Map.toList, h2.1, h2.2, BTree.emptyLeaf] at h3
  omega

/-- Running in memory a call that trusts no map that may be loose. -/
theorem hrun_loose [Ord K] [Ord Q] (bor : K → Q) {bad : List Nat} {hs : List HMap} {p : List (Map K V)} (hp : Loose Map.Shaped bad p) (al : Alloc) (op : Op K V Q)
    (ht : op.trusts bad = false) (hE : ∀ msg, BTree.Op.run bor p al op = .panic msg → E msg) :
    Triple E (pool hs p ∗ sched al) (Op.hrun bor hs op) (PoolPost op.inserts (BTree.Op.run bor p al op)) := by
  cases op with
  | new =>
    refine Triple.pre ?_ (Ent.frame pool_length _)
    rw [sep_assoc]
    refine Triple.getFact fun hl => ?_
    refine Triple.ofPure ?_
    unfold PoolPost
    refine Ent.hex_right (p ++ [Map.new], al) ?_
    refine Ent.fact_right rfl ?_
    rw [pool_snoc hl, rep_new, emp_sep, spill_ne (by simp), sep_emp]
    exact Ent.refl _
  | insert i k v =>
    refine onHMap_ref i al fun M hm hi' => ?_
    obtain ⟨x, hM, hx⟩ := hp i M hi'
    obtain ⟨o, M', al', h1, _⟩ := BTree.insertCall_wf hM k v al
    exact ⟨o, M', al', h1, insertCall_ref h1⟩
  | remove i q =>
    refine onHMap_ref i al fun M hm hi' => ?_
    obtain ⟨x, hM, hx⟩ := hp i M hi'
    obtain ⟨r, M', h1, _⟩ := BTree.Map.removeEntry_wf hM bor q
    exact ⟨_, M', al, by simp only [BTree.Map.remove, h1, Exec.ok_bind], removeCall_ref h1⟩
  | get i q =>
    refine onHMap_ref i al fun M hm hi' => ?_
    obtain ⟨x, hM, hx⟩ := hp i M hi'
    obtain ⟨r, h1, h2⟩ := BTree.getKeyValue_wf hM bor q
    exact ⟨_, M, al, by simp only [h2, Exec.ok_bind],
      readCall_ref (g := fun r : Option (K × V) => Out.value (r.map (·.2))) (fun ta => getKeyValue_spec h1) (.inr (by simp))⟩
  | getKeyValue i q =>
    refine onHMap_ref i al fun M hm hi' => ?_
    obtain ⟨x, hM, hx⟩ := hp i M hi'
    obtain ⟨r, h1, h2⟩ := BTree.getKeyValue_wf hM bor q
    exact ⟨_, M, al, by simp only [h1, Exec.ok_bind],
      readCall_ref (g := fun r : Option (K × V) => Out.pair r) (fun ta => getKeyValue_spec h1) (.inr (by simp))⟩
  | containsKey i q =>
    refine onHMap_ref i al fun M hm hi' => ?_
    obtain ⟨x, hM, hx⟩ := hp i M hi'
    obtain ⟨r, h1, h2⟩ := BTree.getKeyValue_wf hM bor q
    exact ⟨.flag r.isSome, M, al, by simp only [BTree.Map.containsKey, h2, Exec.ok_bind, Option.isSome_map],
      readCall_ref (g := fun r : Option (K × V) => Out.flag r.isSome) (fun ta => getKeyValue_spec h1) (.inr (by simp))⟩
  | len i =>
    refine onHMap_ref i al fun M hm _ => ⟨_, M, al, rfl, ?_⟩
    intro E
    refine Triple.pre ?_ (Ent.frame rep_length _)
    rw [sep_assoc]
    refine Triple.getFact fun hl => ?_
    rw [hl]
    exact Triple.ofPure (done_ok (Ent.refl _) (.inr (by simp)))
  | isEmpty i =>
    refine onHMap_ref i al fun M hm _ => ⟨_, M, al, rfl, ?_⟩
    intro E
    refine Triple.pre ?_ (Ent.frame rep_length _)
    rw [sep_assoc]
    refine Triple.getFact fun hl => ?_
    rw [hl]
    exact Triple.ofPure (done_ok (Ent.refl _) (.inr (by simp)))
  | update i q f =>
    refine onHMap_ref i al fun M hm hi' => ?_
    obtain ⟨x, hM, hx⟩ := hp i M hi'
    obtain ⟨x, M', h1, _⟩ := BTree.updateVal_wf hM bor q f
    exact ⟨_, M', al, by simp only [h1, Exec.ok_bind], updateVal_ref h1⟩
  | clear i =>
    refine onHMap_ref i al fun M hm hi' => ?_
    exact ⟨_, Map.new, al, rfl, clear_ref (hp.sound hi' (by simpa [Op.trusts] using ht))⟩
  | append i j =>
    refine Triple.pre ?_ (Ent.frame pool_length _)
    rw [sep_assoc]
    refine Triple.getFact fun hl => ?_
    have hskip : Ent (pool hs p ∗ sched al) (PoolPost false (.ok (.skipped, p, al)) (.skipped, hs)) := by
      unfold PoolPost
      refine Ent.hex_right (p, al) ?_
      refine Ent.fact_right rfl ?_
      rw [spill_false, sep_emp]
      exact Ent.refl _
    simp only [BTree.Op.run] at hE ⊢
    unfold Op.hrun
    dsimp only
    cases hi : p[i]? with
    | none =>
      rw [pool_none hl hi]
      exact Triple.ofPure hskip
    | some M =>
      cases hj : p[j]? with
      | none =>
        rw [pool_none hl hj]
        obtain ⟨hm, F, e1, e2, e3⟩ := pool_split hl hi
        rw [e1]
        exact Triple.ofPure hskip
      | some O =>
        obtain ⟨hm, F, e1, e2, e3⟩ := pool_split hl hi
        obtain ⟨ho, F', g1, g2, g3⟩ := pool_split hl hj
        rw [e1, g1]
        rw [hi, hj] at hE
        dsimp only at hE ⊢
        by_cases hij : i = j
        · simp only [if_pos hij]
          exact Triple.ofPure hskip
        · simp only [if_neg hij] at hE ⊢
          -- the pool without map i still has map j
          have hl2 : (hs.set i hm).length = (p.set i Map.new).length := by simpa using hl
          have hj2 : (p.set i Map.new)[j]? = some O := by rw [List.getElem?_set_ne hij]; exact hj
          obtain ⟨ho2, F2, k1, k2, k3⟩ := pool_split (hs := hs.set i HMap.new) (ms := p.set i Map.new) (by simpa using hl) hj2
          rw [List.getElem?_set_ne hij, g1] at k1
          obtain rfl := Option.some.inj k1
          have eF : F = (rep ho O ∗ F2) := by
            have := e3 HMap.new Map.new
            rw [rep_new, emp_sep] at this
            rw [← this, k2]
          have hfin : ∀ hm' M' ho' O', pool ((hs.set i hm').set j ho') ((p.set i M').set j O') = (rep hm' M' ∗ rep ho' O' ∗ F2) := by
            intro hm' M' ho' O'
            have a1 : ((p.set i M').set j O')[i]? = some M' := by
              rw [List.getElem?_set_ne (Ne.symm hij), List.getElem?_set_self]
              exact (List.getElem?_eq_some_iff.1 hi).1
            obtain ⟨h5, F5, b1, b2, b3⟩ := pool_split (hs := (hs.set i hm').set j ho') (by simpa using hl) a1
            have b4 : h5 = hm' := by
              rw [List.getElem?_set_ne (Ne.symm hij), List.getElem?_set_self] at b1
              · exact (Option.some.inj b1).symm
              · exact (List.getElem?_eq_some_iff.1 e1).1
            subst b4
            have b5 := b3 HMap.new Map.new
            rw [rep_new, emp_sep] at b5
            rw [List.set_comm _ _ (Ne.symm hij), List.set_set, List.set_comm _ _ (Ne.symm hij), List.set_set, k3] at b5
            rw [b2, ← b5]
          have hb : i ∉ bad ∧ j ∉ bad := by simpa [Op.trusts] using ht
          rw [e2, eF]
          refine Triple.pre (P := (rep hm M ∗ rep ho O ∗ sched al) ∗ F2) ?_ (by ent_ac)
          refine Triple.seq ((append_ref (hp.sound hi hb.1) (hp.sound hj hb.2) ?_).frame F2) fun r => ?_
          · intro msg hm
            exact hE msg (by simp [hm])
          · rw [hex_sep]
            refine Triple.ofHex fun x => ?_
            obtain ⟨M', O', al'⟩ := x
            rw [sep_assoc]
            refine Triple.getFact fun hx => ?_
            refine Triple.ofPure ?_
            unfold PoolPost
            refine Ent.hex_right ((p.set i M').set j O', al') ?_
            refine Ent.fact_right (by simp [hx]) ?_
            rw [hfin, spill_ne (by simp)]
            ent_ac
  | splitOff i q =>
    refine Triple.pre ?_ (Ent.frame pool_length _)
    rw [sep_assoc]
    refine Triple.getFact fun hl => ?_
    simp only [BTree.Op.run]
    unfold Op.hrun
    dsimp only
    cases hi : p[i]? with
    | none =>
      rw [pool_none hl hi]
      refine Triple.ofPure ?_
      unfold PoolPost
      refine Ent.hex_right (p, al) ?_
      refine Ent.fact_right rfl ?_
      rw [spill_ne (by simp), sep_emp]
      exact Ent.refl _
    | some M =>
      obtain ⟨hm, F, e1, e2, e3⟩ := pool_split hl hi
      obtain ⟨x, hM, hx⟩ := hp i M hi
      obtain ⟨res, M', al', h1, _⟩ := BTree.Map.splitOff_wf hM bor q al
      rw [e1, e2]
      simp only [h1, Exec.ok_bind]
      refine Triple.pre (P := (rep hm M ∗ sched al) ∗ F) ?_ (by ent_ac)
      have hsh : M.shared = true → M.length = 0 := shared_none hM
      refine Triple.seq ((splitOff_ref hsh h1).frame F) fun r => ?_
      obtain ⟨r1, hm'⟩ := r
      cases res with
      | error e =>
        rw [splitPost_error]
        simp only [sep_assoc]
        refine Triple.getFact fun hr => ?_
        subst hr
        refine Triple.ofPure ?_
        unfold PoolPost
        refine Ent.hex_right (p.set i M', al') ?_
        refine Ent.fact_right rfl ?_
        rw [e3, show (Op.splitOff i q : Op K V Q).inserts = false from rfl, spill_false]
        ent_ac
      | ok R =>
        unfold SplitPost
        dsimp only
        rw [hex_sep, sep_hex, hex_sep]
        refine Triple.ofHex fun hr => ?_
        simp only [sep_assoc]
        refine Triple.getFact fun hr1 => ?_
        subst hr1
        refine Triple.ofPure ?_
        unfold PoolPost
        refine Ent.hex_right (p.set i M' ++ [R], al') ?_
        refine Ent.fact_right rfl ?_
        rw [pool_snoc (by simpa using hl), e3, show (Op.splitOff i q : Op K V Q).inserts = false from rfl, spill_false]
        ent_ac
  | extend i items =>
    refine Triple.pre ?_ (Ent.frame pool_length _)
    rw [sep_assoc]
    refine Triple.getFact fun hl => ?_
    simp only [BTree.Op.run, onMap] at hE ⊢
    unfold Op.hrun
    dsimp only
    unfold onHMap
    cases hi : p[i]? with
    | none =>
      rw [pool_none hl hi]
      refine Triple.ofPure ?_
      unfold PoolPost
      refine Ent.hex_right (p, al) ?_
      refine Ent.fact_right rfl ?_
      rw [spill_ne (by simp), sep_emp]
      exact Ent.refl _
    | some M =>
      obtain ⟨hm, F, e1, e2, e3⟩ := pool_split hl hi
      rw [e1, e2]
      rw [hi] at hE
      dsimp only at hE ⊢
      refine Triple.pre (P := (rep hm M ∗ sched al) ∗ F) ?_ (by ent_ac)
      refine Triple.assoc ?_
      obtain ⟨x, hM, hx⟩ := hp i M hi
      refine Triple.seq ((extend_ref hM ?_).frame F) fun r => ?_
      · intro msg hm
        exact hE msg (by simp [hm])
      · rw [hex_sep]
        refine Triple.ofHex fun y => ?_
        rw [sep_assoc]
        refine Triple.getFact fun hx => ?_
        refine Triple.bindPure (a := ((Out.done, r) : Out K V × HMap)) ?_
        refine Triple.ofPure ?_
        unfold PoolPost
        refine Ent.hex_right (p.set i y.1, y.2) ?_
        refine Ent.fact_right (by simp [hx]) ?_
        rw [e3, spill_ne (by simp)]
        ent_ac
  | clone i =>
    refine Triple.pre ?_ (Ent.frame pool_length _)
    rw [sep_assoc]
    refine Triple.getFact fun hl => ?_
    simp only [BTree.Op.run] at hE ⊢
    unfold Op.hrun
    dsimp only
    cases hi : p[i]? with
    | none =>
      rw [pool_none hl hi]
      refine Triple.ofPure ?_
      unfold PoolPost
      refine Ent.hex_right (p, al) ?_
      refine Ent.fact_right rfl ?_
      rw [spill_ne (by simp), sep_emp]
      exact Ent.refl _
    | some M =>
      obtain ⟨hm, F, e1, e2, e3⟩ := pool_split hl hi
      obtain ⟨x, hM, hx⟩ := hp i M hi
      rw [e1]
      rw [hi] at hE
      dsimp only at hE ⊢
      have hsh : M.shared = true → M.length = 0 := shared_none hM
      obtain ⟨res, al', h1, _⟩ := BTree.Map.tryClone_wf (fun k a => (.ok k, a)) (fun v a => (.ok v, a)) hM al
      cases res with
      | error e =>
        have hx : M.clone id id al = .panic "Out of Mem" := by simp [BTree.Map.clone, h1]
        rw [e2]
        refine Triple.pre (P := (rep hm M ∗ sched al) ∗ F) ?_ (by ent_ac)
        refine Triple.seq ((clone_panic (Qb := fun _ => fact False) hsh hx ⟨_, h1⟩ (hE _ (by simp [hx]))).frame F) fun _ => ?_
        exact Triple.getFact fun h => h.elim
      | ok C =>
        have hx : M.clone id id al = .ok (C, al') := by simp [BTree.Map.clone, h1]
        rw [e2]
        simp only [hx, Exec.ok_bind]
        refine Triple.pre (P := (rep hm M ∗ sched al) ∗ F) ?_ (by ent_ac)
        refine Triple.seq ((clone_ref hsh hx).frame F) fun r => ?_
        refine Triple.ofPure ?_
        unfold PoolPost
        refine Ent.hex_right (p ++ [C], al') ?_
        refine Ent.fact_right rfl ?_
        rw [pool_snoc hl, e2, spill_ne (by simp)]
        ent_ac
  | iterate i es =>
    refine onHMap_ref i al fun M hm hi' => ?_
    obtain ⟨x, hM, hx⟩ := hp i M hi'
    obtain rfl := hx (by simpa [Op.trusts] using ht)
    obtain ⟨it, it', h1, h2⟩ := BTree.iterRun_wf hM es
    exact ⟨_, M, al, by simp only [h1, h2, Exec.ok_bind], readCall_ref (g := fun r => r) (fun ta => iterRun_ref h1 h2) (.inr (by simp))⟩
  | range i lo hi es =>
    refine onHMap_ref i al fun M hm hi' => ?_
    obtain ⟨x, hM, hx⟩ := hp i M hi'
    obtain ⟨o, h1⟩ := BTree.rangeRun_wf hM bor lo hi es
    exact ⟨o, M, al, by simp only [h1, Exec.ok_bind], readCall_ref (g := fun r => r) (fun ta => rangeRun_ref h1) (.inr (rangeRun_ne h1))⟩
  | iterMut i acts =>
    refine onHMap_ref i al fun M hm hi' => ?_
    obtain ⟨x, hM, hx⟩ := hp i M hi'
    obtain rfl := hx (by simpa [Op.trusts] using ht)
    obtain ⟨it, xs, M', refs, h1, h2, h3⟩ := BTree.iterMutRun_wf hM acts
    exact ⟨_, M', al, by simp only [h1, h2, Exec.ok_bind], Done.call (Triple.ofRep fun ta => iterMutRun_ref h1 h2) (by simp)⟩
  | rangeMut i lo hi acts =>
    refine onHMap_ref i al fun M hm hi' => ?_
    obtain ⟨x, hM, hx⟩ := hp i M hi'
    obtain ⟨o, M', h1, h2⟩ := BTree.rangeMutRun_wf hM bor lo hi acts
    exact ⟨o, M', al, by simp only [h1, Exec.ok_bind], Done.call (Triple.ofRep fun ta => rangeMutRun_ref h1) (rangeMutRun_ne h1)⟩
  | intoIter i es =>
    refine onHMap_ref i al fun M hm hi' => ?_
    obtain ⟨x, hM, hx⟩ := hp i M hi'
    obtain rfl := hx (by simpa [Op.trusts] using ht)
    obtain ⟨it, it', h1, h2⟩ := BTree.iterRun_wf hM es
    refine ⟨.items (Spec.pops es M.toList).1, Map.new, al, by simp only [h1, h2, Exec.ok_bind], Done.call ?_ (by simp)⟩
    intro E
    refine (intoIterRun_ref hM).post fun r => ?_
    rw [rep_new, sep_emp]
    exact Ent.refl _
  | entryOrInsert i k v f =>
    refine onHMap_ref i al fun M hm hi' => ?_
    obtain ⟨x, hM, hx⟩ := hp i M hi'
    obtain ⟨o, M', al', h1, _⟩ := BTree.entryOrInsert_wf hM k v f al
    exact ⟨o, M', al', h1, entryOrInsert_ref h1⟩
  | entryOrInsertWith i k v f =>
    refine onHMap_ref i al fun M hm hi' => ?_
    obtain ⟨x, hM, hx⟩ := hp i M hi'
    obtain ⟨o, M', al', h1, _⟩ := BTree.entryOrInsertWith_wf hM k v f al
    exact ⟨o, M', al', h1, entryOrInsertWith_ref h1⟩
  | entryRemove i k =>
    refine onHMap_ref i al fun M hm hi' => ?_
    obtain ⟨x, hM, hx⟩ := hp i M hi'
    obtain ⟨o, M', al', h1, _⟩ := BTree.entryRemove_wf hM k al
    exact ⟨o, M', al', h1, entryRemove_ref h1⟩
  | entryModify i k f =>
    refine onHMap_ref i al fun M hm hi' => ?_
    obtain ⟨x, hM, hx⟩ := hp i M hi'
    obtain ⟨o, M', al', h1, _⟩ := BTree.entryModify_wf hM k f al
    exact ⟨o, M', al', h1, entryModify_ref h1⟩
  | entryKey i k =>
    refine onHMap_ref i al fun M hm hi' => ?_
    obtain ⟨x, hM, hx⟩ := hp i M hi'
    obtain ⟨o, M', al', h1, _⟩ := BTree.entryKeyOf_wf hM k al
    exact ⟨o, M', al', h1, entryKeyOf_ref h1⟩
  | entryInsert i k v =>
    refine onHMap_ref i al fun M hm hi' => ?_
    obtain ⟨x, hM, hx⟩ := hp i M hi'
    obtain ⟨o, M', al', h1, _⟩ := BTree.entryInsert_wf hM k v al
    exact ⟨o, M', al', h1, entryInsert_ref h1⟩
  | tryClone i ck cv =>
    refine Triple.pre ?_ (Ent.frame pool_length _)
    rw [sep_assoc]
    refine Triple.getFact fun hl => ?_
    simp only [BTree.Op.run]
    unfold Op.hrun
    dsimp only
    cases hi : p[i]? with
    | none =>
      rw [pool_none hl hi]
      refine Triple.ofPure ?_
      unfold PoolPost
      refine Ent.hex_right (p, al) ?_
      refine Ent.fact_right rfl ?_
      rw [spill_ne (by simp), sep_emp]
      exact Ent.refl _
    | some M =>
      obtain ⟨hm, F, e1, e2, e3⟩ := pool_split hl hi
      obtain ⟨x, hM, hx⟩ := hp i M hi
      have hsh : M.shared = true → M.length = 0 := shared_none hM
      obtain ⟨res, al', h1, _⟩ := BTree.Map.tryClone_wf (BTree.keyCloner ck) (BTree.valCloner cv) hM al
      rw [e1, e2]
      simp only [h1, Exec.ok_bind]
      refine Triple.pre (P := (rep hm M ∗ sched al) ∗ F) ?_ (by ent_ac)
      refine Triple.seq ((tryClone_ref hsh h1).frame F) fun r => ?_
      cases res with
      | error e =>
        rw [tryClonePost_error]
        refine Triple.pre (P := fact (r = .error e) ∗ sched al' ∗ rep hm M ∗ F) ?_ (by ent_ac)
        refine Triple.getFact fun hr => ?_
        subst hr
        refine Triple.ofPure ?_
        unfold PoolPost
        refine Ent.hex_right (p, al') ?_
        refine Ent.fact_right rfl ?_
        rw [e2, show (Op.tryClone i ck cv : Op K V Q).inserts = false from rfl, spill_false]
        ent_ac
      | ok C =>
        rw [tryClonePost_ok, sep_hex, hex_sep]
        refine Triple.ofHex fun hc => ?_
        refine Triple.pre (P := fact (r = .ok hc) ∗ sched al' ∗ rep hc C ∗ rep hm M ∗ F) ?_ (by ent_ac)
        refine Triple.getFact fun hr => ?_
        subst hr
        refine Triple.ofPure ?_
        unfold PoolPost
        refine Ent.hex_right (p ++ [C], al') ?_
        refine Ent.fact_right rfl ?_
        rw [pool_snoc hl, e2, show (Op.tryClone i ck cv : Op K V Q).inserts = false from rfl, spill_false]
        ent_ac
  | views i acts =>
    refine onHMap_ref i al fun M hm hi' => ?_
    obtain ⟨x, hM, hx⟩ := hp i M hi'
    obtain rfl := hx (by simpa [Op.trusts] using ht)
    obtain ⟨os, h1⟩ := BTree.ViewAct.runs_wf hM bor acts (vs := []) (by simp)
    exact ⟨.seen os, M, al, by simp only [h1, Exec.ok_bind],
      readCall_ref (g := fun xs => Out.seen xs) (fun ta => views_ref hM h1) (.inr (by simp))⟩
  | replace i k v =>
    refine onHMap_ref i al fun M hm hi' => ?_
    obtain ⟨x, hM, hx⟩ := hp i M hi'
    obtain ⟨o, M', al', h1, _⟩ := BTree.replaceCall_wf hM k v al
    exact ⟨o, M', al', h1, replaceCall_ref h1⟩
  | take i q =>
    refine onHMap_ref i al fun M hm hi' => ?_
    obtain ⟨x, hM, hx⟩ := hp i M hi'
    obtain ⟨r, M', h1, _⟩ := BTree.Map.removeEntry_wf hM bor q
    exact ⟨_, M', al, by simp only [h1, Exec.ok_bind], takeCall_ref h1⟩

/-- Running a call in memory. -/
theorem hrun_ref [Ord K] [Ord Q] (bor : K → Q) {hs : List HMap} {p : List (Map K V)} (hp : ∀ m ∈ p, m.WF) (al : Alloc) (op : Op K V Q)
    (hE : ∀ msg, BTree.Op.run bor p al op = .panic msg → E msg) :
    Triple E (pool hs p ∗ sched al) (Op.hrun bor hs op) (PoolPost op.inserts (BTree.Op.run bor p al op)) :=
  hrun_loose bor (bad := []) (Loose.ofAll hp) al op (by cases op <;> rfl) hE

end Verif.Heap
