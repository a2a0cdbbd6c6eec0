import Verif.Heap.Proofs.AnyViews
import Verif.Heap.Proofs.AnySplit
import Verif.Heap.Proofs.AnyAppend
import Verif.Heap.Proofs.CutPool
/-
Programs over several maps when the comparisons answer anything at all.
-/
namespace Verif.Heap
open Verif
open Verif.BTree (Map Iter)
open Verif.Spec (Bound End MutAct Op Out Looks LooksMem Extends Merged onOne)

variable {K V Q α β : Type} {E : String → Prop}

/-- An insertion failed for want of memory, or the call left well-formed maps, as `R` says of its answer and the entries. -/
def PoolPostO (b : Bool) (mem : Prop) (R : Option (Out K V) → List (List (K × V)) → Prop) (r : Option (Out K V) × List HMap) : HProp K V :=
  hex fun y : List (Map K V) × Alloc =>
    fact ((mem → y.2.Good) ∧ ((b = true ∧ r.1 = some .failed ∧ ¬ mem) ∨ ((∀ m ∈ y.1, m.WF) ∧ R r.1 (y.1.map Map.toList)))) ∗
      pool r.2 y.1 ∗ sched y.2 ∗ spillO b r.1

theorem poolPostO_ok {b : Bool} {mem : Prop} {R : Option (Out K V) → List (List (K × V)) → Prop} {o : Option (Out K V)} {hs : List HMap} {p : List (Map K V)} {al : Alloc}
    {P : HProp K V} (h : Ent P (pool hs p ∗ sched al)) (hp : ∀ m ∈ p, m.WF) (hal : mem → al.Good) (hR : R o (p.map Map.toList)) (ho : b = false ∨ o ≠ some .failed) :
    Ent P (PoolPostO b mem R (o, hs)) := by
  refine Ent.hex_right (p, al) (Ent.fact_right ⟨hal, .inr ⟨hp, hR⟩⟩ ?_)
  have : spillO b o = (emp : HProp K V) := by
    cases o with
    | none => rfl
    | some o =>
      rcases ho with rfl | ho
      · exact spill_false (o := o)
      · exact spill_ne fun h => ho (by rw [h])
  rw [this, sep_emp]
  exact h

theorem onHMapU_spec {b : Bool} {hs : List HMap} {p : List (Map K V)} (hp : ∀ m ∈ p, m.WF) (i : Nat) {al : Alloc} {mem : Prop} (hal : mem → al.Good)
    {R : List (K × V) → Option (Out K V) → List (K × V) → Prop} {hf : HMap → HM K V (Option (Out K V) × HMap)}
    (h : ∀ M hm, M.WF → Triple E (rep hm M ∗ sched al) (hf hm) (AnyPost b mem (R M.toList))) :
    Triple E (pool hs p ∗ sched al) (onHMapU hs i hf) (PoolPostO b mem (onOne (p.map Map.toList) i R)) := by
  refine Triple.pre ?_ (Ent.frame pool_length _)
  rw [sep_assoc]
  refine Triple.getFact fun hl => ?_
  unfold onHMapU
  cases hi : p[i]? with
  | none =>
    rw [pool_none hl hi]
    refine Triple.ofPure (poolPostO_ok (Ent.refl _) hp hal ?_ (.inr (by simp)))
    unfold onOne
    rw [List.getElem?_map, hi]
    exact ⟨rfl, rfl⟩
  | some M =>
    obtain ⟨hm, F, e1, e2, e3⟩ := pool_split hl hi
    rw [e1, e2]
    dsimp only
    refine Triple.pre (P := (rep hm M ∗ sched al) ∗ F) ?_ (by ent_ac)
    refine Triple.seq ((h M hm (hp M (List.mem_of_getElem? hi))).frame F) fun r => ?_
    obtain ⟨r1, hm'⟩ := r
    unfold AnyPost
    rw [hex_sep]
    refine Triple.ofHex fun y => ?_
    obtain ⟨M', al'⟩ := y
    dsimp only
    rw [sep_assoc]
    refine Triple.getFact fun hr => ?_
    refine Triple.ofPure ?_
    refine Ent.hex_right (p.set i M', al') (Ent.fact_right ⟨hr.1, ?_⟩ ?_)
    · rcases hr.2 with hr | ⟨h1, h2⟩
      · exact .inl hr
      · refine .inr ⟨BTree.WF.set hp h1, ?_⟩
        unfold onOne
        rw [List.getElem?_map, hi]
        exact ⟨M'.toList, h2, by rw [List.map_set]⟩
    · dsimp only
      rw [e3]
      ent_ac

/-- A call that answers `o` for certain. -/
theorem AnyPost.certain {b : Bool} {mem : Prop} {R : Option (Out K V) → List (K × V) → Prop} {M' : Map K V} {al' : Alloc} {P : HProp K V} {o : Out K V}
    {m : HM K V (Out K V × HMap)} (h : Triple E P m (Done b o M' al')) (hM : M'.WF) (hal : mem → al'.Good) (hR : R (some o) M'.toList) (ho : b = false ∨ o ≠ .failed) :
    Triple E P (do
      let r ← m
      pure (some r.1, r.2)) (AnyPost b mem R) := by
  refine Triple.seq h fun r => ?_
  obtain ⟨r1, hm'⟩ := r
  unfold Done
  refine Triple.getFact fun hr => ?_
  dsimp only at hr
  subst hr
  refine Triple.ofPure (callPost_ok ?_ hM hal hR ?_)
  · have : spill b r1 = (emp : HProp K V) := by
      rcases ho with rfl | ho
      · exact spill_false
      · exact spill_ne ho
    rw [this, sep_emp]
    exact Ent.refl _
  · rcases ho with rfl | ho
    · exact .inl rfl
    · exact .inr (by simpa using ho)

/-- A panic of a comparison inside this call is not caught in the model. -/
abbrev _root_.Verif.Spec.Op.torn : Op K V Q → Bool
  | .append .. => true
  | .splitOff .. => true
  | _ => false

/-- An insertion does not answer that it failed. -/
theorem hany_failed {mem ret : Prop} {op : Op K V Q} {s s' : List (List (K × V))} (hi : op.inserts = true) (h : op.may mem ret s (some .failed) s') : ¬ mem := by
  cases op <;> simp [Op.inserts] at hi <;> simp only [Op.may, onOne] at h <;> split at h <;> simp [Looks] at h

theorem cloneList_at' {ck : K → Bool} {cv : V → Option V} {l l' : List (K × V)} (h : Spec.cloneList ck cv l = some l') (kv : K × V) (hkv : kv ∈ l) :
    BTree.ClonesAt (BTree.keyCloner ck) kv.1 ∧ BTree.ClonesAt (BTree.valCloner cv) kv.2 := by
  letI : Ord K := ⟨fun _ _ => .eq⟩
  haveI : Std.TransOrd K := { eq_swap := rfl, isLE_trans := fun _ _ => rfl }
  letI : Ord V := ⟨fun _ _ => .eq⟩
  haveI : Std.TransOrd V := { eq_swap := rfl, isLE_trans := fun _ _ => rfl }
  exact BTree.cloneList_at h kv hkv

theorem cloneList_all' (ck : K → Bool) (cv : V → Option V) {l l' : List (K × V)}
    (h : Spec.All2 (BTree.PairClone (BTree.keyCloner ck) (BTree.valCloner cv)) l l') : Spec.cloneList ck cv l = some l' := by
  letI : Ord K := ⟨fun _ _ => .eq⟩
  haveI : Std.TransOrd K := { eq_swap := rfl, isLE_trans := fun _ _ => rfl }
  exact BTree.cloneList_all ck cv h

theorem hany_spec {mem ret : Prop} (bor : K → Q) {hs : List HMap} {p : List (Map K V)} (hp : ∀ m ∈ p, m.WF) {al : Alloc} (hal : mem → al.Good) (op : Op K V Q)
    {c : CallCmps K Q} (hret : ret → c.Return) (hE : ∀ msg, ¬ mem → E msg) (hE' : op.torn = true → ∀ msg, ¬ ret → E msg) :
    Triple E (pool hs p ∗ sched al) (Op.hany bor hs op c) (PoolPostO op.inserts mem (op.may mem ret (p.map Map.toList))) := by
  have hk : ret → c.key.Return := fun h => (hret h).1
  have hf : ret → c.form.Return := fun h => (hret h).2.1
  have hfs : ∀ n, ret → (c.forms n).Return := fun n h => (hret h).2.2 n
  cases op with
  | new =>
    refine Triple.pre ?_ (Ent.frame pool_length _)
    rw [sep_assoc]
    refine Triple.getFact fun hl => ?_
    refine Triple.ofPure (poolPostO_ok (p := p ++ [Map.new]) ?_ ?_ hal ?_ (.inl rfl))
    · rw [pool_snoc hl, rep_new, emp_sep]
      exact Ent.refl _
    · intro m hm
      rcases List.mem_append.1 hm with hm | hm
      · exact hp m hm
      · obtain rfl := by simpa using hm
        exact Map.WF_new
    · exact ⟨rfl, by simp [Map.toList, Map.new, BTree.emptyLeaf]⟩
  | insert i k v => exact onHMapU_spec hp i hal fun M hm hM => insertO_call hM hal hk
  | remove i q => exact onHMapU_spec hp i hal fun M hm hM => removeO_call hM hal hf
  | get i q => exact onHMapU_spec hp i hal fun M hm hM => getO_call (g := fun r : Option (K × V) => Out.value (r.map (·.2))) hM hal hf (by simp)
  | getKeyValue i q => exact onHMapU_spec hp i hal fun M hm hM => getO_call (g := fun r : Option (K × V) => Out.pair r) hM hal hf (by simp)
  | containsKey i q => exact onHMapU_spec hp i hal fun M hm hM => getO_call (g := fun r : Option (K × V) => Out.flag r.isSome) hM hal hf (by simp)
  | len i =>
    refine onHMapU_spec hp i hal fun M hm hM => ?_
    refine Triple.pre ?_ (Ent.frame rep_length _)
    rw [sep_assoc]
    refine Triple.getFact fun hl => ?_
    rw [hl]
    refine Triple.ofPure (callPost_ok (Ent.refl _) hM hal ⟨?_, rfl⟩ (.inl rfl))
    rw [hM.len]; rfl
  | isEmpty i =>
    refine onHMapU_spec hp i hal fun M hm hM => ?_
    refine Triple.pre ?_ (Ent.frame rep_length _)
    rw [sep_assoc]
    refine Triple.getFact fun hl => ?_
    rw [hl]
    refine Triple.ofPure (callPost_ok (Ent.refl _) hM hal ⟨?_, rfl⟩ (.inl rfl))
    have := hM.len
    cases h : M.toList with
    | nil => rw [h] at this; simp at this; simp [this]
    | cons a l => rw [h] at this; simp at this; simp; omega
  | update i q f => exact onHMapU_spec hp i hal fun M hm hM => updateO_call hM hal hf
  | clear i =>
    refine onHMapU_spec hp i hal fun M hm hM => ?_
    have := AnyPost.certain (b := false) (mem := mem) (R := fun o l' => o = some Out.done ∧ l' = []) (clear_ref (E := E) (hm := hm) (al := al) hM) Map.WF_new hal ⟨rfl, rfl⟩ (.inl rfl)
    rw [hm_assoc] at this
    exact this
  | append i j =>
    refine Triple.pre ?_ (Ent.frame pool_length _)
    rw [sep_assoc]
    refine Triple.getFact fun hl => ?_
    unfold Op.hany
    dsimp only
    cases hi : p[i]? with
    | none =>
      rw [pool_none hl hi]
      refine Triple.ofPure (poolPostO_ok (Ent.refl _) hp hal ?_ (.inl rfl))
      simp only [Op.may, List.getElem?_map, hi, Option.map_none]
      exact ⟨trivial, trivial⟩
    | some M =>
      cases hj : p[j]? with
      | none =>
        rw [pool_none hl hj]
        obtain ⟨hm, F, e1, e2, e3⟩ := pool_split hl hi
        rw [e1]
        refine Triple.ofPure (poolPostO_ok (Ent.refl _) hp hal ?_ (.inl rfl))
        simp only [Op.may, List.getElem?_map, hi, hj, Option.map_none, Option.map_some]
        exact ⟨trivial, trivial⟩
      | some O =>
        obtain ⟨hm, F, e1, e2, e3⟩ := pool_split hl hi
        obtain ⟨ho, F', g1, g2, g3⟩ := pool_split hl hj
        rw [e1, g1]
        dsimp only
        by_cases hij : i = j
        · simp only [if_pos hij]
          refine Triple.ofPure (poolPostO_ok (Ent.refl _) hp hal ?_ (.inl rfl))
          simp only [Op.may, List.getElem?_map, hi, hj, if_pos hij, Option.map_some]
          exact ⟨trivial, trivial⟩
        · simp only [if_neg hij]
          have hj2 : (p.set i Map.new)[j]? = some O := by rw [List.getElem?_set_ne hij]; exact hj
          obtain ⟨ho2, F2, k1, k2, k3⟩ := pool_split (hs := hs.set i HMap.new) (ms := p.set i Map.new) (by simpa using hl) hj2
          rw [List.getElem?_set_ne hij, g1] at k1
          obtain rfl := Option.some.inj k1
          have eF : F = (rep ho O ∗ F2) := by
            have := e3 HMap.new Map.new
            rw [rep_new, emp_sep] at this
            rw [← this, k2]
          have hfin : ∀ hm' M' ho' O', pool ((hs.set i hm').set j ho') ((p.set i M').set j O') = (rep hm' M' ∗ rep ho' O' ∗ F2) := by
            intro hm' M' ho' O'
            have a1 : ((p.set i M').set j O')[i]? = some M' := by
              rw [List.getElem?_set_ne (Ne.symm hij), List.getElem?_set_self]
              exact (List.getElem?_eq_some_iff.1 hi).1
            obtain ⟨h5, F5, b1, b2, b3⟩ := pool_split (hs := (hs.set i hm').set j ho') (by simpa using hl) a1
            have b4 : h5 = hm' := by
              rw [List.getElem?_set_ne (Ne.symm hij), List.getElem?_set_self] at b1
              · exact (Option.some.inj b1).symm
              · exact (List.getElem?_eq_some_iff.1 e1).1
            subst b4
            have b5 := b3 HMap.new Map.new
            rw [rep_new, emp_sep] at b5
            rw [List.set_comm _ _ (Ne.symm hij), List.set_set, List.set_comm _ _ (Ne.symm hij), List.set_set, k3] at b5
            rw [b2, ← b5]
          rw [e2, eF]
          refine Triple.pre (P := (rep hm M ∗ rep ho O ∗ sched al) ∗ F2) ?_ (by ent_ac)
          refine Triple.seq ((appendO_spec (hp M (List.mem_of_getElem? hi)) (hp O (List.mem_of_getElem? hj)) hal hk (hE' rfl) hE).frame F2) fun r => ?_
          rw [hex_sep]
          refine Triple.ofHex fun x => ?_
          obtain ⟨M', O', al'⟩ := x
          rw [sep_assoc]
          refine Triple.getFact fun hx => ?_
          obtain ⟨x1, x2, x3, x4, x5⟩ := hx
          dsimp only at x1 x2 x3 x4 x5
          refine Triple.ofPure (poolPostO_ok (p := (p.set i M').set j O') (al := al') ?_ (BTree.WF.set (BTree.WF.set hp x2) x3) x1 ?_ (.inl rfl))
          · rw [hfin]
            ent_ac
          · simp only [Op.may, List.getElem?_map, hi, hj, if_neg hij, Option.map_some]
            exact ⟨M'.toList, x4, trivial, by rw [List.map_set, List.map_set, x5]⟩
  | splitOff i q =>
    refine Triple.pre ?_ (Ent.frame pool_length _)
    rw [sep_assoc]
    refine Triple.getFact fun hl => ?_
    unfold Op.hany
    dsimp only
    cases hi : p[i]? with
    | none =>
      rw [pool_none hl hi]
      refine Triple.ofPure (poolPostO_ok (Ent.refl _) hp hal ?_ (.inl rfl))
      simp only [Op.may, List.getElem?_map, hi, Option.map_none]
      exact ⟨trivial, trivial⟩
    | some M =>
      obtain ⟨hm, F, e1, e2, e3⟩ := pool_split hl hi
      have hM := hp M (List.mem_of_getElem? hi)
      rw [e1, e2]
      dsimp only
      refine Triple.pre (P := (rep hm M ∗ sched al) ∗ F) ?_ (by ent_ac)
      refine Triple.seq ((splitOffO_spec hM hal hf (hE' rfl)).frame F) fun r => ?_
      obtain ⟨r1, hm'⟩ := r
      unfold SplitPostO
      rw [hex_sep]
      refine Triple.ofHex fun y => ?_
      obtain ⟨⟨ML, MR⟩, al'⟩ := y
      simp only [sep_assoc]
      refine Triple.getFact fun hr => ?_
      cases r1 with
      | none =>
        dsimp only
        refine Triple.pre (P := fact (¬ mem ∧ ML.toList = M.toList) ∗ sched al' ∗ rep hm' ML ∗ F) ?_ (by ent_ac)
        refine Triple.getFact fun h2 => ?_
        refine Triple.ofPure (poolPostO_ok (p := p.set i ML) (al := al') ?_ (BTree.WF.set hp hr.2) hr.1 ?_ (.inl rfl))
        · rw [e3]; ent_ac
        · simp only [Op.may, List.getElem?_map, hi, Option.map_some]
          refine .inr ⟨h2.1, trivial, ?_⟩
          rw [List.map_set, h2.2]
          refine set_same ?_
          rw [List.getElem?_map, hi]; rfl
      | some right =>
        dsimp only
        refine Triple.pre (P := fact (MR.WF ∧ M.toList = ML.toList ++ MR.toList) ∗ sched al' ∗ rep hm' ML ∗ rep right MR ∗ F) ?_ (by ent_ac)
        refine Triple.getFact fun h2 => ?_
        refine Triple.ofPure (poolPostO_ok (p := p.set i ML ++ [MR]) (al := al') ?_ ?_ hr.1 ?_ (.inl rfl))
        · rw [pool_snoc (by simpa using hl), e3]; ent_ac
        · intro m hm
          rcases List.mem_append.1 hm with hm | hm
          · exact BTree.WF.set hp hr.2 m hm
          · obtain rfl := by simpa using hm
            exact h2.1
        · simp only [Op.may, List.getElem?_map, hi, Option.map_some]
          exact .inl ⟨ML.toList, MR.toList, h2.2, trivial, by simp [List.map_set]⟩
  | extend i items => exact onHMapU_spec hp i hal fun M hm hM => extendO_call hM hal hk hE
  | clone i =>
    refine Triple.pre ?_ (Ent.frame pool_length _)
    rw [sep_assoc]
    refine Triple.getFact fun hl => ?_
    unfold Op.hany
    dsimp only
    cases hi : p[i]? with
    | none =>
      rw [pool_none hl hi]
      refine Triple.ofPure (poolPostO_ok (Ent.refl _) hp hal ?_ (.inl rfl))
      simp only [Op.may, List.getElem?_map, hi, Option.map_none]
      exact ⟨trivial, trivial⟩
    | some M =>
      obtain ⟨hm, F, e1, e2, e3⟩ := pool_split hl hi
      have hM := hp M (List.mem_of_getElem? hi)
      rw [e1]
      dsimp only
      have hsh : M.shared = true → M.length = 0 := fun h => by
        have h2 := hM.shared h
        have h3 := hM.len
        simp [BTree.Map.toList, h2.1, h2.2, BTree.emptyLeaf] at h3
        exact h3
      obtain ⟨res, al', h1, h2, h3⟩ := BTree.Map.tryClone_wf (fun k a => (.ok k, a)) (fun v a => (.ok v, a)) hM al
      have hgood : al.Good → al'.Good ∧ ∃ c, res = .ok c := fun hg =>
        let h := h3 hg (fun x a hg => hg) (fun x a hg => hg)
        ⟨h.1, h.2 fun kv _ => ⟨fun a _ => ⟨_, a, rfl⟩, fun a _ => ⟨_, a, rfl⟩⟩⟩
      cases res with
      | error e =>
        have hx : M.clone id id al = .panic "Out of Mem" := by simp [BTree.Map.clone, h1]
        have hmem : ¬ mem := fun h => by
          obtain ⟨_, o, ho⟩ := hgood (hal h)
          simp at ho
        rw [e2]
        refine Triple.pre (P := (rep hm M ∗ sched al) ∗ F) ?_ (by ent_ac)
        refine Triple.seq ((clone_panic (Qb := fun _ => fact False) hsh hx ⟨_, h1⟩ (hE _ hmem)).frame F) fun _ => ?_
        exact Triple.getFact fun h => h.elim
      | ok C =>
        have hx : M.clone id id al = .ok (C, al') := by simp [BTree.Map.clone, h1]
        obtain ⟨g1, g2⟩ := h2 C rfl
        have he : C.toList = M.toList := by
          have : Spec.All2 (· = ·) M.toList C.toList := by
            refine Spec.All2.mono (fun x y hxy => ?_) g2
            obtain ⟨⟨_, _, g1⟩, ⟨_, _, g2⟩⟩ := hxy
            simp at g1 g2
            exact Prod.ext g1.1 g2.1
          exact (this.eq).symm
        rw [e2]
        refine Triple.pre (P := (rep hm M ∗ sched al) ∗ F) ?_ (by ent_ac)
        refine Triple.seq ((clone_ref hsh hx).frame F) fun r => ?_
        refine Triple.ofPure (poolPostO_ok (p := p ++ [C]) (al := al') ?_ ?_ (fun h => (hgood (hal h)).1) ?_ (.inl rfl))
        · rw [pool_snoc hl, e2]; ent_ac
        · intro m hm
          rcases List.mem_append.1 hm with hm | hm
          · exact hp m hm
          · obtain rfl := by simpa using hm
            exact g1
        · simp only [Op.may, List.getElem?_map, hi, Option.map_some]
          exact ⟨trivial, by simp [he]⟩
  | iterate i es =>
    refine onHMapU_spec hp i hal fun M hm hM => ?_
    obtain ⟨it, it', h1, h2⟩ := BTree.iterRun_wf hM es
    have := AnyPost.certain (b := false) (mem := mem) (R := fun o l' => o = some (Out.items (Spec.pops es M.toList).1) ∧ l' = M.toList)
      (readCall_ref (E := E) (hm := hm) (al := al) (b := false) (g := fun r => r) (fun ta => iterRun_ref h1 h2) (.inl rfl)) hM hal ⟨rfl, rfl⟩ (.inl rfl)
    rw [hm_assoc] at this
    exact this
  | range i lo hi es => exact onHMapU_spec hp i hal fun M hm hM => rangeRunO_call hM hal hf
  | iterMut i acts =>
    refine onHMapU_spec hp i hal fun M hm hM => ?_
    obtain ⟨it, h1, _⟩ := BTree.Map.iter_spec hM
    obtain ⟨i1, i2⟩ := BTree.MutInv.iter hM h1
    obtain ⟨M', refs, g1, g2, g3, g4⟩ := BTree.mutRun_spec BTree.Iter.stepOK acts i1 (by simpa using i2)
    have := AnyPost.certain (b := false) (mem := mem) (R := fun o l' => o = some (Out.items (Spec.Cursor.acts ⟨M.toList, 0, M.toList.length, []⟩ acts).1) ∧
        l' = (Spec.Cursor.acts ⟨M.toList, 0, M.toList.length, []⟩ acts).2.items)
      (Done.call (al := al) (b := false) (hm := hm) (Triple.ofRep fun ta => iterMutRun_ref h1 g1) (by simp) (E := E)) g2 hal ⟨rfl, g3⟩ (.inl rfl)
    rw [hm_assoc] at this
    exact this
  | rangeMut i lo hi acts => exact onHMapU_spec hp i hal fun M hm hM => rangeMutRunO_call hM hal hf
  | intoIter i es =>
    refine onHMapU_spec hp i hal fun M hm hM => ?_
    have key : ∀ {E : String → Prop}, Triple E (rep hm M) (hm.intoIterRun es) (fun r => fact (r = .items (Spec.pops es M.toList).1) ∗ rep HMap.new Map.new) := by
      intro E
      refine (intoIterRun_ref hM).post fun r => ?_
      rw [rep_new, sep_emp]
      exact Ent.refl _
    have := AnyPost.certain (b := false) (mem := mem) (R := fun o l' => o = some (Out.items (Spec.pops es M.toList).1) ∧ l' = [])
      (Done.call (al := al) (b := false) key (by simp) (E := E)) Map.WF_new hal ⟨rfl, rfl⟩ (.inl rfl)
    rw [hm_assoc] at this
    exact this
  | entryOrInsert i k v f => exact onHMapU_spec hp i hal fun M hm hM => entryOrInsertO_call hM hal hk
  | entryOrInsertWith i k v f => exact onHMapU_spec hp i hal fun M hm hM => entryOrInsertWithO_call hM hal hk
  | entryRemove i k => exact onHMapU_spec hp i hal fun M hm hM => entryRemoveO_call hM hal hk
  | entryModify i k f => exact onHMapU_spec hp i hal fun M hm hM => entryModifyO_call hM hal hk
  | entryKey i k => exact onHMapU_spec hp i hal fun M hm hM => entryKeyO_call hM hal hk
  | entryInsert i k v => exact onHMapU_spec hp i hal fun M hm hM => entryInsertO_call hM hal hk
  | tryClone i ck cv =>
    refine Triple.pre ?_ (Ent.frame pool_length _)
    rw [sep_assoc]
    refine Triple.getFact fun hl => ?_
    unfold Op.hany
    dsimp only
    cases hi : p[i]? with
    | none =>
      rw [pool_none hl hi]
      refine Triple.ofPure (poolPostO_ok (Ent.refl _) hp hal ?_ (.inl rfl))
      simp only [Op.may, List.getElem?_map, hi, Option.map_none]
      exact ⟨trivial, trivial⟩
    | some M =>
      obtain ⟨hm, F, e1, e2, e3⟩ := pool_split hl hi
      have hM := hp M (List.mem_of_getElem? hi)
      have hsh : M.shared = true → M.length = 0 := fun h => by
        have h2 := hM.shared h
        have h3 := hM.len
        simp [BTree.Map.toList, h2.1, h2.2, BTree.emptyLeaf] at h3
        exact h3
      obtain ⟨res, al', h1, h2, h3⟩ := BTree.Map.tryClone_wf (BTree.keyCloner ck) (BTree.valCloner cv) hM al
      have hgood := fun hg => h3 hg (fun x a hg => hg) (fun x a hg => hg)
      have hal' : mem → al'.Good := fun h => (hgood (hal h)).1
      rw [e1, e2]
      dsimp only
      refine Triple.pre (P := (rep hm M ∗ sched al) ∗ F) ?_ (by ent_ac)
      refine Triple.seq ((tryClone_ref hsh h1).frame F) fun r => ?_
      cases res with
      | error e =>
        rw [tryClonePost_error]
        refine Triple.pre (P := fact (r = .error e) ∗ sched al' ∗ rep hm M ∗ F) ?_ (by ent_ac)
        refine Triple.getFact fun hr => ?_
        subst hr
        refine Triple.ofPure (poolPostO_ok (p := p) (al := al') ?_ hp hal' ?_ (.inl rfl))
        · rw [e2]; ent_ac
        · simp only [Op.may, List.getElem?_map, hi, Option.map_some]
          cases hc : Spec.cloneList ck cv M.toList with
          | none => exact ⟨trivial, trivial⟩
          | some l' =>
            refine .inr ⟨fun h => ?_, trivial, trivial⟩
            obtain ⟨c, hc'⟩ := (hgood (hal h)).2 (cloneList_at' hc)
            cases hc'
      | ok C =>
        obtain ⟨g1, g2⟩ := h2 C rfl
        have hcl := cloneList_all' ck cv g2
        rw [tryClonePost_ok, sep_hex, hex_sep]
        refine Triple.ofHex fun hc => ?_
        refine Triple.pre (P := fact (r = .ok hc) ∗ sched al' ∗ rep hc C ∗ rep hm M ∗ F) ?_ (by ent_ac)
        refine Triple.getFact fun hr => ?_
        subst hr
        refine Triple.ofPure (poolPostO_ok (p := p ++ [C]) (al := al') ?_ ?_ hal' ?_ (.inl rfl))
        · rw [pool_snoc hl, e2]; ent_ac
        · intro m hm
          rcases List.mem_append.1 hm with hm | hm
          · exact hp m hm
          · obtain rfl := by simpa using hm
            exact g1
        · simp only [Op.may, List.getElem?_map, hi, Option.map_some]
          rw [hcl]
          exact .inl ⟨trivial, by simp⟩
  | views i acts => exact onHMapU_spec hp i hal fun M hm hM => viewsO_call hM hal hf hfs
  | replace i k v => exact onHMapU_spec hp i hal fun M hm hM => replaceO_call hM hal hk
  | take i q => exact onHMapU_spec hp i hal fun M hm hM => removeO_call hM hal hf

/-- What a program leaves behind. -/
def AnysPost (mem : Prop) (ops : List (Op K V Q × CallCmps K Q)) (s : List (List (K × V))) (r : List (Option (Out K V)) × Bool × List HMap) : HProp K V :=
  hex fun y : List (Map K V) × Alloc =>
    fact ((mem → y.2.Good) ∧
      (r.2.1 = true → (∀ m ∈ y.1, m.WF) ∧ Spec.Op.mays mem (ops.map fun x => (x.1, x.2.Return)) s r.1 (y.1.map Map.toList)) ∧
      (r.2.1 = false → ¬ mem ∧ ∃ op, (op, some .failed) ∈ (ops.map (·.1)).zip r.1 ∧ op.inserts = true)) ∗
    pool r.2.2 y.1 ∗ sched y.2 ∗ leak r.2.1

theorem hanys_spec {mem : Prop} (bor : K → Q) (hE : ∀ msg, ¬ mem → E msg) : ∀ (ops : List (Op K V Q × CallCmps K Q)) {hs : List HMap} {p : List (Map K V)}
    (_ : ∀ m ∈ p, m.WF) {al : Alloc} (_ : mem → al.Good) (_ : ∀ x ∈ ops, x.1.torn = true → ∀ msg, ¬ x.2.Return → E msg),
    Triple E (pool hs p ∗ sched al) (Op.hanys bor ops hs) (AnysPost mem ops (p.map Map.toList))
  | [], hs, p, hp, al, hal, hE' => by
    refine Triple.ofPure ?_
    refine Ent.hex_right (p, al) (Ent.fact_right ⟨hal, fun _ => ⟨hp, rfl, rfl⟩, by simp⟩ ?_)
    show Ent _ (pool hs p ∗ sched al ∗ emp)
    rw [sep_emp]
    exact Ent.refl _
  | (op, c) :: ops, hs, p, hp, al, hal, hE' => by
    unfold Op.hanys
    refine Triple.seq (hany_spec (ret := c.Return) bor hp hal op id hE (hE' (op, c) (by simp))) fun r => ?_
    obtain ⟨o, hs'⟩ := r
    unfold PoolPostO
    refine Triple.ofHex fun y => ?_
    obtain ⟨p', al'⟩ := y
    dsimp only
    refine Triple.getFact fun hx => ?_
    by_cases hsp : o.any (Op.spoils op) = true
    · rw [if_pos hsp]
      refine Triple.ofPure ?_
      obtain ⟨o', rfl, hsp⟩ : ∃ o', o = some o' ∧ Op.spoils op o' = true := by
        cases o with
        | none => simp at hsp
        | some o => exact ⟨o, rfl, by simpa using hsp⟩
      obtain ⟨hi, rfl⟩ := spoils_iff.1 hsp
      have hmem : ¬ mem := by
        rcases hx.2 with h | ⟨_, h⟩
        · exact h.2.2
        · exact hany_failed hi h
      refine Ent.hex_right (p', al') ?_
      refine Ent.fact_right ⟨hx.1, by simp, fun _ => ⟨hmem, op, by simp, hi⟩⟩ ?_
      exact Ent.sep (Ent.refl _) (Ent.sep (Ent.refl _) fun _ _ => trivial)
    · rw [if_neg hsp]
      have hk : spillO op.inserts o = (emp : HProp K V) := by
        cases o with
        | none => rfl
        | some o => exact spill_keep (by simpa using hsp)
      rw [hk, sep_emp]
      have hp' : (∀ m ∈ p', m.WF) ∧ op.may mem c.Return (p.map Map.toList) o (p'.map Map.toList) := by
        rcases hx.2 with ⟨h1, rfl, _⟩ | h
        · exact absurd (spoils_iff.2 ⟨h1, rfl⟩) (by simpa using hsp)
        · exact h
      refine Triple.seq (hanys_spec bor hE ops hp'.1 hx.1 fun x hx => hE' x (by simp [hx])) fun rs => ?_
      unfold AnysPost
      refine Triple.ofHex fun y => ?_
      obtain ⟨p2, al2⟩ := y
      dsimp only
      refine Triple.getFact fun hy => ?_
      refine Triple.ofPure ?_
      refine Ent.hex_right (p2, al2) ?_
      obtain ⟨h1, h2, h3⟩ := hy
      refine Ent.fact_right ⟨h1, fun hb => ⟨(h2 hb).1, o, p'.map Map.toList, rs.1, hp'.2, (h2 hb).2, rfl⟩,
        fun hb => let ⟨h3, o', h4, h5⟩ := h3 hb; ⟨h3, o', by simp [h4], h5⟩⟩ ?_
      exact Ent.refl _

end Verif.Heap
