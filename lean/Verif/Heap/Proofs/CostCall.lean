import Verif.Heap.Proofs.CostPool
import Verif.Heap.Proofs.UnwindAppend
/-
How much of the sequences of comparisons one call of the API looks at.
-/
namespace Verif.Heap
open Verif
open Verif.BTree (Map)
open Verif.Spec (Bound End MutAct Op Out ViewAct lookCost boundsCost lenAt)

variable {K V Q ρ σ : Type}

/-- The first `n` comparisons of each sequence are the same. -/
def CallCmps.Agree (n : Nat) (c c' : CallCmps K Q) : Prop :=
  Cmps.Agree n c.key c'.key ∧ Cmps.Agree n c.form c'.form ∧ ∀ j, Cmps.Agree n (c.forms j) (c'.forms j)

theorem SameFrom.then {P : HProp K V} {f f' : HM K V σ} {k : σ → HM K V ρ} (h : SameFrom P f f') : SameFrom P (f >>= k) (f' >>= k) := by
  intro R s hg hw
  show HM.bind f k s = HM.bind f' k s
  unfold HM.bind
  rw [h R s hg hw]

theorem SameFrom.of_eq {P : HProp K V} {f f' : HM K V σ} (h : f = f') : SameFrom P f f' := h ▸ SameFrom.rfl'

theorem onHMapU_same {hs : List HMap} {p : List (Map K V)} (hp : ∀ m ∈ p, m.WF) (i : Nat) {al : Alloc} {f f' : HMap → HM K V (Option (Out K V) × HMap)}
    (h : ∀ M hm, M.WF → hm.root.height = M.height → M.toList.length = lenAt (hs.map HMap.length) i → SameFrom (rep hm M ∗ sched al) (f hm) (f' hm)) :
    SameFrom (pool hs p ∗ sched al) (onHMapU hs i f) (onHMapU hs i f') := by
  refine SameFrom.pre ?_ (Ent.frame pool_length _)
  rw [sep_assoc]
  refine SameFrom.getFact fun hl => ?_
  unfold onHMapU
  cases hi : p[i]? with
  | none =>
    rw [pool_none hl hi]
    exact SameFrom.rfl'
  | some M =>
    obtain ⟨hm, F, e1, e2, e3⟩ := pool_split hl hi
    have hM := hp M (List.mem_of_getElem? hi)
    rw [e1, e2]
    dsimp only
    refine SameFrom.then ?_
    refine SameFrom.pre (P' := fact (hm.length = M.length) ∗ (fact (hm.root.height = M.height) ∗ (rep hm M ∗ sched al) ∗ F)) ?_ ?_
    rotate_left
    · rw [sep_assoc]
      refine Ent.trans (Ent.frame rep_length _) ?_
      rw [sep_assoc]
      refine Ent.sep (Ent.refl _) ?_
      refine Ent.trans (Ent.frame rep_height _) ?_
      ent_ac
    refine SameFrom.getFact fun h1 => SameFrom.getFact fun h2 => ?_
    intro R s hg hw
    rw [sep_assoc] at hw
    refine h M hm hM h2 ?_ (F ∗ R) s hg hw
    unfold lenAt
    rw [List.getElem?_map, e1]
    exact (h1.trans hM.len).symm

theorem look_same {M : Map K V} {hm : HMap} {n : Nat} (hM : M.WF) (hh : hm.root.height = M.height) (hn : M.toList.length = n) {P : HProp K V} {f : Cmps Q → HM K V σ}
    (hu : Uses GConst (11 * (hm.root.height + 1)) f) {c c' : Cmps Q} (ha : Cmps.Agree (lookCost n) c c') : SameFrom P (f c) (f c') := by
  refine SameFrom.of_eq (hu.same (ha.mono ?_))
  rw [hh, ← hn]
  exact height_cost hM

theorem bounds_same {M : Map K V} {hm : HMap} {n : Nat} (hM : M.WF) (hh : hm.root.height = M.height) (hn : M.toList.length = n) :
    22 * (hm.root.height + 1) + 2 ≤ boundsCost n := by
  have := height_cost hM
  rw [hn] at this
  unfold boundsCost
  omega

/-- **One call.** -/
theorem hany_same (bor : K → Q) {hs : List HMap} {p : List (Map K V)} (hp : ∀ m ∈ p, m.WF) {al : Alloc} (op : Op K V Q) {c c' : CallCmps K Q}
    (ha : c.Agree (op.cost (hs.map HMap.length)) c') : SameFrom (pool hs p ∗ sched al) (Op.hany bor hs op c) (Op.hany bor hs op c') := by
  obtain ⟨hk, hf, hfs⟩ := ha
  cases op with
  | insert i k v =>
    refine onHMapU_same hp i fun M hm hM hh hn => look_same (f := fun c => hm.tryInsertO k v c >>= _) hM hh hn ?_ hk
    refine Uses.seq (n' := 0) (tryInsertO_uses hm k v) fun g hg => ?_
    rcases hg with ⟨m', rfl⟩ | ⟨e, m', rfl⟩
    · exact Uses.const _
    · cases e <;> exact Uses.const _
  | remove i q => exact onHMapU_same hp i fun M hm hM hh hn => (look_same hM hh hn (removeEntryO_uses hm bor q) hf).then
  | get i q => exact onHMapU_same hp i fun M hm hM hh hn => (look_same hM hh hn (getKeyValueO_uses hm bor q) hf).then
  | getKeyValue i q => exact onHMapU_same hp i fun M hm hM hh hn => (look_same hM hh hn (getKeyValueO_uses hm bor q) hf).then
  | containsKey i q => exact onHMapU_same hp i fun M hm hM hh hn => (look_same hM hh hn (getKeyValueO_uses hm bor q) hf).then
  | update i q f => exact onHMapU_same hp i fun M hm hM hh hn => (look_same hM hh hn (updateValO_uses hm bor q f) hf).then
  | replace i k v => exact onHMapU_same hp i fun M hm hM hh hn => (look_same hM hh hn (replaceKeyO_uses hm k v) hk).then
  | take i q => exact onHMapU_same hp i fun M hm hM hh hn => (look_same hM hh hn (removeEntryO_uses hm bor q) hf).then
  | entryOrInsert i k v f => exact onHMapU_same hp i fun M hm hM hh hn => look_same hM hh hn (withEntryO_uses hm k _) hk
  | entryOrInsertWith i k v f => exact onHMapU_same hp i fun M hm hM hh hn => look_same hM hh hn (withEntryO_uses hm k _) hk
  | entryRemove i k => exact onHMapU_same hp i fun M hm hM hh hn => look_same hM hh hn (withEntryO_uses hm k _) hk
  | entryModify i k f => exact onHMapU_same hp i fun M hm hM hh hn => look_same hM hh hn (withEntryO_uses hm k _) hk
  | entryKey i k => exact onHMapU_same hp i fun M hm hM hh hn => look_same hM hh hn (withEntryO_uses hm k _) hk
  | entryInsert i k v => exact onHMapU_same hp i fun M hm hM hh hn => look_same hM hh hn (withEntryO_uses hm k _) hk
  | range i lo hi es => exact onHMapU_same hp i fun M hm hM hh hn => (SameFrom.of_eq ((rangeRunO_uses hm bor lo hi es).same (hf.mono (bounds_same hM hh hn)))).then
  | rangeMut i lo hi acts => exact onHMapU_same hp i fun M hm hM hh hn => (SameFrom.of_eq ((rangeMutRunO_uses hm bor lo hi acts).same (hf.mono (bounds_same hM hh hn)))).then
  | views i acts => exact onHMapU_same hp i fun M hm hM hh hn => (SameFrom.of_eq (hrunsO_same hm bor (bounds_same hM hh hn) acts [] hf hfs)).then
  | extend i items => exact onHMapU_same hp i fun M hm hM hh hn => (extendO_same items hM (by rw [hn]; exact hk)).then
  | append i j =>
    refine SameFrom.pre ?_ (Ent.frame pool_length _)
    rw [sep_assoc]
    refine SameFrom.getFact fun hl => ?_
    unfold Op.hany
    dsimp only
    cases hi : p[i]? with
    | none =>
      rw [pool_none hl hi]
      exact SameFrom.rfl'
    | some M =>
      cases hj : p[j]? with
      | none =>
        rw [pool_none hl hj]
        obtain ⟨hm, F, e1, e2, e3⟩ := pool_split hl hi
        rw [e1]
        exact SameFrom.rfl'
      | some O =>
        obtain ⟨hm, _, e1, _, _⟩ := pool_split hl hi
        obtain ⟨ho, _, g1, _, _⟩ := pool_split hl hj
        rw [e1, g1]
        dsimp only
        by_cases hij : i = j
        · simp only [if_pos hij]
          exact SameFrom.rfl'
        · simp only [if_neg hij]
          refine SameFrom.then ?_
          obtain ⟨F, e, _⟩ := pool_two hl hi hj e1 g1 hij
          have hM := hp M (List.mem_of_getElem? hi)
          have hO := hp O (List.mem_of_getElem? hj)
          rw [e]
          refine SameFrom.pre (P' := fact (hm.length = M.length) ∗ (fact (ho.length = O.length) ∗ (rep hm M ∗ rep ho O ∗ sched al) ∗ F)) ?_ ?_
          rotate_left
          · refine Ent.trans (Ent.frame (Ent.sep rep_length (Ent.frame rep_length _)) _) ?_
            ent_ac
          refine SameFrom.getFact fun h1 => SameFrom.getFact fun h2 => ?_
          intro R s hg hw
          rw [sep_assoc] at hw
          refine appendO_same hM hO (hk.mono ?_) (F ∗ R) s hg hw
          simp only [Op.cost, lenAt, List.getElem?_map, e1, g1, Option.map_some, Option.getD_some, h1, h2, hM.len, hO.len]
          exact Nat.le_refl _
  | splitOff i q =>
    refine SameFrom.pre ?_ (Ent.frame pool_length _)
    rw [sep_assoc]
    refine SameFrom.getFact fun hl => ?_
    unfold Op.hany
    dsimp only
    cases hi : p[i]? with
    | none =>
      rw [pool_none hl hi]
      exact SameFrom.rfl'
    | some M =>
      obtain ⟨hm, F, e1, e2, e3⟩ := pool_split hl hi
      have hM := hp M (List.mem_of_getElem? hi)
      rw [e1, e2]
      dsimp only
      refine SameFrom.then ?_
      refine SameFrom.pre (P' := fact (hm.length = M.length) ∗ (fact (hm.root.height = M.height) ∗ (rep hm M ∗ sched al) ∗ F)) ?_ ?_
      rotate_left
      · rw [sep_assoc]
        refine Ent.trans (Ent.frame rep_length _) ?_
        rw [sep_assoc]
        refine Ent.sep (Ent.refl _) ?_
        refine Ent.trans (Ent.frame rep_height _) ?_
        ent_ac
      refine SameFrom.getFact fun h1 => SameFrom.getFact fun h2 => ?_
      refine look_same hM h2 rfl (splitOffO_uses hm bor q) (hf.mono ?_)
      simp only [Op.cost, lenAt, List.getElem?_map, e1, Option.map_some, Option.getD_some, h1, hM.len]
      exact Nat.le_refl _
  | new => exact SameFrom.rfl'
  | len i => exact SameFrom.rfl'
  | isEmpty i => exact SameFrom.rfl'
  | clear i => exact SameFrom.rfl'
  | clone i => exact SameFrom.rfl'
  | iterate i es => exact SameFrom.rfl'
  | iterMut i acts => exact SameFrom.rfl'
  | intoIter i es => exact SameFrom.rfl'
  | tryClone i ck cv => exact SameFrom.rfl'

end Verif.Heap
