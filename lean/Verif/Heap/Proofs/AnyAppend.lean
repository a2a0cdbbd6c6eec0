import Verif.Heap.Proofs.AnyCalls
import Verif.Heap.Proofs.AppendMap
/-
`append`, whatever the comparisons: it merges the two maps in some way.
-/
namespace Verif.Heap
open Verif
open Verif.BTree (B MIN_LEN CAPACITY Tree Handle Map emptyLeaf emptySpine toList Below)
open Verif.Spec (Out Merged)

variable {K V Q α β : Type} {E : String → Prop}

/-- One step of the merge. -/
def MergeStep (l r : List (K × V)) (o : Option (K × V)) (l' r' : List (K × V)) : Prop :=
  match o with
  | none => l = [] ∧ r = [] ∧ l' = [] ∧ r' = []
  | some kv => (∀ out, Merged l' r' out → Merged l r (kv :: out)) ∧ l'.length + r'.length < l.length + r.length

theorem mergeNextO_spec {m : HMerge K V} {l r : List (K × V)} {c : Cmps K} {ret : Prop} (hret : ret → c.Return) (hE : ∀ msg, ¬ ret → E msg) :
    Triple E (peeking m.left l ∗ peeking m.right r) (m.nextO c)
      (fun o => hex fun x : List (K × V) × List (K × V) =>
        fact ((ret → o.2.Return) ∧ MergeStep l r o.1.1 x.1 x.2) ∗ peeking o.1.2.left x.1 ∗ peeking o.1.2.right x.2) := by
  unfold HMerge.nextO
  refine Triple.call (P₀ := peeking m.left l) peek_spec fun a => ?_
  rw [sep_assoc]
  refine Triple.getFact fun ha => ?_
  refine Triple.call (P₀ := peeking m.right r) peek_spec fun b => ?_
  rw [sep_assoc]
  refine Triple.getFact fun hb => ?_
  rw [ha, hb]
  cases l with
  | nil =>
    cases r with
    | nil =>
      refine Triple.ofPure (Ent.hex_right ([], []) ?_)
      refine Ent.fact_right ⟨hret, rfl, rfl, rfl, rfl⟩ ?_
      ent_ac
    | cons y r =>
      dsimp only [List.head?]
      refine Triple.call (P₀ := peeking b.2 (y :: r)) peekNext_spec fun o => ?_
      rw [sep_assoc]
      refine Triple.getFact fun ho => ?_
      refine Triple.ofPure (Ent.hex_right ([], r) ?_)
      refine Ent.fact_right ⟨hret, ?_⟩ ?_
      · dsimp only
        rw [ho]
        refine ⟨fun out h => ?_, by simp⟩
        cases h with
        | nilL => exact .nilL
        | nilR => exact .nilL
      dsimp only [List.tail]
      ent_ac
  | cons x l =>
    cases r with
    | nil =>
      dsimp only [List.head?]
      refine Triple.call (P₀ := peeking a.2 (x :: l)) peekNext_spec fun o => ?_
      rw [sep_assoc]
      refine Triple.getFact fun ho => ?_
      refine Triple.ofPure (Ent.hex_right (l, []) ?_)
      refine Ent.fact_right ⟨hret, ?_⟩ ?_
      · dsimp only
        rw [ho]
        refine ⟨fun out h => ?_, by simp⟩
        cases h with
        | nilL => exact .nilR
        | nilR => exact .nilR
      dsimp only [List.tail]
      ent_ac
    | cons y r =>
      dsimp only [List.head?]
      cases hc : c 0 x.1 y.1 with
      | none =>
        refine Triple.ofPanic (hE _ fun h => ?_)
        have := hret h 0 x.1 y.1
        rw [hc] at this
        cases this
      | some w =>
        cases w with
        | lt =>
          dsimp only
          refine Triple.call (P₀ := peeking a.2 (x :: l)) peekNext_spec fun o => ?_
          rw [sep_assoc]
          refine Triple.getFact fun ho => ?_
          refine Triple.ofPure (Ent.hex_right (l, y :: r) ?_)
          refine Ent.fact_right ⟨fun h => (hret h).rest, ?_⟩ ?_
          · dsimp only
            rw [ho]
            exact ⟨fun out h => .left h, by simp⟩
          dsimp only [List.tail]
          ent_ac
        | gt =>
          dsimp only
          refine Triple.call (P₀ := peeking b.2 (y :: r)) peekNext_spec fun o => ?_
          rw [sep_assoc]
          refine Triple.getFact fun ho => ?_
          refine Triple.ofPure (Ent.hex_right (x :: l, r) ?_)
          refine Ent.fact_right ⟨fun h => (hret h).rest, ?_⟩ ?_
          · dsimp only
            rw [ho]
            exact ⟨fun out h => .right h, by simp⟩
          dsimp only [List.tail]
          ent_ac
        | eq =>
          dsimp only
          refine Triple.call (P₀ := peeking a.2 (x :: l)) peekNext_spec fun o => ?_
          rw [sep_assoc]
          refine Triple.getFact fun ho => ?_
          refine Triple.call (P₀ := peeking b.2 (y :: r)) peekNext_spec fun o' => ?_
          rw [sep_assoc]
          refine Triple.getFact fun ho' => ?_
          refine Triple.ofPure (Ent.hex_right (l, r) ?_)
          refine Ent.fact_right ⟨fun h => (hret h).rest, ?_⟩ ?_
          · dsimp only
            rw [ho']
            exact ⟨fun out h => .both h, by simp; omega⟩
          dsimp only [List.tail]
          ent_ac

theorem buildLoopO_spec {mem ret : Prop} (hE : ∀ msg, ¬ ret → E msg) (hE' : ∀ msg, ¬ mem → E msg) :
    ∀ (fuel : Nat) {l r : List (K × V)} {m : HMerge K V} {root cur : NRef} {H : Nat} {T : Tree K V} {len : Nat} {al : Alloc} {c : Cmps K},
    l.length + r.length < fuel → BTree.Build H T → T.len ≤ 11 → (0 < H → 1 ≤ T.len) → (mem → al.Good) → (ret → c.Return) →
    Triple E (peeking m.left l ∗ peeking m.right r ∗ built root cur H T ∗ sched al) (loopN buildStepO fuel (⟨m, root, cur, len⟩, c))
      (fun o => hex fun x : ((Nat × Tree K V) × Alloc) × Building K V =>
        fact ((∃ out, Merged l r out ∧ BTree.fromSortedLoop (H, T) out al = .ok x.1 ∧ x.2.length = len + out.length) ∧ o = .inr x.2) ∗
        peeking x.2.iter.left [] ∗ peeking x.2.iter.right [] ∗ built x.2.root x.2.cur x.1.1.1 x.1.1.2 ∗ sched x.1.2)
  | 0, _, _, _, _, _, _, _, _, _, _, hf, _, _, _, _, _ => by simp at hf
  | fuel + 1, l, r, m, root, cur, H, T, len, al, c, hf, hb, hl, h1, hal, hret => by
    rw [loopN_succ]
    unfold buildStepO
    refine Triple.assoc ?_
    dsimp only
    refine Triple.call (P₀ := peeking m.left l ∗ peeking m.right r) (mergeNextO_spec hret hE) fun o => ?_
    rw [hex_sep]
    refine Triple.ofHex fun lr => ?_
    obtain ⟨l', r'⟩ := lr
    dsimp only
    simp only [sep_assoc]
    refine Triple.getFact fun hff => ?_
    obtain ⟨g0, g1⟩ := hff
    obtain ⟨⟨o, m'⟩, c'⟩ := o
    dsimp only at g0 g1 ⊢
    cases o with
    | none =>
      obtain ⟨rfl, rfl, rfl, rfl⟩ := g1
      show Triple E _ (pure _) _
      refine Triple.ofPure (Ent.hex_right (((H, T), al), ⟨m', root, cur, len⟩) ?_)
      refine Ent.fact_right ⟨⟨[], .nilL, rfl, rfl⟩, rfl⟩ ?_
      dsimp only
      ent_ac
    | some kv =>
      obtain ⟨g1, g2⟩ := g1
      dsimp only
      refine Triple.assoc ?_
      have hspec := BTree.fromSortedLoop_spec [kv] hb hl h1 al
      refine Triple.call (P₀ := built root cur H T ∗ sched al) (sortedPush_ref hb hl fun msg hm => hE' msg fun h => ?_) fun cc => ?_
      · rcases hspec with ⟨_, h'⟩ | ⟨h', t', a', q1, _⟩
        · exact h' (hal h)
        · unfold pushRound at hm
          rw [hm] at q1
          cases q1
      rw [hex_sep]
      refine Triple.ofHex fun x => ?_
      obtain ⟨⟨H', T'⟩, al'⟩ := x
      dsimp only
      simp only [sep_assoc]
      refine Triple.getFact fun hp => ?_
      unfold pushRound at hp
      rw [hp] at hspec
      rcases hspec with ⟨h, _⟩ | ⟨h', t', a', q1, q2, q3, q4, q5, q6⟩
      · cases h
      simp only [Exec.ok.injEq, Prod.mk.injEq] at q1
      obtain ⟨⟨rfl, rfl⟩, rfl⟩ := q1
      show Triple E _ (loopN buildStepO fuel (⟨m', cc.2, cc.1, len + 1⟩, c')) _
      refine Triple.pre (P := peeking m'.left l' ∗ peeking m'.right r' ∗ built cc.2 cc.1 H' T' ∗ sched al') ?_ (by ent_ac)
      refine (buildLoopO_spec hE hE' fuel (len := len + 1) (by omega) q3 q4 q5 (fun h => q2 (hal h)) g0).post fun o2 => ?_
      intro w hw0
      obtain ⟨y, hw⟩ := hw0
      obtain ⟨⟨⟨out, k0, k1, k3⟩, k2⟩, hw⟩ := fact_sep.1 hw
      refine ⟨y, fact_sep.2 ⟨⟨⟨kv :: out, g1 _ k0, ?_, ?_⟩, k2⟩, hw⟩⟩
      · rw [fromSortedLoop_cons]
        unfold pushRound
        rw [hp]
        exact k1
      · rw [k3, List.length_cons]; omega

/-- `from_sorted_iter` on a new map, then `fix_right_edge`. -/
theorem fromSortedO_spec {m : HMerge K V} {l r : List (K × V)} {al : Alloc} {bnd : Nat} {mem ret : Prop} {c : Cmps K} (hbnd : l.length + r.length ≤ bnd)
    (hal : mem → al.Good) (hret : ret → c.Return) (hE : ∀ msg, ¬ ret → E msg) (hE' : ∀ msg, ¬ mem → E msg) :
    Triple E (peeking m.left l ∗ peeking m.right r ∗ sched al)
      (HMap.new.fromSortedIterO m bnd c >>= fun n => (fixRightEdge n.root.height n.root.node >>= fun _ => (pure (n, HMap.new) : HM K V _)))
      (fun o => hex fun x : Map K V × Alloc => fact (((mem → x.2.Good) ∧ x.1.WF ∧ Merged l r x.1.toList) ∧ o.2 = HMap.new) ∗ rep o.1 x.1 ∗ sched x.2) := by
  unfold HMap.fromSortedIterO HMap.ensureRootIsOwned
  rw [show HMap.new.root.node = SHARED from rfl, if_pos rfl]
  refine Triple.assoc ?_
  refine Triple.assoc ?_
  refine Triple.call (P₀ := sched al) newLeaf_spec fun o => ?_
  cases o with
  | none =>
    dsimp only
    simp only [sep_assoc]
    refine Triple.getFact fun hno => ?_
    refine Triple.bindPure (a := none) ?_
    refine Triple.seq (Q := fun _ => fact False) (Triple.ofPanic (hE' _ fun h => ?_)) fun _ => Triple.ofFalse
    rw [(hal h).head] at hno
    cases hno
  | some rt =>
    dsimp only
    simp only [sep_assoc]
    refine Triple.getFact fun hyes => ?_
    refine Triple.bindPure (a := some (⟨rt, 0⟩ : HMap)) ?_
    dsimp only
    refine Triple.pre (P := rooted rt 0 (emptySpine 0 : Tree K V) ∗ sched al.request.2 ∗ peeking m.left l ∗ peeking m.right r) ?_ (by ent_ac)
    refine rooted_elim fun ta pi he hr => ?_
    subst hr
    refine Triple.assoc ?_
    refine Triple.call (P₀ := tree (none, pi) 0 ta) lastLeafEdge_last fun e => ?_
    simp only [sep_assoc]
    refine Triple.getFact fun hel => ?_
    rw [hel]
    refine Triple.pre (P := peeking m.left l ∗ peeking m.right r ∗ built ⟨0, ta.addr⟩ ⟨0, (lastLeaf 0 ta).addr⟩ 0 (emptyLeaf : Tree K V) ∗ sched al.request.2) ?_ ?_
    rotate_left
    · unfold built
      simp only [hex_sep, sep_hex]
      refine Ent.hex_right (ta, pi) ?_
      simp only [sep_assoc]
      refine Ent.putFact ⟨he, trivial, trivial⟩ ?_
      ent_ac
    have hb : BTree.Build 0 (emptyLeaf : Tree K V) := .leaf []
    refine Triple.assoc ?_
    refine Triple.call (P₀ := peeking m.left l ∗ peeking m.right r ∗ built ⟨0, ta.addr⟩ ⟨0, (lastLeaf 0 ta).addr⟩ 0 (emptyLeaf : Tree K V) ∗ sched al.request.2)
      (buildLoopO_spec hE hE' (bnd + 1) (len := 0) (by omega) hb (by simp [emptyLeaf]) (by simp) (fun h => (hal h).tail) hret) fun o => ?_
    simp only [hex_sep]
    refine Triple.ofHex fun x => ?_
    obtain ⟨⟨⟨H, T⟩, al'⟩, s⟩ := x
    dsimp only
    simp only [sep_assoc]
    refine Triple.getFact fun hf => ?_
    obtain ⟨⟨out, k0, k1, k3⟩, rfl⟩ := hf
    refine Triple.assoc ?_
    refine Triple.bindPure (a := s) ?_
    refine Triple.assoc ?_
    refine Triple.call (P₀ := peeking s.iter.left []) peekDrop_spec fun _ => ?_
    refine Triple.getFact fun _ => ?_
    refine Triple.assoc ?_
    refine Triple.call (P₀ := peeking s.iter.right []) peekDrop_spec fun _ => ?_
    refine Triple.getFact fun _ => ?_
    refine Triple.bindPure (a := (⟨s.root, s.length⟩ : HMap)) ?_
    dsimp only
    refine built_elim fun tb pj he' hr' _ => ?_
    rcases BTree.fromSortedLoop_spec out hb (by simp [emptyLeaf]) (by simp) al.request.2 with ⟨g1, _⟩ | ⟨h', t', a', g1, g2, g3, g4, g5, g6⟩
    · rw [k1] at g1; cases g1
    rw [k1] at g1
    simp only [Exec.ok.injEq, Prod.mk.injEq] at g1
    obtain ⟨⟨rfl, rfl⟩, rfl⟩ := g1
    obtain ⟨t2, q1, q2, q3, q4⟩ := BTree.fixRightEdge_spec g3 g5
    have hout : toList H t2 = out := by rw [q2, g6]; rfl
    rw [hr']
    have q1' := q1
    rw [← he'] at q1'
    refine Triple.call (P₀ := tree (none, pj) H tb) (fixRightEdge_ref q1') fun _ => ?_
    refine Triple.ofPure (Ent.hex_right (⟨H, t2, false, out.length⟩, al') ?_)
    refine Ent.fact_right ⟨⟨fun h => g2 (hal h).tail, ⟨⟨by dsimp only; omega, fun h => by have := g5 h; dsimp only at h ⊢; omega, q3⟩, ?_, by simp, by simp⟩, ?_⟩, rfl⟩ ?_
    · show out.length = (toList H t2).length + 0
      rw [hout]; rfl
    · show Merged l r (toList H t2)
      rw [hout]; exact k0
    · dsimp only
      rw [own_rooted rfl, sep_assoc]
      refine Ent.putFact (by simpa using k3) ?_
      simp only [sep_emp]
      exact Ent.frame rooted_holds _

theorem appendO_spec {hm ho : HMap} {M O : Map K V} {al : Alloc} {mem ret : Prop} {c : Cmps K} (hM : M.WF) (hO : O.WF) (hal : mem → al.Good)
    (hret : ret → c.Return) (hE : ∀ msg, ¬ ret → E msg) (hE' : ∀ msg, ¬ mem → E msg) :
    Triple E (rep hm M ∗ rep ho O ∗ sched al) (hm.appendO ho c)
      (fun o => hex fun x : Map K V × Map K V × Alloc =>
        fact ((mem → x.2.2.Good) ∧ x.1.WF ∧ x.2.1.WF ∧ Merged M.toList O.toList x.1.toList ∧ x.2.1.toList = []) ∗ rep o.1 x.1 ∗ rep o.2 x.2.1 ∗ sched x.2.2) := by
  refine Triple.pre ?_ (Ent.frame rep_length _)
  rw [sep_assoc]
  refine Triple.getFact fun hl => ?_
  refine Triple.pre (P := fact (ho.length = O.length) ∗ rep hm M ∗ rep ho O ∗ sched al) ?_ ?_
  rotate_left
  · refine Ent.trans (Ent.sep (Ent.refl _) (Ent.frame rep_length _)) ?_
    ent_ac
  refine Triple.getFact fun hol => ?_
  unfold HMap.appendO
  rw [hl, hol]
  have none_len : ∀ {m : Map K V}, m.WF → m.length = 0 → m.toList = [] := fun hm h0 => by
    have := hm.len
    exact List.eq_nil_of_length_eq_zero (by omega)
  by_cases h1 : O.length = 0
  · simp only [h1, if_true]
    refine Triple.ofPure (Ent.hex_right (M, O, al) (Ent.fact_right ⟨hal, hM, hO, ?_, none_len hO h1⟩ (by dsimp only; ent_ac)))
    rw [none_len hO h1]
    exact .nilR
  by_cases h2 : M.length = 0
  · simp only [h1, h2, if_true, if_false]
    refine Triple.ofPure (Ent.hex_right (O, M, al) (Ent.fact_right ⟨hal, hO, hM, ?_, none_len hM h2⟩ (by dsimp only; ent_ac)))
    rw [none_len hM h2]
    exact .nilL
  simp only [h1, h2, if_false]
  refine Triple.call (P₀ := rep hm M) (intoIter_spec hM.len) fun li => ?_
  simp only [sep_assoc]
  refine Triple.getFact fun hh1 => ?_
  refine Triple.call (P₀ := rep ho O) (intoIter_spec hO.len) fun ri => ?_
  simp only [sep_assoc]
  refine Triple.getFact fun hh2 => ?_
  rw [hh1, hh2]
  refine Triple.pre (P := (peeking (⟨li, M.height, none⟩ : Peek K V) M.toList ∗ peeking (⟨ri, O.height, none⟩ : Peek K V) O.toList ∗ sched al)) ?_ (by
    rw [peeking_none, peeking_none]; unfold Map.toList; ent_ac)
  refine (fromSortedO_spec (E := E) (m := ⟨⟨li, M.height, none⟩, ⟨ri, O.height, none⟩⟩) (by rw [hM.len, hO.len]; exact Nat.le_refl _) hal hret hE hE').post fun o => ?_
  intro w hw0
  obtain ⟨x, hw⟩ := hw0
  obtain ⟨⟨⟨k1, k2, k3⟩, k4⟩, hw⟩ := fact_sep.1 hw
  refine ⟨(x.1, Map.new, x.2), fact_sep.2 ⟨⟨k1, k2, Map.WF_new, k3, rfl⟩, ?_⟩⟩
  rw [k4, rep_new, emp_sep]; exact hw

end Verif.Heap
