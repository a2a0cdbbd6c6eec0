import Verif.Heap.Proofs.IterMap
/-
Programs that iterate, in memory: whole runs of `iter`, `range`, `iter_mut`, `range_mut`.
-/
namespace Verif.Heap
open Verif
open Verif.BTree (B MIN_LEN CAPACITY Tree Handle Map emptyLeaf Iter Range)
open Verif.Spec (Bound End MutAct)

variable {K V Q α β : Type} {E : String → Prop}

theorem iter_step_split {m : Map K V} {e : End} {it it' : Iter} {x : Option (K × V)} (h : it.step m e = .ok (x, it')) :
    ∃ hd, it.stepH m e = .ok (hd, it') ∧ m.readOpt hd = .ok x := by
  cases e <;>
  · simp only [Iter.step, Iter.next, Iter.nextBack] at h
    obtain ⟨⟨hd, it1⟩, h1, h⟩ := Exec.bind_eq_ok.1 h
    obtain ⟨kv, h2, h⟩ := Exec.bind_eq_ok.1 h
    simp only [Exec.ok.injEq, Prod.mk.injEq] at h
    obtain ⟨rfl, rfl⟩ := h
    exact ⟨hd, h1, h2⟩

theorem range_step_split {m : Map K V} {e : End} {it it' : Range} {x : Option (K × V)} (h : it.step m e = .ok (x, it')) :
    ∃ hd, it.stepH m e = .ok (hd, it') ∧ m.readOpt hd = .ok x := by
  cases e <;>
  · simp only [Range.step, Range.next, Range.nextBack] at h
    obtain ⟨⟨hd, it1⟩, h1, h⟩ := Exec.bind_eq_ok.1 h
    obtain ⟨kv, h2, h⟩ := Exec.bind_eq_ok.1 h
    simp only [Exec.ok.injEq, Prod.mk.injEq] at h
    obtain ⟨rfl, rfl⟩ := h
    exact ⟨hd, h1, h2⟩

theorem iter_run_own {bnd : Nat} {hm : HMap} {M : Map K V} {ta : ATree K V} (hb : M.height ≤ bnd) : ∀ {es : List End} {it : Iter} {hi : HIter}
    {x : List (Option (K × V)) × Iter}, it.run M es = .ok x → IterAt M.height ta it hi →
    Triple E (own hm M ta) (HIter.run bnd es hi) (fun o => fact (o.1 = x.1) ∗ own hm M ta)
  | [], it, hi, x, h, _ => by
    simp only [Iter.run, Exec.ok.injEq] at h
    subst h
    exact Triple.ofPure (Ent.putFact rfl (Ent.refl _))
  | e :: es, it, hi, x, h, hat => by
    simp only [Iter.run] at h
    obtain ⟨⟨y, it1⟩, h1, h⟩ := Exec.bind_eq_ok.1 h
    obtain ⟨⟨ys, it2⟩, h2, h⟩ := Exec.bind_eq_ok.1 h
    simp only [Exec.ok.injEq] at h
    subst h
    obtain ⟨hd, g1, g2⟩ := iter_step_split h1
    show Triple E _ (HIter.step bnd e hi >>= _) _
    unfold HIter.step
    refine Triple.assoc ?_
    refine Triple.seq (iter_stepH hb g1 g2 hat) fun o => ?_
    refine Triple.getFact fun ho => ?_
    refine Triple.assoc ?_
    refine Triple.seq (readOpt_own g2 ho.1) fun z => ?_
    refine Triple.getFact fun hz => ?_
    subst hz
    refine Triple.bindPure ?_
    refine Triple.seq (iter_run_own hb h2 ho.2) fun p => ?_
    refine Triple.getFact fun hp => ?_
    exact Triple.ofPure (Ent.putFact (by dsimp only; rw [hp]) (Ent.refl _))

theorem range_run_own {bnd : Nat} {hm : HMap} {M : Map K V} {ta : ATree K V} (hb : M.height ≤ bnd) : ∀ {es : List End} {it : Range} {hi : HRange}
    {x : List (Option (K × V)) × Range}, it.run M es = .ok x → RangeAt M.height ta it hi →
    Triple E (own hm M ta) (HRange.run bnd es hi) (fun o => fact (o.1 = x.1) ∗ own hm M ta)
  | [], it, hi, x, h, _ => by
    simp only [Range.run, Exec.ok.injEq] at h
    subst h
    exact Triple.ofPure (Ent.putFact rfl (Ent.refl _))
  | e :: es, it, hi, x, h, hat => by
    simp only [Range.run] at h
    obtain ⟨⟨y, it1⟩, h1, h⟩ := Exec.bind_eq_ok.1 h
    obtain ⟨⟨ys, it2⟩, h2, h⟩ := Exec.bind_eq_ok.1 h
    simp only [Exec.ok.injEq] at h
    subst h
    obtain ⟨hd, g1, g2⟩ := range_step_split h1
    show Triple E _ (HRange.step bnd e hi >>= _) _
    unfold HRange.step
    refine Triple.assoc ?_
    refine Triple.seq (range_stepH hb g1 g2 hat) fun o => ?_
    refine Triple.getFact fun ho => ?_
    refine Triple.assoc ?_
    refine Triple.seq (readOpt_own g2 ho.1) fun z => ?_
    refine Triple.getFact fun hz => ?_
    subst hz
    refine Triple.bindPure ?_
    refine Triple.seq (range_run_own hb h2 ho.2) fun p => ?_
    refine Triple.getFact fun hp => ?_
    exact Triple.ofPure (Ent.putFact (by dsimp only; rw [hp]) (Ent.refl _))

/-! ### writing through references -/

theorem own_has_pair {hm : HMap} {M : Map K V} {ta : ATree K V} {hd : Handle} {x : K × V} (hk : M.kvAt hd = .ok x) (hat : hd.up.length ≤ M.height) :
    Ent (own hm M ta) (fact (M.shared = false) ∗ own hm M ta) := by
  cases hs : M.shared with
  | false => exact Ent.fact_right rfl (Ent.refl _)
  | true =>
    rw [own_shared hs]
    intro w hw
    obtain ⟨⟨_, h2, h3, _⟩, _⟩ := hw
    exfalso
    rw [h2] at hat
    have : hd.up = [] := List.eq_nil_of_length_eq_zero (by omega)
    simp [BTree.Map.kvAt, BTree.kvAt, this, h3, emptyLeaf, BTree.nodeAt, Verif.getE] at hk

theorem updVal_own {hm : HMap} {M M' : Map K V} {ta : ATree K V} {hd : Handle} {hr : HRef} {f : V → V} {kv : K × V} {old : V}
    (hat : HandleAt M.height ta hd hr) (hk : M.kvAt hd = .ok kv) (hx : M.setVal hd (f kv.2) = .ok (M', old)) :
    Triple E (own hm M ta) (updVal hr f) (fun _ => hex fun ta' =>
      fact (M'.height = M.height ∧ ∀ hd hr, HandleAt M.height ta hd hr → HandleAt M.height ta' hd hr) ∗ own hm M' ta') := by
  unfold updVal
  refine Triple.seq (kvOf_own hk hat) fun o => ?_
  refine Triple.getFact fun e => ?_
  subst e
  refine Triple.pre ?_ (own_has_pair hk (by obtain ⟨_, _, h, _⟩ := hat; exact h))
  refine Triple.getFact fun hs => ?_
  refine Triple.seq (setVal_spec hs hat hx) fun r => ?_
  refine Triple.ofHex fun ta' => ?_
  refine Triple.getFact fun h => ?_
  exact Triple.ofPure (Ent.hex_right ta' (Ent.putFact ⟨h.2.1, h.2.2.2⟩ (Ent.refl _)))

/-- Two lists of handles designate the same places. -/
def RefsAt (h : Nat) (t : ATree K V) (rs : List Handle) (hs : List HRef) : Prop := rs.length = hs.length ∧ ∀ i : Nat, OptAt h t rs[i]? hs[i]?

theorem OptAt.mono {h : Nat} {t t' : ATree K V} (hm : ∀ hd hr, HandleAt h t hd hr → HandleAt h t' hd hr) :
    ∀ {a : Option Handle} {b : Option HRef}, OptAt h t a b → OptAt h t' a b
  | none, none, _ => trivial
  | some _, some _, h => hm _ _ h
  | none, some _, h => h.elim
  | some _, none, h => h.elim

theorem RefsAt.mono {h : Nat} {t t' : ATree K V} (hm : ∀ hd hr, HandleAt h t hd hr → HandleAt h t' hd hr) {rs : List Handle} {hs : List HRef}
    (hr : RefsAt h t rs hs) : RefsAt h t' rs hs := ⟨hr.1, fun i => (hr.2 i).mono hm⟩

theorem RefsAt.nil {h : Nat} {t : ATree K V} : RefsAt h t [] [] := ⟨rfl, fun i => by simp [OptAt]⟩

theorem RefsAt.add {h : Nat} {t : ATree K V} {rs : List Handle} {hs : List HRef} (hr : RefsAt h t rs hs) :
    ∀ {a : Option Handle} {b : Option HRef}, OptAt h t a b → RefsAt h t (rs ++ a.toList) (hs ++ b.toList)
  | none, none, _ => by simpa using hr
  | some a, some b, hab => by
    refine ⟨by simp [hr.1], fun i => ?_⟩
    simp only [Option.toList, List.getElem?_append, hr.1]
    split
    · exact hr.2 i
    · cases hi : i - hs.length with
      | zero => simpa using hab
      | succ n => simp [OptAt]
  | none, some _, h => h.elim
  | some _, none, h => h.elim

theorem mutRun_own {bnd : Nat} {S HS : Type} {At : Nat → ATree K V → S → HS → Prop} {step : Map K V → End → S → Exec (Option Handle × S)}
    {hstep : End → HS → HM K V (Option HRef × HS)} (hst : StepsOk bnd At step hstep)
    (hmono : ∀ {h ta ta' s hs}, (∀ hd hr, HandleAt h ta hd hr → HandleAt h ta' hd hr) → At h ta s hs → At h ta' s hs) {hm : HMap} :
    ∀ {acts : List (MutAct V)} {M : Map K V} {ta : ATree K V} {s : S} {hs : HS} {rs : List Handle} {hrs : List HRef}
      {x : List (Option (K × V)) × Map K V × List Handle}, M.height ≤ bnd → BTree.mutRun step acts M s rs = .ok x → At M.height ta s hs →
      RefsAt M.height ta rs hrs →
      Triple E (own hm M ta) (mutRun hstep acts hs hrs) (fun o => fact (o = x.1) ∗ rep hm x.2.1)
  | [], M, ta, s, hs, rs, hrs, x, hb, h, hat, hr => by
    simp only [BTree.mutRun, Exec.ok.injEq] at h
    subst h
    exact Triple.ofPure (Ent.putFact rfl (Ent.hex_right ta (Ent.refl _)))
  | .take e :: as, M, ta, s, hs, rs, hrs, x, hb, h, hat, hr => by
    simp only [BTree.mutRun] at h
    obtain ⟨⟨hd, s1⟩, h1, h⟩ := Exec.bind_eq_ok.1 h
    obtain ⟨y, h2, h⟩ := Exec.bind_eq_ok.1 h
    obtain ⟨⟨xs, m1, r1⟩, h3, h⟩ := Exec.bind_eq_ok.1 h
    simp only [Exec.ok.injEq] at h
    subst h
    show Triple E _ (hstep e hs >>= _) _
    refine Triple.seq (hst hb h1 h2 hat) fun o => ?_
    refine Triple.getFact fun ho => ?_
    refine Triple.seq (readOpt_own h2 ho.1) fun z => ?_
    refine Triple.getFact fun hz => ?_
    subst hz
    refine Triple.seq (mutRun_own (At := At) (step := step) (hstep := hstep) hst hmono hb h3 ho.2 (hr.add ho.1)) fun p => ?_
    refine Triple.getFact fun hp => ?_
    subst hp
    exact Triple.ofPure (Ent.putFact rfl (Ent.refl _))
  | .write i f :: as, M, ta, s, hs, rs, hrs, x, hb, h, hat, hr => by
    simp only [BTree.mutRun] at h
    have hi := hr.2 i
    cases hc : rs[i]? with
    | none =>
      rw [hc] at h hi
      cases hc' : hrs[i]? with
      | some _ => rw [hc'] at hi; exact hi.elim
      | none =>
        obtain ⟨⟨xs, m1, r1⟩, h3, h⟩ := Exec.bind_eq_ok.1 h
        simp only [Exec.ok.injEq] at h
        subst h
        unfold mutRun
        rw [hc']
        refine Triple.seq (mutRun_own (At := At) (step := step) (hstep := hstep) hst hmono hb h3 hat hr) fun p => ?_
        refine Triple.getFact fun hp => ?_
        subst hp
        exact Triple.ofPure (Ent.putFact rfl (Ent.refl _))
    | some hd =>
      rw [hc] at h hi
      cases hc' : hrs[i]? with
      | none => rw [hc'] at hi; exact hi.elim
      | some hrf =>
        rw [hc'] at hi
        obtain ⟨kv, h1, h⟩ := Exec.bind_eq_ok.1 h
        obtain ⟨⟨M', old⟩, h2, h⟩ := Exec.bind_eq_ok.1 h
        obtain ⟨⟨xs, m1, r1⟩, h3, h⟩ := Exec.bind_eq_ok.1 h
        simp only [Exec.ok.injEq] at h
        subst h
        unfold mutRun
        rw [hc']
        refine Triple.seq (updVal_own hi h1 h2) fun _ => ?_
        refine Triple.ofHex fun ta' => ?_
        refine Triple.getFact fun hp => ?_
        obtain ⟨hp1, hp2⟩ := hp
        refine Triple.seq (mutRun_own (At := At) (step := step) (hstep := hstep) hst hmono (M := M') (ta := ta') (by rw [hp1]; exact hb) h3 (by rw [hp1]; exact hmono hp2 hat)
          (by rw [hp1]; exact hr.mono hp2)) fun p => ?_
        refine Triple.getFact fun hp => ?_
        subst hp
        exact Triple.ofPure (Ent.putFact rfl (Ent.refl _))

theorem IterAt.mono {h : Nat} {ta ta' : ATree K V} {s : Iter} {hs : HIter} (hm : ∀ hd hr, HandleAt h ta hd hr → HandleAt h ta' hd hr)
    (hi : IterAt h ta s hs) : IterAt h ta' s hs := ⟨⟨hm _ _ hi.1.1, hm _ _ hi.1.2⟩, hi.2⟩

theorem RangeAt.mono {h : Nat} {ta ta' : ATree K V} {s : Range} {hs : HRange} (hm : ∀ hd hr, HandleAt h ta hd hr → HandleAt h ta' hd hr)
    (hi : RangeAt h ta s hs) : RangeAt h ta' s hs := ⟨hm _ _ hi.1, hm _ _ hi.2⟩

end Verif.Heap
