import Verif.Heap.MutLook
import Verif.Heap.Proofs.Views
import Verif.Heap.Proofs.IterRun
import Verif.Heap.Proofs.SplitOffMap
import Verif.Heap.Proofs.ApiMap
import Verif.Heap.Proofs.UnwindOps
import Verif.BTree.Proofs.Views
import Verif.BTree.Proofs.MutStep
import Verif.BTree.Proofs.ReachInv
/-
Mutable iterators that are looked at in between.
-/
namespace Verif.Heap
open Verif
open Verif.BTree (Map Iter Range Handle MutInv StepOK Window)
open Verif.Spec (Bound End Item MutAct MutLook MutSeen MutKind Cursor)

variable {K V Q : Type} {E : String → Prop}

/-- `{:?}` of a `RangeMut`. -/
theorem printed_own {hm : HMap} {M : Map K V} {ta : ATree K V} (hM : M.WF) {r : Range} {hr : HRange} {lo mid hi : List (K × V)} (w : Window M r lo mid hi)
    (hat : RangeAt M.height ta r hr) : Triple E (own hm M ta) (hr.printed hm) (fun o => fact (o = mid.map .pair) ∗ own hm M ta) := by
  refine Triple.pre ?_ own_length
  refine Triple.getFact fun hl => ?_
  unfold HRange.printed
  have hf : mid.length < M.length + 1 := by
    have h1 := hM.len
    rw [w.all] at h1
    simp only [List.length_append] at h1
    omega
  have hv : BTree.ViewIs M (.range r) (⟨.range .unbounded .unbounded, mid⟩ : Spec.Pending K V Unit) := ⟨lo, hi, w⟩
  rw [hl.1]
  exact view_drain_own (by rw [hl.2]; exact Nat.le_refl _) _ (hv.drain hM.below _ hf) hat

theorem mutLook_own {S HS : Type} {At : Nat → ATree K V → S → HS → Prop} {rng : S → Range} {hrng : HS → HRange} {len : S → Nat → Prop}
    {step : Map K V → End → S → Exec (Option Handle × S)} {hm : HMap} {x : MutMethods K V HS} {kind : MutKind} (hstep : StepOK rng len step)
    (hst : StepsOk hm.root.height At step x.step)
    (hmono : ∀ {h ta ta' s hs}, (∀ hd hr, HandleAt h ta hd hr → HandleAt h ta' hd hr) → At h ta s hs → At h ta' s hs)
    (hrange : ∀ {h ta s hs}, At h ta s hs → RangeAt h ta (rng s) (hrng hs)) (hitem : x.item = kind.item)
    (hhint : ∀ {h ta s hs n}, At h ta s hs → len s n → x.hint hs = ((kind.count n).getD 0, kind.count n))
    (hdebug : ∀ {h ta s hs n}, At h ta s hs → len s n → x.debug hs = (hrng hs).printed hm >>= fun l => pure (l, kind.count n)) :
    ∀ (as : List (MutLook V)) {M : Map K V} {ta : ATree K V} {s : S} {hs : HS} {rs : List Handle} {hrs : List HRef} {c : Cursor K V}, MutInv 0 rng M s rs c →
      len s (c.hi - c.lo) → At M.height ta s hs → RefsAt M.height ta rs hrs →
      Triple E (own hm M ta) (x.run as hs hrs) (fun o => fact (o = (c.looks kind as).1) ∗ hex fun M' : Map K V => fact (M'.WF ∧ M'.toList = (c.looks kind as).2) ∗ rep hm M')
  | [], M, ta, s, hs, rs, hrs, c, hi, hlen, hat, hr => by
    refine Triple.ofPure (Ent.putFact rfl (Ent.hex_right M (Ent.putFact ⟨hi.wf, hi.items⟩ (Ent.hex_right ta (Ent.refl _)))))
  | .act (.take e) :: as, M, ta, s, hs, rs, hrs, c, hi, hlen, hat, hr => by
    refine Triple.pre ?_ own_length
    refine Triple.getFact fun hl => ?_
    obtain ⟨hd, s', h1, h2, h3, h4⟩ := MutInv.take hstep hi hlen e
    unfold MutMethods.run
    refine Triple.seq (hst (by rw [hl.2]; exact Nat.le_refl _) h1 h2 hat) fun o => ?_
    refine Triple.getFact fun ho => ?_
    refine Triple.seq (readOpt_own h2 ho.1) fun z => ?_
    refine Triple.getFact fun hz => ?_
    subst hz
    refine Triple.seq (mutLook_own hstep hst hmono hrange hitem hhint hdebug as h3 h4 ho.2 (hr.add ho.1)) fun p => ?_
    refine Triple.getFact fun hp => ?_
    subst hp
    rw [hitem]
    exact Triple.ofPure (Ent.putFact rfl (Ent.refl _))
  | .act (.write i f) :: as, M, ta, s, hs, rs, hrs, c, hi, hlen, hat, hr => by
    have hw := hi.write i f
    have hri := hr.2 i
    unfold MutMethods.run
    cases hc : rs[i]? with
    | none =>
      rw [hc] at hw hri
      dsimp only at hw
      cases hc' : hrs[i]? with
      | some _ => rw [hc'] at hri; exact hri.elim
      | none =>
        dsimp only
        refine Triple.seq (mutLook_own hstep hst hmono hrange hitem hhint hdebug as hi hlen hat hr) fun p => ?_
        refine Triple.getFact fun hp => ?_
        subst hp
        refine Triple.ofPure ?_
        simp only [Cursor.looks, Cursor.look, hw]
        exact Ent.putFact trivial (Ent.refl _)
    | some hd =>
      rw [hc] at hw hri
      obtain ⟨kv, M', old, h1, h2, h3, h4, h5, h6⟩ := hw
      cases hc' : hrs[i]? with
      | none => rw [hc'] at hri; exact hri.elim
      | some hrf =>
        rw [hc'] at hri
        dsimp only
        refine Triple.seq (updVal_own hri h1 h2) fun _ => ?_
        refine Triple.ofHex fun ta' => ?_
        refine Triple.getFact fun hp => ?_
        obtain ⟨hp1, hp2⟩ := hp
        refine Triple.seq (mutLook_own hstep hst hmono hrange hitem hhint hdebug as (M := M') (ta := ta') h3 (by rw [h4, h5]; exact hlen) (by rw [hp1]; exact hmono hp2 hat)
          (by rw [hp1]; exact hr.mono hp2)) fun p => ?_
        refine Triple.getFact fun hp => ?_
        subst hp
        exact Triple.ofPure (Ent.putFact rfl (Ent.refl _))
  | .hint :: as, M, ta, s, hs, rs, hrs, c, hi, hlen, hat, hr => by
    unfold MutMethods.run
    refine Triple.seq (mutLook_own hstep hst hmono hrange hitem hhint hdebug as hi hlen hat hr) fun p => ?_
    refine Triple.getFact fun hp => ?_
    subst hp
    rw [hhint hat hlen, ← hi.pending.2]
    exact Triple.ofPure (Ent.putFact rfl (Ent.refl _))
  | .debug :: as, M, ta, s, hs, rs, hrs, c, hi, hlen, hat, hr => by
    unfold MutMethods.run
    rw [hdebug hat hlen, ← hi.pending.2, hm_assoc]
    obtain ⟨⟨lo, hh, w⟩, _⟩ := hi.pending
    refine Triple.seq (printed_own hi.wf w (hrange hat)) fun l => ?_
    refine Triple.getFact fun hp => ?_
    subst hp
    show Triple E _ (x.run as hs hrs >>= _) _
    refine Triple.seq (mutLook_own hstep hst hmono hrange hitem hhint hdebug as hi hlen hat hr) fun p => ?_
    refine Triple.getFact fun hp => ?_
    subst hp
    exact Triple.ofPure (Ent.putFact rfl (Ent.refl _))

/-- What such a program leaves of the map. -/
def LookPost (hm : HMap) (r : List (MutSeen K V) × List (K × V)) (o : List (MutSeen K V)) : HProp K V :=
  fact (o = r.1) ∗ hex fun M' : Map K V => fact (M'.WF ∧ M'.toList = r.2) ∗ rep hm M'

theorem iterMutLook_spec {hm : HMap} {M : Map K V} (hM : M.WF) (as : List (MutLook V)) :
    Triple E (rep hm M) (hm.iterMutLook as) (LookPost hm (Cursor.looks .iter ⟨M.toList, 0, M.toList.length, []⟩ as)) := by
  refine Triple.ofRep fun ta => ?_
  obtain ⟨it, h1, _⟩ := BTree.Map.iter_spec hM
  obtain ⟨i1, i2⟩ := MutInv.iter hM h1
  refine Triple.seq (iter_own h1) fun r => ?_
  refine Triple.getFact fun hat => ?_
  exact mutLook_own (hm := hm) (At := IterAt) (rng := Iter.range) (hrng := HIter.range) (len := fun it n => it.length = n) (step := Iter.stepH)
    (x := hm.iterMutMethods) (kind := .iter) BTree.Iter.stepOK iter_stepH IterAt.mono (fun h => h.1) rfl
    (fun {h ta s hs n} hat hl => by obtain ⟨_, h2⟩ := hat; subst hl; simp only [HMap.iterMutMethods, MutKind.count, Option.getD_some, h2])
    (fun {h ta s hs n} hat hl => by obtain ⟨_, h2⟩ := hat; subst hl; simp only [HMap.iterMutMethods, MutKind.count, h2])
    as i1 (by simpa using i2) hat RefsAt.nil

theorem valuesMutLook_spec {hm : HMap} {M : Map K V} (hM : M.WF) (as : List (MutLook V)) :
    Triple E (rep hm M) (hm.valuesMutLook as) (LookPost hm (Cursor.looks .values ⟨M.toList, 0, M.toList.length, []⟩ as)) := by
  refine Triple.ofRep fun ta => ?_
  obtain ⟨it, h1, _⟩ := BTree.Map.iter_spec hM
  obtain ⟨i1, i2⟩ := MutInv.iter hM h1
  refine Triple.seq (iter_own h1) fun r => ?_
  refine Triple.getFact fun hat => ?_
  exact mutLook_own (hm := hm) (At := IterAt) (rng := Iter.range) (hrng := HIter.range) (len := fun it n => it.length = n) (step := Iter.stepH)
    (x := hm.valuesMutMethods) (kind := .values) BTree.Iter.stepOK iter_stepH IterAt.mono (fun h => h.1) rfl
    (fun {h ta s hs n} hat hl => by obtain ⟨_, h2⟩ := hat; subst hl; simp only [HMap.valuesMutMethods, HMap.iterMutMethods, MutKind.count, Option.getD_some, h2])
    (fun {h ta s hs n} hat hl => by obtain ⟨_, h2⟩ := hat; subst hl; simp only [HMap.valuesMutMethods, HMap.iterMutMethods, MutKind.count, h2])
    as i1 (by simpa using i2) hat RefsAt.nil

/-- `range_mut`, if the search found the stretch `mid` of the list. -/
theorem rangeMutLook_spec [Ord Q] {bor : K → Q} {lo hi : Bound Q} {hm : HMap} {M : Map K V} (hM : M.WF) {r : Range} {pre mid post : List (K × V)}
    (h1 : M.range bor lo hi = .ok r) (w : Window M r pre mid post) (as : List (MutLook V)) :
    Triple E (rep hm M) (hm.rangeMutLook bor lo hi as) (LookPost hm (Cursor.looks .range ⟨M.toList, pre.length, pre.length + mid.length, []⟩ as)) := by
  refine Triple.ofRep fun ta => ?_
  refine Triple.seq (Triple.weaken (range_own rfl (by rw [h1]; simp)) ?_) fun hr => ?_
  · rintro _ ⟨m, hm⟩
    rw [h1] at hm
    cases hm
  refine Triple.getFact fun hp => ?_
  obtain ⟨y, hy, hat⟩ := hp
  rw [h1] at hy
  obtain rfl := Exec.ok.inj hy
  exact mutLook_own (hm := hm) (At := RangeAt) (rng := id) (hrng := id) (len := fun _ _ => True) (step := Range.stepH)
    (x := hm.rangeMutMethods) (kind := .range) BTree.Range.stepOK range_stepH RangeAt.mono (fun h => h) rfl
    (fun _ _ => rfl) (fun _ _ => rfl) as (BTree.MutInv.range hM w) trivial hat RefsAt.nil

end Verif.Heap
