import Verif.Heap.Proofs.AnyRange
import Verif.Heap.Proofs.AnyCalls
import Verif.Heap.Proofs.Views
import Verif.BTree.Proofs.Calls
/-
Ranges and programs over several iterators, whatever the comparisons.
-/
namespace Verif.Heap
open Verif
open Verif.BTree (Map Handle Range Iter View Window)
open Verif.Spec (Bound End MutAct Op Out Source ViewAct Seen Pending Closed Cursor pops pop)

variable {K V Q : Type} {α β : Type} {E : String → Prop}

theorem own_height {hm : HMap} {M : Map K V} {ta : ATree K V} : Ent (own hm M ta) (fact (hm.root.height = M.height) ∗ own hm M ta) :=
  Ent.trans own_length (Ent.frame (fun _ hw => ⟨hw.1.2, hw.2⟩) _)

theorem rangeRunO_own {bor : K → Q} {lo hi : Bound Q} {es : List End} {hm : HMap} {M : Map K V} {ta : ATree K V} {ret : Prop} {c : Cmps Q} (hM : M.WF)
    (hret : ret → c.Return) :
    Triple E (own hm M ta) (hm.rangeRunO bor lo hi es c)
      (fun o => fact ((∃ A X B, M.toList = A ++ (X ++ B) ∧ o = some (.items (pops es X).1)) ∨ (Closed lo hi ∧ o = some .panicked) ∨ (¬ ret ∧ o = none)) ∗ own hm M ta) := by
  unfold HMap.rangeRunO
  refine Triple.pre (Triple.getFact fun hh => ?_) own_height
  refine Triple.seq (Triple.catchRead (rangeO_own hM c)) fun r => ?_
  match r with
  | none =>
    refine Triple.getFact fun hp => ?_
    obtain ⟨_, hp⟩ := hp
    exact Triple.ofPure (Ent.putFact (.inr (.inl ⟨hp, rfl⟩)) (Ent.refl _))
  | some none =>
    refine Triple.getFact fun hp => ?_
    exact Triple.ofPure (Ent.putFact (.inr (.inr ⟨fun h => hp (hret h), rfl⟩)) (Ent.refl _))
  | some (some (r, c')) =>
    refine Triple.getFact fun hp => ?_
    obtain ⟨_, y, pre, mid, post, hat, w⟩ := hp
    obtain ⟨y', hr⟩ := Range.run_spec hM.below es w
    dsimp only
    refine Triple.seq (range_run_own (by rw [hh]; exact Nat.le_refl _) hr hat) fun z => ?_
    refine Triple.getFact fun hz => ?_
    exact Triple.ofPure (Ent.putFact (.inl ⟨pre, mid, post, w.all, by rw [hz]⟩) (Ent.refl _))

theorem rangeRunO_call {bor : K → Q} {lo hi : Bound Q} {es : List End} {hm : HMap} {M : Map K V} {mem ret : Prop} {c : Cmps Q} {al : Alloc} (hM : M.WF)
    (hal : mem → al.Good) (hret : ret → c.Return) :
    Triple E (rep hm M ∗ sched al) (do
      let o ← hm.rangeRunO bor lo hi es c
      pure (o, hm))
      (AnyPost false mem (fun o l' => ((∃ A X B, M.toList = A ++ (X ++ B) ∧ o = some (.items (pops es X).1)) ∨ (Closed lo hi ∧ o = some .panicked) ∨ (¬ ret ∧ o = none)) ∧
        l' = M.toList)) := by
  unfold rep
  rw [hex_sep]
  refine Triple.ofHex fun ta => ?_
  refine Triple.seq ((rangeRunO_own hM hret).frame _) fun o => ?_
  rw [sep_assoc]
  refine Triple.getFact fun h => ?_
  exact Triple.ofPure (callPost_ok (Ent.frame Ent.ofRep _) hM hal ⟨h, rfl⟩ (.inl rfl))

theorem rangeMutRunO_call {bor : K → Q} {lo hi : Bound Q} {acts : List (MutAct V)} {hm : HMap} {M : Map K V} {mem ret : Prop} {c : Cmps Q} {al : Alloc} (hM : M.WF)
    (hal : mem → al.Good) (hret : ret → c.Return) :
    Triple E (rep hm M ∗ sched al) (do
      let o ← hm.rangeMutRunO bor lo hi acts c
      pure (o, hm))
      (AnyPost false mem (fun o l' =>
        (∃ A X B, M.toList = A ++ (X ++ B) ∧ o = some (.items (Cursor.acts ⟨M.toList, A.length, A.length + X.length, []⟩ acts).1) ∧
          l' = (Cursor.acts ⟨M.toList, A.length, A.length + X.length, []⟩ acts).2.items) ∨
        (((Closed lo hi ∧ o = some .panicked) ∨ (¬ ret ∧ o = none)) ∧ l' = M.toList))) := by
  unfold rep
  rw [hex_sep]
  refine Triple.ofHex fun ta => ?_
  unfold HMap.rangeMutRunO
  refine Triple.assoc ?_
  refine Triple.pre (Triple.getFact fun hh => ?_) (Ent.trans (Ent.frame own_height _) (Ent.of_eq (sep_assoc ..)))
  refine Triple.seq ((Triple.catchRead (rangeO_own hM c)).frame _) fun r => ?_
  match r with
  | none =>
    dsimp only
    rw [sep_assoc]
    refine Triple.getFact fun hp => ?_
    obtain ⟨_, hp⟩ := hp
    exact Triple.bindPure (Triple.ofPure (callPost_ok (Ent.frame Ent.ofRep _) hM hal (.inr ⟨.inl ⟨hp, rfl⟩, rfl⟩) (.inl rfl)))
  | some none =>
    dsimp only
    rw [sep_assoc]
    refine Triple.getFact fun hp => ?_
    exact Triple.bindPure (Triple.ofPure (callPost_ok (Ent.frame Ent.ofRep _) hM hal (.inr ⟨.inr ⟨fun h => hp (hret h), rfl⟩, rfl⟩) (.inl rfl)))
  | some (some (r, c')) =>
    dsimp only
    rw [sep_assoc]
    refine Triple.getFact fun hp => ?_
    obtain ⟨_, y, pre, mid, post, hat, w⟩ := hp
    obtain ⟨M', refs, g1, g2, g3, _⟩ := BTree.mutRun_spec Range.stepOK acts (BTree.MutInv.range hM w) trivial
    refine Triple.assoc ?_
    refine Triple.seq ((mutRun_own (bnd := hm.root.height) (hstep := HRange.stepH hm.root.height) (step := Range.stepH) range_stepH (fun h hat => ⟨h _ _ hat.1, h _ _ hat.2⟩)
      (by rw [hh]; exact Nat.le_refl _) g1 hat RefsAt.nil).frame _) fun z => ?_
    rw [sep_assoc]
    refine Triple.getFact fun hz => ?_
    refine Triple.bindPure (Triple.ofPure (callPost_ok (M := M') (Ent.refl _) g2 hal (.inl ⟨pre, mid, post, w.all, by rw [hz], g3⟩) (.inl rfl)))

/-! ### several iterators -/

/-- The iterators in memory are those of the specification. -/
def ViewsFit (M : Map K V) (ta : ATree K V) (hs : List HView) (ps : List (Pending K V Q)) : Prop :=
  ∃ vs : List View, ViewsAt M.height ta vs hs ∧ BTree.ViewsAre M vs ps

theorem openRangeO_own {bor : K → Q} {hm : HMap} {M : Map K V} {ta : ATree K V} {ret : Prop} {c c' : Cmps Q} (hM : M.WF) (hret : ret → c.Return) (hret' : ret → c'.Return)
    {lo hi : Bound Q} {mk : HRange → HView} {mk' : Range → View} {src : Source Q} (h1 : ∀ a b, RangeAt M.height ta a b → ViewAt M.height ta (mk' a) (mk b))
    (h2 : ∀ r pre mid post, Window M r pre mid post → BTree.ViewIs M (mk' r) (⟨src, mid⟩ : Pending K V Q)) {hs : List HView} {ps : List (Pending K V Q)} (hf : ViewsFit M ta hs ps) :
    Triple E (own hm M ta) (hm.openRangeO bor mk lo hi hs c c')
      (fun r => fact ((ret → r.2.Return) ∧ ∃ ps', ViewsFit M ta r.1.2 ps' ∧
        ((∃ A X B, M.toList = A ++ (X ++ B) ∧ r.1.1 = .opened ∧ ps' = ps ++ [⟨src, X⟩]) ∨ ((Closed lo hi ∨ ¬ ret) ∧ r.1.1 = .panicked ∧ ps' = ps))) ∗ own hm M ta) := by
  unfold HMap.openRangeO
  refine Triple.seq (Triple.catchRead (rangeO_own hM c)) fun r => ?_
  match r with
  | none =>
    refine Triple.getFact fun hp => ?_
    obtain ⟨_, hp⟩ := hp
    exact Triple.ofPure (Ent.putFact ⟨hret', ps, hf, .inr ⟨.inl hp, rfl, rfl⟩⟩ (Ent.refl _))
  | some none =>
    refine Triple.getFact fun hp => ?_
    exact Triple.ofPure (Ent.putFact ⟨hret', ps, hf, .inr ⟨.inr fun h => hp (hret h), rfl, rfl⟩⟩ (Ent.refl _))
  | some (some (r, c2)) =>
    refine Triple.getFact fun hp => ?_
    obtain ⟨hc, y, pre, mid, post, hat, w⟩ := hp
    obtain ⟨vs, f1, f2⟩ := hf
    exact Triple.ofPure (Ent.putFact ⟨fun h => hc (hret h), ps ++ [⟨src, mid⟩], ⟨vs ++ [mk' y], f1.add (h1 _ _ hat), f2.add (h2 _ _ _ _ w)⟩,
      .inl ⟨pre, mid, post, w.all, rfl, rfl⟩⟩ (Ent.refl _))

theorem viewActO_own {bor : K → Q} {hm : HMap} {M : Map K V} {ta : ATree K V} {ret : Prop} {c c' : Cmps Q} (hM : M.WF) (hh : hm.root.height = M.height)
    (hl : hm.length = M.length) (hret : ret → c.Return) (hret' : ret → c'.Return) (a : ViewAct Q) {hs : List HView} {ps : List (Pending K V Q)} (hf : ViewsFit M ta hs ps) :
    Triple E (own hm M ta) (ViewAct.hrunO hm bor hs c c' a)
      (fun r => fact ((ret → r.2.Return) ∧ ∃ ps', ViewsFit M ta r.1.2 ps' ∧ Spec.ViewAct.may ret M.toList ps a r.1.1 ps') ∗ own hm M ta) := by
  have hb : M.height ≤ hm.root.height := by rw [hh]; exact Nat.le_refl _
  obtain ⟨it, hi, il, iw⟩ := BTree.Map.iter_spec hM
  have hlen : it.length = M.toList.length := by have := hM.len; simp at this; omega
  have iters : ∀ (src : Source Q) (f : Iter → View) (g : HIter → HView), (∀ a b, IterAt M.height ta a b → ViewAt M.height ta (f a) (g b)) →
      BTree.ViewIs M (f it) (⟨src, M.toList⟩ : Pending K V Q) →
      (∀ (o : Seen K V) ps', Spec.ViewAct.may ret M.toList ps (.start src) o ps' = (o = .opened ∧ ps' = ps ++ [⟨src, M.toList⟩])) →
      Triple E (own hm M ta) (do
          let it ← hm.iter
          pure (((Seen.opened : Seen K V), hs ++ [g it]), c))
        (fun r => fact ((ret → r.2.Return) ∧ ∃ ps', ViewsFit M ta r.1.2 ps' ∧ Spec.ViewAct.may ret M.toList ps (.start src) r.1.1 ps') ∗ own hm M ta) :=
    fun src f g hfg hv hmay => by
    refine Triple.seq (iter_own hi) fun r => ?_
    refine Triple.getFact fun hr => ?_
    obtain ⟨vs, f1, f2⟩ := hf
    exact Triple.ofPure (Ent.putFact ⟨hret, ps ++ [⟨src, M.toList⟩], ⟨vs ++ [f it], f1.add (hfg _ _ hr), f2.add hv⟩, by rw [hmay]; exact ⟨rfl, rfl⟩⟩ (Ent.refl _))
  have look : ∀ (i : Nat) {hg : HView → HM K V (Seen K V × List HView)} (sg : Pending K V Q → Seen K V × List (Pending K V Q)),
      (∀ v hv pd, ViewAt M.height ta v hv → BTree.ViewIs M v pd →
        Triple E (own hm M ta) (hg hv) (fun r => fact (r.1 = (sg pd).1 ∧ ViewsFit M ta r.2 (sg pd).2) ∗ own hm M ta)) →
      Triple E (own hm M ta) (do
          let x ← onHView hs i hg
          pure (x, c))
        (fun r => fact ((ret → r.2.Return) ∧ ∃ ps', ViewsFit M ta r.1.2 ps' ∧ (r.1.1, ps') = Spec.onPending ps i sg) ∗ own hm M ta) := fun i hg sg hk => by
    unfold onHView Spec.onPending
    obtain ⟨vs, f1, f2⟩ := hf
    cases hi : vs[i]? with
    | none =>
      have e1 : hs[i]? = none := by rw [List.getElem?_eq_none_iff] at hi ⊢; rw [← f1.1]; exact hi
      have e2 : ps[i]? = none := by rw [List.getElem?_eq_none_iff] at hi ⊢; rw [← f2.1]; exact hi
      rw [e1, e2]
      exact Triple.bindPure (Triple.ofPure (Ent.putFact ⟨hret, ps, ⟨vs, f1, f2⟩, rfl⟩ (Ent.refl _)))
    | some v =>
      obtain ⟨hv, h1, h2⟩ := f1.get hi
      have hp : i < ps.length := by rw [← f2.1]; exact (List.getElem?_eq_some_iff.1 hi).1
      rw [h1, List.getElem?_eq_getElem hp]
      dsimp only
      refine Triple.seq (hk v hv _ h2 (f2.2 i _ _ hi (List.getElem?_eq_getElem hp))) fun r => ?_
      refine Triple.getFact fun hr => ?_
      exact Triple.ofPure (Ent.putFact ⟨hret, _, hr.2, by rw [hr.1]⟩ (Ent.refl _))
  cases a with
  | start s =>
    cases s with
    | iter => exact iters .iter .iter .iter (fun _ _ h => h) ⟨[], [], hlen, iw⟩ (fun _ _ => rfl)
    | keys => exact iters .keys .keys .keys (fun _ _ h => h) ⟨[], [], hlen, iw⟩ (fun _ _ => rfl)
    | values => exact iters .values .values .values (fun _ _ h => h) ⟨[], [], hlen, iw⟩ (fun _ _ => rfl)
    | range lo hi => exact openRangeO_own hM hret hret' (mk := .range) (mk' := .range) (fun _ _ h => h) (fun r pre mid post w => ⟨pre, post, w⟩) hf
    | setRange lo hi => exact openRangeO_own hM hret hret' (mk := .setRange) (mk' := .setRange) (fun _ _ h => h) (fun r pre mid post w => ⟨pre, post, w⟩) hf
  | clone i =>
    refine look i _ fun v hv pd h1 h2 => ?_
    obtain ⟨vs, f1, f2⟩ := hf
    exact Triple.ofPure (Ent.putFact ⟨rfl, vs ++ [v.clone], f1.add h1.clone, f2.add h2.clone⟩ (Ent.refl _))
  | ask i e =>
    refine look i _ fun v hv pd h1 h2 => ?_
    obtain ⟨vs, f1, f2⟩ := hf
    obtain ⟨v', g1, g2⟩ := h2.step hM.below e
    refine Triple.seq (view_step_own hb g1 h1) fun r => ?_
    refine Triple.getFact fun hr => ?_
    exact Triple.ofPure (Ent.putFact ⟨by rw [hr.1], vs.set i v', f1.set hr.2 i, f2.set g2 i⟩ (Ent.refl _))
  | hint i =>
    refine look i _ fun v hv pd h1 h2 => ?_
    exact Triple.ofPure (Ent.putFact ⟨by rw [h1.hint, h2.hint], hf⟩ (Ent.refl _))
  | debug i =>
    refine look i _ fun v hv pd h1 h2 => ?_
    refine Triple.seq (view_debug_own hh hl (h2.debug hM) h1) fun r => ?_
    refine Triple.getFact fun hr => ?_
    exact Triple.ofPure (Ent.putFact ⟨by rw [hr], hf⟩ (Ent.refl _))

theorem viewActsO_own {bor : K → Q} {hm : HMap} {M : Map K V} {ta : ATree K V} {ret : Prop} (hM : M.WF) (hh : hm.root.height = M.height)
    (hl : hm.length = M.length) : ∀ {as : List (ViewAct Q)} {c : Cmps Q} {cs : Nat → Cmps Q} {hs : List HView} {ps : List (Pending K V Q)},
    (ret → c.Return) → (∀ n, ret → (cs n).Return) → ViewsFit M ta hs ps →
    Triple E (own hm M ta) (ViewAct.hrunsO hm bor as hs c cs) (fun r => fact (Spec.ViewAct.mays ret M.toList as ps r) ∗ own hm M ta)
  | [], c, cs, hs, ps, _, _, _ => Triple.ofPure (Ent.putFact rfl (Ent.refl _))
  | a :: as, c, cs, hs, ps, hret, hrets, hf => by
    unfold ViewAct.hrunsO
    refine Triple.seq (viewActO_own hM hh hl hret (hrets 0) a hf) fun r => ?_
    refine Triple.getFact fun hr => ?_
    obtain ⟨h1, ps', h2, h3⟩ := hr
    refine Triple.seq (viewActsO_own hM hh hl h1 (fun n => hrets (n + 1)) h2) fun z => ?_
    refine Triple.getFact fun hz => ?_
    exact Triple.ofPure (Ent.putFact ⟨_, ps', z, h3, hz, rfl⟩ (Ent.refl _))

theorem viewsO_call {bor : K → Q} {as : List (ViewAct Q)} {hm : HMap} {M : Map K V} {mem ret : Prop} {c : Cmps Q} {cs : Nat → Cmps Q} {al : Alloc} (hM : M.WF)
    (hal : mem → al.Good) (hret : ret → c.Return) (hrets : ∀ n, ret → (cs n).Return) :
    Triple E (rep hm M ∗ sched al) (do
      let xs ← ViewAct.hrunsO hm bor as [] c cs
      pure (some (Out.seen xs), hm))
      (AnyPost false mem (fun o l' => (∃ xs, Spec.ViewAct.mays ret M.toList as [] xs ∧ o = some (.seen xs)) ∧ l' = M.toList)) := by
  unfold rep
  rw [hex_sep]
  refine Triple.ofHex fun ta => ?_
  refine Triple.pre (Triple.getFact fun hl => ?_) (Ent.trans (Ent.frame own_length _) (Ent.of_eq (sep_assoc ..)))
  refine Triple.seq ((viewActsO_own (ps := []) hM hl.2 hl.1 hret hrets ⟨[], ⟨rfl, by simp⟩, ⟨rfl, by simp⟩⟩).frame _) fun xs => ?_
  rw [sep_assoc]
  refine Triple.getFact fun h => ?_
  exact Triple.ofPure (callPost_ok (Ent.frame Ent.ofRep _) hM hal ⟨⟨xs, h, rfl⟩, rfl⟩ (.inl rfl))

end Verif.Heap
