import Verif.Heap.Proofs.ApiMap
/-
Programs over several shared iterators, in memory.
-/
namespace Verif.Heap
open Verif
open Verif.BTree (Tree Handle Map emptyLeaf Range Iter View)
open Verif.Spec (Bound End Item Source ViewAct Seen)

variable {K V Q α β : Type} {E : String → Prop}

theorem Triple.weaken {E E' : String → Prop} {P : HProp K V} {m : HM K V α} {Qa : α → HProp K V} (h : Triple E P m Qa) (he : ∀ msg, E msg → E' msg) :
    Triple E' P m Qa := by
  intro R s hg hw
  have := h R s hg hw
  cases hm : m s with
  | ub => rw [hm] at this; exact this
  | panic msg => rw [hm] at this; exact he msg this
  | ok x => rw [hm] at this; exact this

/-- The iterators in memory stand where those of the level-1 model stand. -/
def ViewAt (h : Nat) (t : ATree K V) : View → HView → Prop
  | .iter a, .iter b => IterAt h t a b
  | .keys a, .keys b => IterAt h t a b
  | .values a, .values b => IterAt h t a b
  | .range a, .range b => RangeAt h t a b
  | .setRange a, .setRange b => RangeAt h t a b
  | _, _ => False

/-- The same for all iterators of a program. -/
def ViewsAt (h : Nat) (t : ATree K V) (vs : List View) (hs : List HView) : Prop :=
  vs.length = hs.length ∧ ∀ (i : Nat) v hv, vs[i]? = some v → hs[i]? = some hv → ViewAt h t v hv

theorem ViewsAt.get {h : Nat} {t : ATree K V} {vs : List View} {hs : List HView} (ha : ViewsAt h t vs hs) {i : Nat} {v : View} (hi : vs[i]? = some v) :
    ∃ hv, hs[i]? = some hv ∧ ViewAt h t v hv := by
  have hlt : i < hs.length := by rw [← ha.1]; exact (List.getElem?_eq_some_iff.1 hi).1
  exact ⟨hs[i], List.getElem?_eq_getElem hlt, ha.2 i _ _ hi (List.getElem?_eq_getElem hlt)⟩

theorem ViewsAt.add {h : Nat} {t : ATree K V} {vs : List View} {hs : List HView} (ha : ViewsAt h t vs hs) {v : View} {hv : HView} (hat : ViewAt h t v hv) :
    ViewsAt h t (vs ++ [v]) (hs ++ [hv]) := by
  refine ⟨by simp [ha.1], fun i v' hv' h1 h2 => ?_⟩
  rcases Nat.lt_trichotomy i vs.length with hi | hi | hi
  · rw [List.getElem?_append_left hi] at h1
    rw [List.getElem?_append_left (by rw [← ha.1]; exact hi)] at h2
    exact ha.2 i _ _ h1 h2
  · rw [hi, List.getElem?_concat_length] at h1
    rw [hi, ha.1, List.getElem?_concat_length] at h2
    obtain rfl := Option.some.inj h1
    obtain rfl := Option.some.inj h2
    exact hat
  · rw [List.getElem?_eq_none (by simp; omega)] at h1
    cases h1

theorem ViewsAt.set {h : Nat} {t : ATree K V} {vs : List View} {hs : List HView} (ha : ViewsAt h t vs hs) {v : View} {hv : HView} (hat : ViewAt h t v hv)
    (i : Nat) : ViewsAt h t (vs.set i v) (hs.set i hv) := by
  refine ⟨by simp [ha.1], fun j v' hv' h1 h2 => ?_⟩
  rw [List.getElem?_set] at h1 h2
  by_cases hij : i = j
  · rw [if_pos hij] at h1 h2
    split at h1
    · split at h2
      · obtain rfl := Option.some.inj h1
        obtain rfl := Option.some.inj h2
        exact hat
      · cases h2
    · cases h1
  · rw [if_neg hij] at h1 h2
    exact ha.2 j _ _ h1 h2

theorem ViewAt.clone {h : Nat} {t : ATree K V} {v : View} {hv : HView} (hat : ViewAt h t v hv) : ViewAt h t v.clone hv.clone := by
  cases v <;> cases hv <;> exact hat

theorem ViewAt.hint {h : Nat} {t : ATree K V} {v : View} {hv : HView} (hat : ViewAt h t v hv) : hv.sizeHint = v.sizeHint := by
  cases v <;> cases hv <;> first | exact hat.elim | rfl | (simp only [HView.sizeHint, View.sizeHint, Iter.sizeHint]; rw [hat.2])

/-- `next` of an `Iter`. -/
theorem iter_step_own {bnd : Nat} {hm : HMap} {M : Map K V} {ta : ATree K V} (hb : M.height ≤ bnd) {e : End} {it it' : Iter} {hi : HIter} {x : Option (K × V)}
    (h : it.step M e = .ok (x, it')) (hat : IterAt M.height ta it hi) :
    Triple E (own hm M ta) (HIter.step bnd e hi) (fun o => fact (o.1 = x ∧ IterAt M.height ta it' o.2) ∗ own hm M ta) := by
  obtain ⟨hd, g1, g2⟩ := iter_step_split h
  unfold HIter.step
  refine Triple.seq (iter_stepH hb g1 g2 hat) fun o => ?_
  refine Triple.getFact fun ho => ?_
  refine Triple.seq (readOpt_own g2 ho.1) fun z => ?_
  refine Triple.getFact fun hz => ?_
  subst hz
  exact Triple.ofPure (Ent.putFact ⟨rfl, ho.2⟩ (Ent.refl _))

/-- `next` of a `Range`. -/
theorem range_step_own {bnd : Nat} {hm : HMap} {M : Map K V} {ta : ATree K V} (hb : M.height ≤ bnd) {e : End} {it it' : Range} {hi : HRange} {x : Option (K × V)}
    (h : it.step M e = .ok (x, it')) (hat : RangeAt M.height ta it hi) :
    Triple E (own hm M ta) (HRange.step bnd e hi) (fun o => fact (o.1 = x ∧ RangeAt M.height ta it' o.2) ∗ own hm M ta) := by
  obtain ⟨hd, g1, g2⟩ := range_step_split h
  unfold HRange.step
  refine Triple.seq (range_stepH hb g1 g2 hat) fun o => ?_
  refine Triple.getFact fun ho => ?_
  refine Triple.seq (readOpt_own g2 ho.1) fun z => ?_
  refine Triple.getFact fun hz => ?_
  subst hz
  exact Triple.ofPure (Ent.putFact ⟨rfl, ho.2⟩ (Ent.refl _))

theorem stepMap_split {β : Type} {f : K × V → β} {M : Map K V} {e : End} {it it' : Iter} {x : Option β} (h : it.stepMap f M e = .ok (x, it')) :
    ∃ y, it.step M e = .ok (y, it') ∧ x = y.map f := by
  simp only [Iter.stepMap] at h
  obtain ⟨⟨y, it1⟩, h1, h⟩ := Exec.bind_eq_ok.1 h
  simp only [Exec.ok.injEq, Prod.mk.injEq] at h
  obtain ⟨rfl, rfl⟩ := h
  exact ⟨y, h1, rfl⟩

/-- `next` of any of them. -/
theorem view_step_own {bnd : Nat} {hm : HMap} {M : Map K V} {ta : ATree K V} (hb : M.height ≤ bnd) {e : End} {v v' : View} {hv : HView} {x : Option (Item K V)}
    (h : v.step M e = .ok (x, v')) (hat : ViewAt M.height ta v hv) :
    Triple E (own hm M ta) (HView.step bnd e hv) (fun o => fact (o.1 = x ∧ ViewAt M.height ta v' o.2) ∗ own hm M ta) := by
  cases v with
  | iter it =>
    cases hv <;> first | exact hat.elim | skip
    simp only [View.step] at h
    obtain ⟨⟨y, it1⟩, h1, h⟩ := Exec.bind_eq_ok.1 h
    simp only [Exec.ok.injEq, Prod.mk.injEq] at h
    obtain ⟨rfl, rfl⟩ := h
    unfold HView.step
    refine Triple.seq (iter_step_own hb h1 hat) fun o => ?_
    refine Triple.getFact fun ho => ?_
    exact Triple.ofPure (Ent.putFact ⟨by rw [ho.1], ho.2⟩ (Ent.refl _))
  | keys it =>
    cases hv <;> first | exact hat.elim | skip
    simp only [View.step] at h
    obtain ⟨⟨y, it1⟩, h1, h⟩ := Exec.bind_eq_ok.1 h
    simp only [Exec.ok.injEq, Prod.mk.injEq] at h
    obtain ⟨rfl, rfl⟩ := h
    obtain ⟨z, h2, rfl⟩ := stepMap_split h1
    unfold HView.step
    refine Triple.seq (iter_step_own hb h2 hat) fun o => ?_
    refine Triple.getFact fun ho => ?_
    exact Triple.ofPure (Ent.putFact ⟨by rw [ho.1, Option.map_map]; rfl, ho.2⟩ (Ent.refl _))
  | values it =>
    cases hv <;> first | exact hat.elim | skip
    simp only [View.step] at h
    obtain ⟨⟨y, it1⟩, h1, h⟩ := Exec.bind_eq_ok.1 h
    simp only [Exec.ok.injEq, Prod.mk.injEq] at h
    obtain ⟨rfl, rfl⟩ := h
    obtain ⟨z, h2, rfl⟩ := stepMap_split h1
    unfold HView.step
    refine Triple.seq (iter_step_own hb h2 hat) fun o => ?_
    refine Triple.getFact fun ho => ?_
    exact Triple.ofPure (Ent.putFact ⟨by rw [ho.1, Option.map_map]; rfl, ho.2⟩ (Ent.refl _))
  | range r =>
    cases hv <;> first | exact hat.elim | skip
    simp only [View.step] at h
    obtain ⟨⟨y, it1⟩, h1, h⟩ := Exec.bind_eq_ok.1 h
    simp only [Exec.ok.injEq, Prod.mk.injEq] at h
    obtain ⟨rfl, rfl⟩ := h
    unfold HView.step
    refine Triple.seq (range_step_own hb h1 hat) fun o => ?_
    refine Triple.getFact fun ho => ?_
    exact Triple.ofPure (Ent.putFact ⟨by rw [ho.1], ho.2⟩ (Ent.refl _))
  | setRange r =>
    cases hv <;> first | exact hat.elim | skip
    simp only [View.step] at h
    obtain ⟨⟨y, it1⟩, h1, h⟩ := Exec.bind_eq_ok.1 h
    simp only [Exec.ok.injEq, Prod.mk.injEq] at h
    obtain ⟨rfl, rfl⟩ := h
    unfold HView.step
    refine Triple.seq (range_step_own hb h1 hat) fun o => ?_
    refine Triple.getFact fun ho => ?_
    exact Triple.ofPure (Ent.putFact ⟨by rw [ho.1], ho.2⟩ (Ent.refl _))

theorem view_drain_own {bnd : Nat} {hm : HMap} {M : Map K V} {ta : ATree K V} (hb : M.height ≤ bnd) : ∀ (fuel : Nat) {v : View} {hv : HView} {xs : List (Item K V)},
    v.drain M fuel = .ok xs → ViewAt M.height ta v hv →
    Triple E (own hm M ta) (HView.drain bnd fuel hv) (fun o => fact (o = xs) ∗ own hm M ta)
  | 0, v, hv, xs, h, _ => by simp [View.drain] at h
  | fuel + 1, v, hv, xs, h, hat => by
    simp only [View.drain] at h
    obtain ⟨⟨x, v'⟩, h1, h⟩ := Exec.bind_eq_ok.1 h
    unfold HView.drain
    refine Triple.seq (view_step_own hb h1 hat) fun o => ?_
    refine Triple.getFact fun ho => ?_
    obtain ⟨o1, hv'⟩ := o
    obtain ⟨rfl, ho⟩ := ho
    cases o1 with
    | none =>
      simp only [Exec.ok.injEq] at h
      subst h
      exact Triple.ofPure (Ent.putFact rfl (Ent.refl _))
    | some y =>
      dsimp only at h ⊢
      obtain ⟨ys, h2, h⟩ := Exec.bind_eq_ok.1 h
      simp only [Exec.ok.injEq] at h
      subst h
      refine Triple.seq (view_drain_own hb fuel h2 ho) fun z => ?_
      refine Triple.getFact fun hz => ?_
      exact Triple.ofPure (Ent.putFact (by rw [hz]) (Ent.refl _))

theorem view_debug_own {hm : HMap} {M : Map K V} {ta : ATree K V} (hh : hm.root.height = M.height) (hl : hm.length = M.length) {v : View} {hv : HView}
    {xs : List (Item K V)} (h : v.debug M = .ok xs) (hat : ViewAt M.height ta v hv) :
    Triple E (own hm M ta) (HView.debug hm hv) (fun o => fact (o = xs) ∗ own hm M ta) := by
  have hb : M.height ≤ hm.root.height := by rw [hh]; exact Nat.le_refl _
  cases v <;> cases hv <;> first | exact hat.elim | skip
  all_goals
    simp only [View.debug] at h
    simp only [HView.debug, hl]
    exact view_drain_own hb _ h hat.clone

/-- Opening an iterator; the panic of `range` is caught. -/
theorem view_own [Ord Q] {bor : K → Q} {hm : HMap} {M : Map K V} {ta : ATree K V} (hM : M.WF) (s : Source Q) (hu : M.view bor s ≠ .ub) :
    Triple (fun _ => ∃ m, M.view bor s = .panic m) (own hm M ta) (hm.view bor s)
      (fun r => fact (∃ y, M.view bor s = .ok y ∧ ViewAt M.height ta y r) ∗ own hm M ta) := by
  obtain ⟨it, hi, _⟩ := BTree.Map.iter_spec hM
  have iters : ∀ (f : Iter → View) (g : HIter → HView), (∀ a b, IterAt M.height ta a b → ViewAt M.height ta (f a) (g b)) →
      M.view bor s = (do let it ← M.iter; Exec.ok (f it)) → (hm.view bor s : HM K V HView) = (do let it ← hm.iter; pure (g it)) →
      Triple (fun _ => ∃ m, M.view bor s = .panic m) (own hm M ta) (hm.view bor s)
        (fun r => fact (∃ y, M.view bor s = .ok y ∧ ViewAt M.height ta y r) ∗ own hm M ta) := fun f g hfg e1 e2 => by
    rw [e2]
    refine Triple.seq (iter_own hi) fun r => ?_
    refine Triple.getFact fun hr => ?_
    exact Triple.ofPure (Ent.putFact ⟨f it, by rw [e1, hi]; rfl, hfg _ _ hr⟩ (Ent.refl _))
  have ranges : ∀ (lo hi : Bound Q) (f : Range → View) (g : HRange → HView), (∀ a b, RangeAt M.height ta a b → ViewAt M.height ta (f a) (g b)) →
      M.view bor s = (do let r ← M.range bor lo hi; Exec.ok (f r)) → (hm.view bor s : HM K V HView) = (do let r ← hm.range bor lo hi; pure (g r)) →
      Triple (fun _ => ∃ m, M.view bor s = .panic m) (own hm M ta) (hm.view bor s)
        (fun r => fact (∃ y, M.view bor s = .ok y ∧ ViewAt M.height ta y r) ∗ own hm M ta) := fun lo hi f g hfg e1 e2 => by
    have hu2 : M.range bor lo hi ≠ .ub := fun h => by rw [e1, h] at hu; exact hu rfl
    rw [e2]
    refine Triple.seq (Triple.weaken (range_own rfl hu2) ?_) fun r => ?_
    · rintro _ ⟨m, hm⟩
      exact ⟨m, by rw [e1, hm]; rfl⟩
    refine Triple.getFact fun hr => ?_
    obtain ⟨y, hy, hr⟩ := hr
    refine Triple.ofPure (Ent.putFact ⟨f y, by rw [e1, hy]; rfl, hfg _ _ hr⟩ (Ent.refl _))
  cases s with
  | iter => exact iters .iter .iter (fun _ _ h => h) rfl rfl
  | keys => exact iters .keys .keys (fun _ _ h => h) rfl rfl
  | values => exact iters .values .values (fun _ _ h => h) rfl rfl
  | range lo hi => exact ranges lo hi .range .range (fun _ _ h => h) rfl rfl
  | setRange lo hi => exact ranges lo hi .setRange .setRange (fun _ _ h => h) rfl rfl

/-- One step of a program. -/
theorem viewAct_own [Ord Q] {bor : K → Q} {hm : HMap} {M : Map K V} {ta : ATree K V} (hM : M.WF) (hh : hm.root.height = M.height) (hl : hm.length = M.length) {a : ViewAct Q}
    {vs vs' : List View} {hs : List HView} {o : Seen K V} (h : BTree.ViewAct.run M bor vs a = .ok (o, vs')) (hat : ViewsAt M.height ta vs hs) :
    Triple E (own hm M ta) (ViewAct.hrun hm bor hs a) (fun r => fact (r.1 = o ∧ ViewsAt M.height ta vs' r.2) ∗ own hm M ta) := by
  have hb : M.height ≤ hm.root.height := by rw [hh]; exact Nat.le_refl _
  have look : ∀ (i : Nat) {f : View → Exec (Seen K V × List View)} {hf : HView → HM K V (Seen K V × List HView)},
      BTree.onView vs i f = .ok (o, vs') →
      (∀ v hv, f v = .ok (o, vs') → ViewAt M.height ta v hv →
        Triple E (own hm M ta) (hf hv) (fun r => fact (r.1 = o ∧ ViewsAt M.height ta vs' r.2) ∗ own hm M ta)) →
      Triple E (own hm M ta) (onHView hs i hf) (fun r => fact (r.1 = o ∧ ViewsAt M.height ta vs' r.2) ∗ own hm M ta) := fun i f hf hx hk => by
    unfold BTree.onView at hx
    unfold onHView
    cases hi : vs[i]? with
    | none =>
      rw [hi] at hx
      have : hs[i]? = none := by rw [List.getElem?_eq_none_iff] at hi ⊢; rw [← hat.1]; exact hi
      rw [this]
      simp only [Exec.ok.injEq, Prod.mk.injEq] at hx
      obtain ⟨rfl, rfl⟩ := hx
      exact Triple.ofPure (Ent.putFact ⟨rfl, hat⟩ (Ent.refl _))
    | some v =>
      obtain ⟨hv, h1, h2⟩ := hat.get hi
      rw [hi] at hx
      rw [h1]
      exact hk v hv hx h2
  cases a with
  | start s =>
    simp only [BTree.ViewAct.run] at h
    unfold ViewAct.hrun
    have hu : M.view bor s ≠ .ub := fun hu => by rw [hu] at h; cases h
    refine Triple.seq (Triple.catchRead (view_own hM s hu)) fun r => ?_
    cases r with
    | none =>
      dsimp only
      refine Triple.getFact fun hp => ?_
      obtain ⟨_, m, hp⟩ := hp
      rw [hp] at h
      simp only [Exec.ok.injEq, Prod.mk.injEq] at h
      obtain ⟨rfl, rfl⟩ := h
      exact Triple.ofPure (Ent.putFact ⟨rfl, hat⟩ (Ent.refl _))
    | some hv =>
      dsimp only
      refine Triple.getFact fun hp => ?_
      obtain ⟨y, hy, hp⟩ := hp
      rw [hy] at h
      simp only [Exec.ok.injEq, Prod.mk.injEq] at h
      obtain ⟨rfl, rfl⟩ := h
      exact Triple.ofPure (Ent.putFact ⟨rfl, hat.add hp⟩ (Ent.refl _))
  | clone i =>
    refine look i h fun v hv hx hva => ?_
    simp only [Exec.ok.injEq, Prod.mk.injEq] at hx
    obtain ⟨rfl, rfl⟩ := hx
    exact Triple.ofPure (Ent.putFact ⟨rfl, hat.add hva.clone⟩ (Ent.refl _))
  | ask i e =>
    refine look i h fun v hv hx hva => ?_
    obtain ⟨⟨x, v'⟩, h1, hx⟩ := Exec.bind_eq_ok.1 hx
    simp only [Exec.ok.injEq, Prod.mk.injEq] at hx
    obtain ⟨rfl, rfl⟩ := hx
    refine Triple.seq (view_step_own hb h1 hva) fun r => ?_
    refine Triple.getFact fun hr => ?_
    exact Triple.ofPure (Ent.putFact ⟨by rw [hr.1], hat.set hr.2 i⟩ (Ent.refl _))
  | hint i =>
    refine look i h fun v hv hx hva => ?_
    simp only [Exec.ok.injEq, Prod.mk.injEq] at hx
    obtain ⟨rfl, rfl⟩ := hx
    exact Triple.ofPure (Ent.putFact ⟨by rw [hva.hint], hat⟩ (Ent.refl _))
  | debug i =>
    refine look i h fun v hv hx hva => ?_
    obtain ⟨l, h1, hx⟩ := Exec.bind_eq_ok.1 hx
    simp only [Exec.ok.injEq, Prod.mk.injEq] at hx
    obtain ⟨rfl, rfl⟩ := hx
    refine Triple.seq (view_debug_own hh hl h1 hva) fun r => ?_
    refine Triple.getFact fun hr => ?_
    exact Triple.ofPure (Ent.putFact ⟨by rw [hr], hat⟩ (Ent.refl _))

theorem viewActs_own [Ord Q] {bor : K → Q} {hm : HMap} {M : Map K V} {ta : ATree K V} (hM : M.WF) (hh : hm.root.height = M.height) (hl : hm.length = M.length) :
    ∀ {as : List (ViewAct Q)} {vs : List View} {hs : List HView} {os : List (Seen K V)}, BTree.ViewAct.runs M bor as vs = .ok os → ViewsAt M.height ta vs hs →
    Triple E (own hm M ta) (ViewAct.hruns hm bor as hs) (fun r => fact (r = os) ∗ own hm M ta)
  | [], vs, hs, os, h, _ => by
    simp only [BTree.ViewAct.runs, Exec.ok.injEq] at h
    subst h
    exact Triple.ofPure (Ent.putFact rfl (Ent.refl _))
  | a :: as, vs, hs, os, h, hat => by
    simp only [BTree.ViewAct.runs] at h
    obtain ⟨⟨o, vs'⟩, h1, h⟩ := Exec.bind_eq_ok.1 h
    obtain ⟨os', h2, h⟩ := Exec.bind_eq_ok.1 h
    simp only [Exec.ok.injEq] at h
    subst h
    unfold ViewAct.hruns
    refine Triple.seq (viewAct_own hM hh hl h1 hat) fun r => ?_
    refine Triple.getFact fun hr => ?_
    refine Triple.seq (viewActs_own hM hh hl h2 hr.2) fun z => ?_
    refine Triple.getFact fun hz => ?_
    exact Triple.ofPure (Ent.putFact (by rw [hr.1, hz]) (Ent.refl _))

theorem views_ref [Ord Q] {bor : K → Q} {hm : HMap} {M : Map K V} {ta : ATree K V} {as : List (ViewAct Q)} {os : List (Seen K V)}
    (hM : M.WF) (h : BTree.ViewAct.runs M bor as [] = .ok os) :
    Triple E (own hm M ta) (ViewAct.hruns hm bor as []) (fun r => fact (r = os) ∗ own hm M ta) := by
  refine Triple.pre ?_ own_length
  refine Triple.getFact fun hl => ?_
  exact viewActs_own hM hl.2 hl.1 h ⟨rfl, by simp⟩

end Verif.Heap
