import Verif.BTree.Views
import Verif.BTree.Proofs.RangeSearch
/-
Programs over several shared iterators answer what the specification says.
-/
namespace Verif.BTree
open Verif Verif.Spec

variable {K V Q : Type}

/-- The iterator is at the position that the specification says. -/
def ViewIs (m : Map K V) (v : View) (pd : Pending K V Q) : Prop :=
  ∃ pre post, match v, pd.src with
    | .iter it, .iter => it.length = pd.left.length ∧ Window m it.range pre pd.left post
    | .keys it, .keys => it.length = pd.left.length ∧ Window m it.range pre pd.left post
    | .values it, .values => it.length = pd.left.length ∧ Window m it.range pre pd.left post
    | .range r, .range .. => Window m r pre pd.left post
    | .setRange r, .setRange .. => Window m r pre pd.left post
    | _, _ => False

theorem ViewIs.cases {m : Map K V} {v : View} {pd : Pending K V Q} (h : ViewIs m v pd) {P : Prop}
    (hi : ∀ it pre post, pd.src = .iter → v = .iter it → it.length = pd.left.length → Window m it.range pre pd.left post → P)
    (hk : ∀ it pre post, pd.src = .keys → v = .keys it → it.length = pd.left.length → Window m it.range pre pd.left post → P)
    (hv : ∀ it pre post, pd.src = .values → v = .values it → it.length = pd.left.length → Window m it.range pre pd.left post → P)
    (hr : ∀ r lo hi pre post, pd.src = .range lo hi → v = .range r → Window m r pre pd.left post → P)
    (hs : ∀ r lo hi pre post, pd.src = .setRange lo hi → v = .setRange r → Window m r pre pd.left post → P) : P := by
  obtain ⟨src, left⟩ := pd
  obtain ⟨pre, post, h⟩ := h
  cases v <;> cases src <;> first | exact h.elim | skip
  · exact hi _ _ _ rfl rfl h.1 h.2
  · exact hk _ _ _ rfl rfl h.1 h.2
  · exact hv _ _ _ rfl rfl h.1 h.2
  · exact hr _ _ _ _ _ rfl rfl h
  · exact hs _ _ _ _ _ rfl rfl h

theorem ViewIs.step {m : Map K V} (hb : Below m.height m.root) {v : View} {pd : Pending K V Q} (h : ViewIs m v pd) (e : End) :
    ∃ v', v.step m e = .ok ((pop e pd.left).1.map pd.src.item, v') ∧ ViewIs m v' ⟨pd.src, (pop e pd.left).2⟩ := by
  refine h.cases ?_ ?_ ?_ ?_ ?_
  · rintro it pre post hs rfl hl w
    obtain ⟨it', h1, h2, h3⟩ := Iter.step_spec hb w hl e
    refine ⟨.iter it', ?_, (shift pre pd.left post e).1, (shift pre pd.left post e).2, ?_⟩
    · simp only [View.step, h1, Exec.ok_bind, hs]; rfl
    · simp only [hs]; exact ⟨h2, h3⟩
  · rintro it pre post hs rfl hl w
    obtain ⟨it', h1, h2, h3⟩ := Iter.step_spec hb w hl e
    refine ⟨.keys it', ?_, (shift pre pd.left post e).1, (shift pre pd.left post e).2, ?_⟩
    · simp only [View.step, Iter.stepMap, h1, Exec.ok_bind, hs, Option.map_map]; rfl
    · simp only [hs]; exact ⟨h2, h3⟩
  · rintro it pre post hs rfl hl w
    obtain ⟨it', h1, h2, h3⟩ := Iter.step_spec hb w hl e
    refine ⟨.values it', ?_, (shift pre pd.left post e).1, (shift pre pd.left post e).2, ?_⟩
    · simp only [View.step, Iter.stepMap, h1, Exec.ok_bind, hs, Option.map_map]; rfl
    · simp only [hs]; exact ⟨h2, h3⟩
  · rintro r lo hi pre post hs rfl w
    obtain ⟨r', h1, h3⟩ := Range.step_spec hb w e
    refine ⟨.range r', ?_, (shift pre pd.left post e).1, (shift pre pd.left post e).2, ?_⟩
    · simp only [View.step, h1, Exec.ok_bind, hs]; rfl
    · simp only [hs]; exact h3
  · rintro r lo hi pre post hs rfl w
    obtain ⟨r', h1, h3⟩ := Range.step_spec hb w e
    refine ⟨.setRange r', ?_, (shift pre pd.left post e).1, (shift pre pd.left post e).2, ?_⟩
    · simp only [View.step, h1, Exec.ok_bind, hs]; rfl
    · simp only [hs]; exact h3

theorem ViewIs.clone {m : Map K V} {v : View} {pd : Pending K V Q} (h : ViewIs m v pd) : ViewIs m v.clone pd := by
  cases v <;> exact h

theorem ViewIs.hint {m : Map K V} {v : View} {pd : Pending K V Q} (h : ViewIs m v pd) : v.sizeHint = pd.src.hintFor pd.left.length := by
  refine h.cases ?_ ?_ ?_ ?_ ?_
  · rintro it pre post hs rfl hl w; simp only [View.sizeHint, Iter.sizeHint, hs, Source.hintFor, hl]
  · rintro it pre post hs rfl hl w; simp only [View.sizeHint, Iter.sizeHint, hs, Source.hintFor, hl]
  · rintro it pre post hs rfl hl w; simp only [View.sizeHint, Iter.sizeHint, hs, Source.hintFor, hl]
  · rintro r lo hi pre post hs rfl w; simp only [View.sizeHint, hs, Source.hintFor]
  · rintro r lo hi pre post hs rfl w; simp only [View.sizeHint, hs, Source.hintFor]

theorem ViewIs.drain {m : Map K V} (hb : Below m.height m.root) : ∀ (fuel : Nat) {v : View} {pd : Pending K V Q}, ViewIs m v pd → pd.left.length < fuel →
    v.drain m fuel = .ok (pd.left.map pd.src.item)
  | 0, _, _, _, hf => absurd hf (Nat.not_lt_zero _)
  | fuel + 1, v, pd, h, hf => by
    obtain ⟨v', h1, h2⟩ := h.step hb .front
    obtain ⟨src, left⟩ := pd
    cases left with
    | nil => simp only [View.drain, h1, Exec.ok_bind, pop, Option.map_none, List.map_nil]
    | cons kv left =>
      have := ViewIs.drain hb fuel h2 (by simp [pop] at hf ⊢; omega)
      simp only [View.drain, h1, Exec.ok_bind, pop, Option.map_some, this, List.map_cons]

theorem ViewIs.fits {m : Map K V} {v : View} {pd : Pending K V Q} (h : ViewIs m v pd) : pd.left.length ≤ m.toList.length := by
  have key : ∀ {r pre post}, Window m r pre pd.left post → pd.left.length ≤ m.toList.length := fun w => by
    rw [w.all]; simp only [List.length_append]; omega
  exact h.cases (fun _ _ _ _ _ _ w => key w) (fun _ _ _ _ _ _ w => key w) (fun _ _ _ _ _ _ w => key w) (fun _ _ _ _ _ _ _ w => key w)
    (fun _ _ _ _ _ _ _ w => key w)

theorem ViewIs.debug {x : Nat} {m : Map K V} (hm : m.Shaped x) {v : View} {pd : Pending K V Q} (h : ViewIs m v pd) :
    v.debug m = .ok (pd.left.map pd.src.shown) := by
  have hf : pd.left.length < m.length + 1 := by have := h.fits; have := hm.len; omega
  refine h.cases ?_ ?_ ?_ ?_ ?_
  · rintro it pre post hs rfl hl w
    rw [View.debug, h.clone.drain hm.below _ hf, hs]
    · rfl
    · simp
  · rintro it pre post hs rfl hl w
    rw [View.debug, h.clone.drain hm.below _ hf, hs]
    · rfl
    · simp
  · rintro it pre post hs rfl hl w
    rw [View.debug, h.clone.drain hm.below _ hf, hs]
    · rfl
    · simp
  · rintro r lo hi pre post hs rfl w
    rw [View.debug, h.clone.drain hm.below _ hf, hs]
    · rfl
    · simp
  · rintro r lo hi pre post hs rfl w
    have h' : ViewIs m (.range r) (⟨.range lo hi, pd.left⟩ : Pending K V Q) := ⟨pre, post, w⟩
    rw [View.debug, h'.clone.drain hm.below _ hf, hs]; rfl

/-- Opening an iterator. -/
theorem Map.view_spec [Ord K] [Ord Q] [Std.TransOrd Q] {bor : K → Q} (hbo : BorrowOK bor) {m : Map K V} (h : m.Ordered 0) (s : Source Q) :
    match s.entries bor m.toList with
    | some xs => ∃ v, m.view bor s = .ok v ∧ ViewIs m v (⟨s, xs⟩ : Pending K V Q)
    | none => ∃ msg, m.view bor s = .panic msg := by
  obtain ⟨it, h1, h2, h3⟩ := Map.iter_spec h.toShaped
  have hl : it.length = m.toList.length := by have := h.len; omega
  cases s with
  | iter => exact ⟨.iter it, by simp only [Map.view, h1, Exec.ok_bind], [], [], hl, h3⟩
  | keys => exact ⟨.keys it, by simp only [Map.view, h1, Exec.ok_bind], [], [], hl, h3⟩
  | values => exact ⟨.values it, by simp only [Map.view, h1, Exec.ok_bind], [], [], hl, h3⟩
  | range lo hi =>
    rcases Map.range_ordered hbo h lo hi with ⟨hb, msg, hr⟩ | ⟨hb, r, pre, post, hr, w⟩
    · simp only [Source.entries, hb, if_true]
      exact ⟨msg, by simp only [Map.view, hr]; rfl⟩
    · simp only [Source.entries, hb, Bool.false_eq_true, if_false]
      exact ⟨.range r, by simp only [Map.view, hr, Exec.ok_bind], pre, post, w⟩
  | setRange lo hi =>
    rcases Map.range_ordered hbo h lo hi with ⟨hb, msg, hr⟩ | ⟨hb, r, pre, post, hr, w⟩
    · simp only [Source.entries, hb, if_true]
      exact ⟨msg, by simp only [Map.view, hr]; rfl⟩
    · simp only [Source.entries, hb, Bool.false_eq_true, if_false]
      exact ⟨.setRange r, by simp only [Map.view, hr, Exec.ok_bind], pre, post, w⟩

/-- All iterators are where they should be. -/
def ViewsAre (m : Map K V) (vs : List View) (ps : List (Pending K V Q)) : Prop :=
  vs.length = ps.length ∧ ∀ (i : Nat) v pd, vs[i]? = some v → ps[i]? = some pd → ViewIs m v pd

theorem ViewsAre.add {m : Map K V} {vs : List View} {ps : List (Pending K V Q)} (h : ViewsAre m vs ps) {v pd} (hv : ViewIs m v pd) :
    ViewsAre m (vs ++ [v]) (ps ++ [pd]) := by
  refine ⟨by simp [h.1], fun i v' pd' h1 h2 => ?_⟩
  rcases Nat.lt_trichotomy i vs.length with hi | hi | hi
  · rw [List.getElem?_append_left hi] at h1
    rw [List.getElem?_append_left (by rw [← h.1]; exact hi)] at h2
    exact h.2 i _ _ h1 h2
  · rw [hi, List.getElem?_concat_length] at h1
    rw [hi, h.1, List.getElem?_concat_length] at h2
    obtain rfl := Option.some.inj h1
    obtain rfl := Option.some.inj h2
    exact hv
  · rw [List.getElem?_eq_none (by simp; omega)] at h1
    cases h1

theorem ViewsAre.set {m : Map K V} {vs : List View} {ps : List (Pending K V Q)} (h : ViewsAre m vs ps) {v pd} (hv : ViewIs m v pd) (i : Nat) :
    ViewsAre m (vs.set i v) (ps.set i pd) := by
  refine ⟨by simp [h.1], fun j v' pd' h1 h2 => ?_⟩
  rw [List.getElem?_set] at h1 h2
  by_cases hij : i = j
  · rw [if_pos hij] at h1 h2
    split at h1
    · split at h2
      · obtain rfl := Option.some.inj h1
        obtain rfl := Option.some.inj h2
        exact hv
      · cases h2
    · cases h1
  · rw [if_neg hij] at h1 h2
    exact h.2 j _ _ h1 h2

theorem ViewAct.run_spec [Ord K] [Ord Q] [Std.TransOrd Q] {bor : K → Q} (hbo : BorrowOK bor) {m : Map K V} (h : m.Ordered 0) (a : ViewAct Q)
    {vs : List View} {ps : List (Pending K V Q)} (hp : ViewsAre m vs ps) :
    ∃ vs', ViewAct.run m bor vs a = .ok ((a.spec bor m.toList ps).1, vs') ∧ ViewsAre m vs' (a.spec bor m.toList ps).2 := by
  -- steps that look at one iterator
  have on : ∀ (i : Nat) (f : View → Exec (Seen K V × List View)) (g : Pending K V Q → Seen K V × List (Pending K V Q)),
      (∀ v pd, ViewIs m v pd → ∃ vs', f v = .ok ((g pd).1, vs') ∧ ViewsAre m vs' (g pd).2) →
      ∃ vs', onView vs i f = .ok ((onPending ps i g).1, vs') ∧ ViewsAre m vs' (onPending ps i g).2 := fun i f g hfg => by
    unfold onView onPending
    cases hv : vs[i]? with
    | none =>
      have : ps[i]? = none := by rw [List.getElem?_eq_none_iff, ← hp.1]; exact List.getElem?_eq_none_iff.1 hv
      rw [this]
      exact ⟨vs, rfl, hp⟩
    | some v =>
      have hi : i < ps.length := by rw [← hp.1]; exact (List.getElem?_eq_some_iff.1 hv).1
      rw [List.getElem?_eq_getElem hi]
      exact hfg v _ (hp.2 i _ _ hv (List.getElem?_eq_getElem hi))
  cases a with
  | start s =>
    have hs := Map.view_spec hbo h s
    simp only [ViewAct.run, ViewAct.spec]
    cases he : s.entries bor m.toList with
    | some xs =>
      rw [he] at hs
      obtain ⟨v, h1, h2⟩ := hs
      rw [h1]
      exact ⟨_, rfl, hp.add h2⟩
    | none =>
      rw [he] at hs
      obtain ⟨msg, h1⟩ := hs
      rw [h1]
      exact ⟨_, rfl, hp⟩
  | clone i => exact on i _ _ fun v pd hv => ⟨_, rfl, hp.add hv.clone⟩
  | ask i e =>
    refine on i _ _ fun v pd hv => ?_
    obtain ⟨v', h1, h2⟩ := hv.step h.below e
    exact ⟨_, by rw [h1]; rfl, hp.set h2 i⟩
  | hint i => exact on i _ _ fun v pd hv => ⟨_, by rw [hv.hint], hp⟩
  | debug i =>
    refine on i _ _ fun v pd hv => ⟨vs, ?_, hp⟩
    rw [hv.debug h.toShaped]; rfl

theorem ViewAct.runs_spec [Ord K] [Ord Q] [Std.TransOrd Q] {bor : K → Q} (hbo : BorrowOK bor) {m : Map K V} (h : m.Ordered 0) :
    ∀ (as : List (ViewAct Q)) {vs : List View} {ps : List (Pending K V Q)}, ViewsAre m vs ps →
      ViewAct.runs m bor as vs = .ok (ViewAct.specs bor m.toList as ps)
  | [], _, _, _ => rfl
  | a :: as, vs, ps, hp => by
    obtain ⟨vs', h1, h2⟩ := ViewAct.run_spec hbo h a hp
    simp only [ViewAct.runs, h1, Exec.ok_bind, ViewAct.runs_spec hbo h as h2, ViewAct.specs]

end Verif.BTree
