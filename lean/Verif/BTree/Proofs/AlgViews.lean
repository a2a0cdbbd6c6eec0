import Verif.BTree.AlgViews
import Verif.BTree.Proofs.SetAny
/-
Programs over several set-algebra iterators answer what the specification says.
-/
namespace Verif.BTree
open Verif Verif.Spec

variable {T : Type}

/-- The iterator has exactly the items `out` still to come. -/
def AlgIs [Ord T] (s o oi : BSet T) (c ci : T → Bool) (v : AlgView T) (out : List T) : Prop :=
  match v with
  | .difference d => Difference.Left o c s.elems d out
  | .symmetricDifference t => t.SymLeft out
  | .intersection d => Intersection.Left oi ci d out
  | .union t => t.UnionLeft out

theorem AlgIs.yields [Ord T] {s o oi : BSet T} {c ci : T → Bool} (hc : ∀ x, o.contains id x = .ok (c x)) (hci : ∀ x, oi.contains id x = .ok (ci x)) :
    Yields AlgView.next (AlgIs s o oi c ci) := by
  intro v out h
  cases v with
  | difference d =>
    obtain ⟨d', h1, h2⟩ := Difference.yields o c hc s.elems d out h
    exact ⟨.difference d', by simp only [AlgView.next, h1, Exec.ok_bind], h2⟩
  | symmetricDifference t =>
    obtain ⟨d', h1, h2⟩ := TwoIters.symYields t out h
    exact ⟨.symmetricDifference d', by simp only [AlgView.next, h1, Exec.ok_bind], h2⟩
  | intersection d =>
    obtain ⟨d', h1, h2⟩ := Intersection.yields oi ci hci d out h
    exact ⟨.intersection d', by simp only [AlgView.next, h1, Exec.ok_bind], h2⟩
  | union t =>
    obtain ⟨d', h1, h2⟩ := TwoIters.unionYields t out h
    exact ⟨.union d', by simp only [AlgView.next, h1, Exec.ok_bind], h2⟩

theorem AlgView.clone_eq (v : AlgView T) : v.clone = v := by
  rcases v with (_ | _) | _ | (_ | _) | _ <;> rfl

theorem AlgIs.hint [Ord T] [Std.TransOrd T] {s o oi : BSet T} {c ci : T → Bool} (hs : s.map.Valid) (ho : o.map.Valid)
    (hc : ∀ x, c x = true ↔ Has x o.elems) {v : AlgView T} {out : List T} (h : AlgIs s o oi c ci v out) : HintHolds v.sizeHint out.length := by
  cases v with
  | difference d =>
    cases d with
    | stitch i j =>
      obtain ⟨l, r, e1, e2, rfl⟩ := h
      have := length_diffList l r
      simp only [AlgView.sizeHint, HintHolds, Difference.sizeHint, e1.len, e2.len, Option.some.injEq, forall_eq']
      omega
    | search i o' =>
      obtain ⟨rfl, l, e1, e2, rfl⟩ := h
      have hll := length_filter_lower l o'.elems ((BSet.ascending hs).sublist e2.sublist) (BSet.ascending ho) c (fun x _ => hc x)
      have := List.length_filter_le (!c ·) l
      simp only [AlgView.sizeHint, HintHolds, Difference.sizeHint, e1.len, BSet.len_spec ho.toShaped, Option.some.injEq, forall_eq']
      omega
  | symmetricDifference t =>
    obtain ⟨l, r, e1, e2, e3⟩ := h
    rw [e3]
    have := length_symList l r
    simp only [AlgView.sizeHint, HintHolds, TwoIters.symDiffHint, e1.len, e2.len, Option.some.injEq, forall_eq']
    omega
  | intersection d =>
    cases d with
    | stitch i j =>
      obtain ⟨l, r, e1, e2, rfl⟩ := h
      have := length_interList l r
      simp only [AlgView.sizeHint, HintHolds, Intersection.sizeHint, e1.len, Option.some.injEq, forall_eq']
      omega
    | search i o' =>
      obtain ⟨rfl, l, e1, rfl⟩ := h
      have := List.length_filter_le (ci ·) l
      simp only [AlgView.sizeHint, HintHolds, Intersection.sizeHint, e1.len, Option.some.injEq, forall_eq']
      omega
  | union t =>
    obtain ⟨l, r, e1, e2, e3⟩ := h
    rw [e3]
    have := length_unionList l r
    simp only [AlgView.sizeHint, HintHolds, TwoIters.unionHint, e1.len, e2.len, Option.some.injEq, forall_eq']
    omega

/-- What the four iterators over two sets will yield, whatever the order: `outs`. -/
structure AlgPlan [Ord T] (s o : BSet T) where
  other : BSet T
  c : T → Bool
  ci : T → Bool
  outs : AlgKind → List T
  has : ∀ x, o.contains id x = .ok (c x)
  hasi : ∀ x, other.contains id x = .ok (ci x)
  diff : ∃ d, s.difference o = .ok d ∧ Difference.Left o c s.elems d (outs .difference)
  two : ∃ t, s.twoIters o = .ok t ∧ t.SymLeft (outs .symmetricDifference) ∧ t.UnionLeft (outs .union)
  inter : ∃ d, s.intersection o = .ok d ∧ Intersection.Left other ci d (outs .intersection)
  mem : ∀ k, ∀ x ∈ outs k, x ∈ s.elems ∨ x ∈ o.elems
  len : (outs .difference).length ≤ s.elems.length ∧ (outs .intersection).length ≤ min s.elems.length o.elems.length ∧
    (outs .symmetricDifference).length ≤ s.elems.length + o.elems.length ∧ (outs .union).length ≤ s.elems.length + o.elems.length
  lawful : [Std.TransOrd T] → s.map.Valid → o.map.Valid → (∀ x, c x = true ↔ Has x o.elems) ∧ ∀ k : AlgKind, k.Out s.elems o.elems (outs k)

theorem algPlan [Ord T] {s o : BSet T} (hs : s.map.WF) (ho : o.map.WF) : Nonempty (AlgPlan s o) := by
  obtain ⟨c, hc⟩ := BSet.contains_total ho (id : T → T)
  obtain ⟨d, outd, d1, d2, d3⟩ := BSet.difference_spec hs ho c
  obtain ⟨t, t1, t2, t3⟩ := BSet.twoIters_spec hs ho
  obtain ⟨small, other, i1, i2⟩ := BSet.intersection_spec hs ho
  have how : other.map.WF := by rcases i1 with ⟨_, _, rfl⟩ | ⟨_, _, rfl⟩ <;> assumption
  obtain ⟨ci, hci⟩ := BSet.contains_total how (id : T → T)
  obtain ⟨e, oute, e1, e2, e3⟩ := i2 ci hci
  have hi : ∀ x ∈ oute, x ∈ small.elems := by
    rcases e3 with rfl | rfl
    · exact mem_interList _ _
    · exact fun x hx => (List.mem_filter.1 hx).1
  have hil : oute.length ≤ small.elems.length := by
    rcases e3 with rfl | rfl
    · exact length_interList _ _
    · exact List.length_filter_le ..
  have hd : ∀ x ∈ outd, x ∈ s.elems := by
    rcases d3 with rfl | rfl
    · exact mem_diffList _ _
    · exact fun x hx => (List.mem_filter.1 hx).1
  have hdl : outd.length ≤ s.elems.length := by
    rcases d3 with rfl | rfl
    · exact (length_diffList _ _).1
    · exact List.length_filter_le ..
  refine ⟨⟨other, c, ci, fun | .difference => outd | .symmetricDifference => symList s.elems o.elems | .intersection => oute | .union => unionList s.elems o.elems, hc, hci,
    ⟨d, d1, d2⟩, ⟨t, t1, ⟨_, _, t2, t3, rfl⟩, ⟨_, _, t2, t3, rfl⟩⟩, ⟨e, e1, e2⟩, ?_, ⟨hdl, ?_, length_symList _ _, (length_unionList _ _).1⟩, ?_⟩⟩
  · intro k x hx
    cases k with
    | difference => exact .inl (hd x hx)
    | symmetricDifference => exact mem_symList _ _ x hx
    | intersection =>
      rcases i1 with ⟨_, rfl, _⟩ | ⟨_, rfl, _⟩
      · exact .inl (hi x hx)
      · exact .inr (hi x hx)
    | union => exact mem_unionList _ _ x hx
  · rcases i1 with ⟨_, rfl, rfl⟩ | ⟨_, rfl, rfl⟩ <;> dsimp only <;> omega
  · intro _ hs ho
    obtain ⟨c', h1, h2⟩ := BSet.contains_has ho
    obtain rfl : c = c' := funext fun x => by have := hc x; rw [h1 x] at this; exact (Exec.ok.inj this).symm
    have hov : other.map.Valid := by rcases i1 with ⟨_, _, rfl⟩ | ⟨_, _, rfl⟩ <;> assumption
    have hsm : small.map.Valid := by rcases i1 with ⟨_, rfl, _⟩ | ⟨_, rfl, _⟩ <;> assumption
    obtain ⟨ci', h3, h4⟩ := BSet.contains_has hov
    obtain rfl : ci = ci' := funext fun x => by have := hci x; rw [h3 x] at this; exact (Exec.ok.inj this).symm
    refine ⟨h2, fun k => ?_⟩
    cases k with
    | difference =>
      show IsDifference _ _ outd
      rcases d3 with rfl | rfl
      · exact diffList_spec _ _ (BSet.ascending hs) (BSet.ascending ho)
      · exact filter_not_isDifference (BSet.ascending hs) h2
    | symmetricDifference => exact symList_spec _ _ (BSet.ascending hs) (BSet.ascending ho)
    | intersection =>
      show if _ then IsIntersection _ _ oute else IsIntersection _ _ oute
      have hi : IsIntersection small.elems other.elems oute := by
        rcases e3 with rfl | rfl
        · exact interList_spec _ _ (BSet.ascending hsm) (BSet.ascending hov)
        · exact filter_isIntersection (BSet.ascending hsm) h4
      rcases i1 with ⟨h, rfl, rfl⟩ | ⟨h, rfl, rfl⟩
      · simpa [h] using hi
      · simpa [h] using hi
    | union => exact unionList_spec _ _ (BSet.ascending hs) (BSet.ascending ho)

theorem AlgPlan.start [Ord T] {s o : BSet T} (p : AlgPlan s o) (k : AlgKind) : ∃ v, s.algView o k = .ok v ∧ AlgIs s o p.other p.c p.ci v (p.outs k) := by
  cases k with
  | difference => obtain ⟨d, h1, h2⟩ := p.diff; exact ⟨.difference d, by simp only [BSet.algView, h1, Exec.ok_bind], h2⟩
  | symmetricDifference => obtain ⟨d, h1, h2, _⟩ := p.two; exact ⟨.symmetricDifference d, by simp only [BSet.algView, h1, Exec.ok_bind], h2⟩
  | intersection => obtain ⟨d, h1, h2⟩ := p.inter; exact ⟨.intersection d, by simp only [BSet.algView, h1, Exec.ok_bind], h2⟩
  | union => obtain ⟨d, h1, _, h2⟩ := p.two; exact ⟨.union d, by simp only [BSet.algView, h1, Exec.ok_bind], h2⟩

/-! ### printing -/

theorem SetIter.Left.drain : ∀ (fuel : Nat) {i : SetIter T} {l : List T}, i.Left l → l.length < fuel → i.drain fuel = .ok l
  | 0, _, _, _, h => by omega
  | fuel + 1, i, l, h, hf => by
    obtain ⟨i', h1, h2⟩ := h.next
    cases l with
    | nil => simp [SetIter.drain, h1]
    | cons x l =>
      have := SetIter.Left.drain fuel h2 (by simpa using hf)
      simp only [List.tail_cons] at this
      simp [SetIter.drain, h1, this]

theorem SetIter.Left.debug {i : SetIter T} {l : List T} (h : i.Left l) : i.debug = .ok l := by
  unfold SetIter.debug
  exact SetIter.Left.drain (i := i.clone) _ h (by have := h.len; omega)

theorem Peekable.Left.debug {p : Peekable T} {l : List T} (h : p.Left l) : ∃ sh, p.debug = .ok sh ∧ sh.items = l := by
  obtain ⟨i, pk⟩ := p
  rcases pk with _ | _ | x
  · have : i.debug = .ok l := SetIter.Left.debug h
    exact ⟨.peekable l none, by simp [Peekable.debug, this], rfl⟩
  · obtain ⟨rfl, h⟩ := h
    have : i.debug = .ok [] := SetIter.Left.debug h
    exact ⟨.peekable [] (some none), by simp [Peekable.debug, this], rfl⟩
  · obtain ⟨r, rfl, h⟩ := h
    have : i.debug = .ok r := SetIter.Left.debug h
    exact ⟨.peekable r (some (some x)), by simp [Peekable.debug, this], rfl⟩

theorem TwoIters.debug_spec {t : TwoIters T} {l r : List T} (ha : t.a.Left l) (hb : t.b.Left r) :
    ∃ x y, t.debug = .ok [x, y] ∧ x.items = l ∧ y.items = r := by
  obtain ⟨x, h1, h2⟩ := ha.debug
  obtain ⟨y, h3, h4⟩ := hb.debug
  exact ⟨x, y, by simp [TwoIters.debug, h1, h3], h2, h4⟩

/-- Printing lists (at least) what is still to come. -/
theorem AlgIs.debug [Ord T] {s o oi : BSet T} {c ci : T → Bool} {v : AlgView T} {out : List T} (h : AlgIs s o oi c ci v out) :
    ∃ fs, v.debug = .ok fs ∧ ∀ x ∈ out, ∃ f ∈ fs, x ∈ f.items := by
  cases v with
  | difference d =>
    cases d with
    | stitch i j =>
      obtain ⟨l, r, e1, e2, rfl⟩ := h
      obtain ⟨y, h1, _⟩ := e2.debug
      exact ⟨[.iter l, y], by simp [AlgView.debug, Difference.debug, e1.debug, h1], fun x hx => ⟨.iter l, by simp, mem_diffList _ _ x hx⟩⟩
    | search i o' =>
      obtain ⟨rfl, l, e1, e2, rfl⟩ := h
      exact ⟨[.iter l], by simp [AlgView.debug, Difference.debug, e1.debug], fun x hx => ⟨.iter l, by simp, (List.mem_filter.1 hx).1⟩⟩
  | symmetricDifference t =>
    obtain ⟨l, r, e1, e2, rfl⟩ := h
    obtain ⟨y, z, h1, rfl, rfl⟩ := TwoIters.debug_spec e1 e2
    refine ⟨[y, z], h1, fun x hx => ?_⟩
    rcases mem_symList _ _ x hx with h | h
    · exact ⟨y, by simp, h⟩
    · exact ⟨z, by simp, h⟩
  | intersection d =>
    cases d with
    | stitch i j =>
      obtain ⟨l, r, e1, e2, rfl⟩ := h
      exact ⟨[.iter l, .iter r], by simp [AlgView.debug, Intersection.debug, e1.debug, e2.debug], fun x hx => ⟨.iter l, by simp, mem_interList _ _ x hx⟩⟩
    | search i o' =>
      obtain ⟨rfl, l, e1, rfl⟩ := h
      exact ⟨[.iter l], by simp [AlgView.debug, Intersection.debug, e1.debug], fun x hx => ⟨.iter l, by simp, (List.mem_filter.1 hx).1⟩⟩
  | union t =>
    obtain ⟨l, r, e1, e2, rfl⟩ := h
    obtain ⟨y, z, h1, rfl, rfl⟩ := TwoIters.debug_spec e1 e2
    refine ⟨[y, z], h1, fun x hx => ?_⟩
    rcases mem_unionList _ _ x hx with h | h
    · exact ⟨y, by simp, h⟩
    · exact ⟨z, by simp, h⟩

/-! ### pools -/

/-- Two lists of the same length related element by element. -/
def AlgPool (I : AlgView T → List T → Prop) (vs : List (AlgView T)) (ps : List (List T)) : Prop :=
  vs.length = ps.length ∧ ∀ (i : Nat) v l, vs[i]? = some v → ps[i]? = some l → I v l

theorem AlgPool.add {I : AlgView T → List T → Prop} {vs ps} (h : AlgPool I vs ps) {v l} (hv : I v l) : AlgPool I (vs ++ [v]) (ps ++ [l]) := by
  refine ⟨by simp [h.1], fun i v' pd' h1 h2 => ?_⟩
  rcases Nat.lt_trichotomy i vs.length with hi | hi | hi
  · rw [List.getElem?_append_left hi] at h1
    rw [List.getElem?_append_left (by rw [← h.1]; exact hi)] at h2
    exact h.2 i _ _ h1 h2
  · rw [hi, List.getElem?_concat_length] at h1
    rw [hi, h.1, List.getElem?_concat_length] at h2
    obtain rfl := Option.some.inj h1
    obtain rfl := Option.some.inj h2
    exact hv
  · rw [List.getElem?_eq_none (by simp; omega)] at h1
    cases h1

theorem AlgPool.set {I : AlgView T → List T → Prop} {vs ps} (h : AlgPool I vs ps) {v l} (hv : I v l) (i : Nat) :
    AlgPool I (vs.set i v) (ps.set i l) := by
  refine ⟨by simp [h.1], fun j v' pd' h1 h2 => ?_⟩
  rw [List.getElem?_set] at h1 h2
  by_cases hij : i = j
  · rw [if_pos hij] at h1 h2
    split at h1
    · split at h2
      · obtain rfl := Option.some.inj h1
        obtain rfl := Option.some.inj h2
        exact hv
      · cases h2
    · cases h1
  · rw [if_neg hij] at h1 h2
    exact h.2 j _ _ h1 h2

theorem AlgAct.run_spec [Ord T] {s o : BSet T} {I : AlgView T → List T → Prop} {outs : AlgKind → List T} (hy : Yields AlgView.next I)
    (hd : ∀ v l, I v l → ∃ fs, v.debug = .ok fs ∧ ∀ x ∈ l, ∃ f ∈ fs, x ∈ f.items) (hstart : ∀ k, ∃ v, s.algView o k = .ok v ∧ I v (outs k))
    (a : AlgAct) (hh : (∃ i, a = .hint i) → ∀ v l, I v l → HintHolds v.sizeHint l.length) {vs ps} (hp : AlgPool I vs ps) :
    ∃ x vs' ps', AlgAct.run s o vs a = .ok (x, vs') ∧ a.Right outs ps x ps' ∧ AlgPool I vs' ps' := by
  have none_of : ∀ {i : Nat}, vs[i]? = none → ps[i]? = none := fun hv => by
    rw [List.getElem?_eq_none_iff, ← hp.1]; exact List.getElem?_eq_none_iff.1 hv
  have some_of : ∀ {i : Nat} {v}, vs[i]? = some v → ∃ l, ps[i]? = some l ∧ I v l := fun {i v} hv => by
    have hi : i < ps.length := by rw [← hp.1]; exact (List.getElem?_eq_some_iff.1 hv).1
    exact ⟨_, List.getElem?_eq_getElem hi, hp.2 i _ _ hv (List.getElem?_eq_getElem hi)⟩
  cases a with
  | start k =>
    obtain ⟨v, h1, h2⟩ := hstart k
    exact ⟨_, _, _, by simp only [AlgAct.run, h1, Exec.ok_bind], ⟨rfl, rfl⟩, hp.add h2⟩
  | clone i =>
    simp only [AlgAct.run, onAlg, AlgAct.Right]
    cases hv : vs[i]? with
    | none => rw [none_of hv]; exact ⟨_, _, _, rfl, ⟨rfl, rfl⟩, hp⟩
    | some v =>
      obtain ⟨l, h1, h2⟩ := some_of hv
      rw [h1]
      exact ⟨_, _, _, rfl, ⟨rfl, rfl⟩, hp.add (by rw [AlgView.clone_eq]; exact h2)⟩
  | next i =>
    simp only [AlgAct.run, onAlg, AlgAct.Right]
    cases hv : vs[i]? with
    | none => rw [none_of hv]; exact ⟨_, _, _, rfl, ⟨rfl, rfl⟩, hp⟩
    | some v =>
      obtain ⟨l, h1, h2⟩ := some_of hv
      obtain ⟨v', h3, h4⟩ := hy v l h2
      rw [h1]
      exact ⟨_, _, _, by simp only [h3, Exec.ok_bind], ⟨rfl, rfl⟩, hp.set h4 i⟩
  | hint i =>
    simp only [AlgAct.run, onAlg, AlgAct.Right]
    cases hv : vs[i]? with
    | none => rw [none_of hv]; exact ⟨_, _, _, rfl, ⟨rfl, rfl⟩, hp⟩
    | some v =>
      obtain ⟨l, h1, h2⟩ := some_of hv
      rw [h1]
      exact ⟨_, _, _, rfl, ⟨_, rfl, hh ⟨i, rfl⟩ v l h2, rfl⟩, hp⟩
  | debug i =>
    simp only [AlgAct.run, onAlg, AlgAct.Right]
    cases hv : vs[i]? with
    | none => rw [none_of hv]; exact ⟨_, _, _, rfl, ⟨rfl, rfl⟩, hp⟩
    | some v =>
      obtain ⟨l, h1, h2⟩ := some_of hv
      obtain ⟨fs, h3, h4⟩ := hd v l h2
      rw [h1]
      exact ⟨_, _, _, by simp only [h3, Exec.ok_bind], ⟨fs, rfl, h4, rfl⟩, hp⟩

theorem AlgAct.runs_spec [Ord T] {s o : BSet T} {I : AlgView T → List T → Prop} {outs : AlgKind → List T} (hy : Yields AlgView.next I)
    (hd : ∀ v l, I v l → ∃ fs, v.debug = .ok fs ∧ ∀ x ∈ l, ∃ f ∈ fs, x ∈ f.items) (hstart : ∀ k, ∃ v, s.algView o k = .ok v ∧ I v (outs k)) :
    ∀ (as : List AlgAct) (_ : (∃ i, .hint i ∈ as) → ∀ v l, I v l → HintHolds v.sizeHint l.length) {vs ps}, AlgPool I vs ps → ∃ xs, AlgAct.runs s o as vs = .ok xs ∧ AlgAct.AllRight outs as ps xs
  | [], _, _, _, _ => ⟨[], rfl, rfl⟩
  | a :: as, hh, vs, ps, hp => by
    obtain ⟨x, vs', ps', h1, h2, h3⟩ := AlgAct.run_spec hy hd hstart a (fun ⟨i, e⟩ => hh ⟨i, by simp [e]⟩) hp
    obtain ⟨xs, h4, h5⟩ := AlgAct.runs_spec hy hd hstart as (fun ⟨i, e⟩ => hh ⟨i, by simp [e]⟩) h3
    exact ⟨x :: xs, by simp only [AlgAct.runs, h1, Exec.ok_bind, h4], x, xs, ps', rfl, h2, h5⟩

/-- `is_disjoint`, whatever the order. -/
theorem AlgPlan.disjoint [Ord T] {s o : BSet T} (p : AlgPlan s o) : s.isDisjoint o = .ok (p.outs .intersection).isEmpty := by
  obtain ⟨d, h1, h2⟩ := p.inter
  obtain ⟨d', h3, _⟩ := Intersection.yields p.other p.ci p.hasi d _ h2
  simp only [BSet.isDisjoint, h1, h3, Exec.ok_bind]
  cases p.outs .intersection <;> rfl

/-- `is_subset` always answers. -/
theorem BSet.isSubset_total [Ord T] {s o : BSet T} (hs : s.map.WF) (ho : o.map.WF) : ∃ b, s.isSubset o = .ok b := by
  obtain ⟨c, hc⟩ := BSet.contains_total ho (id : T → T)
  rcases BSet.isSubset_wf hs ho hc with ⟨_, h⟩ | h | h <;> exact ⟨_, h⟩

theorem BSet.isSubset_valid [Ord T] [Std.TransOrd T] {s o : BSet T} (hs : s.map.Valid) (ho : o.map.Valid) :
    ∃ b, s.isSubset o = .ok b ∧ (b = true ↔ ∀ x ∈ s.elems, Has x o.elems) := by
  obtain ⟨c, hc1, hc2⟩ := BSet.contains_has ho
  rcases BSet.isSubset_wf hs.toShaped ho.toShaped hc1 with ⟨h1, h2⟩ | h2 | h2
  · refine ⟨_, h2, ?_⟩
    simp only [Bool.false_eq_true, false_iff]
    intro h
    have := length_le_of_has _ _ (BSet.ascending hs) (BSet.ascending ho) h
    omega
  · exact ⟨_, h2, subList_spec _ _ (BSet.ascending hs) (BSet.ascending ho)⟩
  · refine ⟨_, h2, ?_⟩
    simp only [List.all_eq_true, hc2]

theorem BSet.isDisjoint_valid [Ord T] [Std.TransOrd T] {s o : BSet T} (hs : s.map.Valid) (ho : o.map.Valid) :
    ∃ b, s.isDisjoint o = .ok b ∧ (b = true ↔ ∀ x ∈ s.elems, ¬ Has x o.elems) := by
  obtain ⟨p⟩ := algPlan hs.toShaped ho.toShaped
  have h1 : if s.elems.length ≤ o.elems.length then IsIntersection s.elems o.elems (p.outs .intersection) else IsIntersection o.elems s.elems (p.outs .intersection) :=
    (p.lawful hs ho).2 .intersection
  refine ⟨_, p.disjoint, ?_⟩
  rw [List.isEmpty_iff, List.eq_nil_iff_forall_not_mem]
  split at h1
  · simp only [h1.2]
    exact ⟨fun h x hx hh => h x ⟨hx, hh⟩, fun h x hx => h x hx.1 hx.2⟩
  · simp only [h1.2]
    constructor
    · rintro h x hx ⟨y, hy, he⟩
      exact h y ⟨hy, x, hx, cmp_eq_comm.1 he⟩
    · rintro h x ⟨hx, y, hy, he⟩
      exact h y hy ⟨x, hx, cmp_eq_comm.1 he⟩

/-- Programs over the iterators, whatever the order. -/
theorem AlgPlan.runs [Ord T] {s o : BSet T} (p : AlgPlan s o) (as : List AlgAct)
    (hh : (∃ i, .hint i ∈ as) → ∀ v l, AlgIs s o p.other p.c p.ci v l → HintHolds v.sizeHint l.length) :
    ∃ xs, AlgAct.runs s o as [] = .ok xs ∧ AlgAct.AllRight p.outs as [] xs :=
  AlgAct.runs_spec (I := AlgIs s o p.other p.c p.ci) (AlgIs.yields p.has p.hasi) (fun _ _ h => h.debug) p.start as hh ⟨rfl, by simp⟩

/-- They always come to an end without a panic: also when they ask for size hints. -/
theorem AlgPlan.total [Ord T] {s o : BSet T} (p : AlgPlan s o) : ∀ (as : List AlgAct) {vs ps}, AlgPool (AlgIs s o p.other p.c p.ci) vs ps → ∃ xs, AlgAct.runs s o as vs = .ok xs
  | [], _, _, _ => ⟨[], rfl⟩
  | .hint i :: as, vs, ps, hp => by
    obtain ⟨xs, h⟩ := AlgPlan.total p as hp
    have : ∃ x, AlgAct.run s o vs (.hint i) = .ok (x, vs) := by
      simp only [AlgAct.run, onAlg]
      cases vs[i]? <;> exact ⟨_, rfl⟩
    obtain ⟨x, hx⟩ := this
    exact ⟨x :: xs, by simp only [AlgAct.runs, hx, Exec.ok_bind, h]⟩
  | .start k :: as, vs, ps, hp => next p (.start k) (by simp) as hp
  | .clone i :: as, vs, ps, hp => next p (.clone i) (by simp) as hp
  | .next i :: as, vs, ps, hp => next p (.next i) (by simp) as hp
  | .debug i :: as, vs, ps, hp => next p (.debug i) (by simp) as hp
where
  next {s o : BSet T} (p : AlgPlan s o) (a : AlgAct) (ha : ∀ i, a ≠ .hint i) (as : List AlgAct) {vs ps} (hp : AlgPool (AlgIs s o p.other p.c p.ci) vs ps) :
      ∃ xs, AlgAct.runs s o (a :: as) vs = .ok xs := by
    obtain ⟨x, vs', ps', h1, _, h3⟩ := AlgAct.run_spec (AlgIs.yields p.has p.hasi) (fun _ _ h => h.debug) p.start a (fun ⟨i, e⟩ => absurd e (ha i)) hp
    obtain ⟨xs, h⟩ := AlgPlan.total p as h3
    exact ⟨x :: xs, by simp only [AlgAct.runs, h1, Exec.ok_bind, h]⟩

end Verif.BTree
