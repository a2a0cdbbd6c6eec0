import Verif.BTree.Proofs.Count
/-
What survives a failed insertion: a structurally valid, ordered tree, with a cached length that may be too high.
-/
namespace Verif.BTree
open Verif Verif.Spec

variable {K V Q : Type}

theorem Reach.oom [Ord K] {m : Map K V} (h : Reach m) : ReachOom m := by
  induction h with
  | new => exact .new
  | insert _ e ih => exact .insert ih e
  | remove hb _ e ih => exact .remove hb ih e
  | getMut hb _ e e' ih => exact .getMut hb ih e e'
  | entry _ e ih => exact .entry ih e
  | occupied _ e e' ih => exact .occupied ih e e'
  | occupiedRemove _ e e' ih => exact .occupiedRemove ih e e'
  | orInsert _ e e' e'' ih => exact .orInsert ih e e' e''
  | extend _ e ih => exact .extend ih e
  | appendSelf _ _ e ih ih' => exact .appendSelf ih ih' e
  | appendOther _ _ e ih ih' => exact .appendOther ih ih' e
  | splitSelf hb _ e ih => exact .splitSelf hb ih e
  | splitRight hb _ e ih => exact .splitRight hb ih e
  | clone hc _ e ih => exact .clone hc ih e
  | iterMut _ e e' ih => exact .iterMut ih e e'
  | rangeMut hb _ e e' ih => exact .rangeMut hb ih e e'

theorem Map.toListE_ub {lo rt x : Nat} {m : Map K V} (h : m.ShapedN lo rt x) (hx : 0 < x) : m.toListE = .ub := by
  obtain ⟨it, h1, h2, h3⟩ := Map.iter_spec h
  have hl := h.len
  simp only [Map.toListE, h1, Exec.ok_bind]
  exact Iter.collect_ub h.below h3 (by omega) _ (by omega)

/-- A leaf edge of the tree. -/
def Map.EdgeOK (m : Map K V) (hd : Handle) : Prop := ∃ A B, m.Gap hd A B

theorem nextUnchecked_ok {m : Map K V} (hb : Below m.height m.root) {hd k f : Handle} (he : m.EdgeOK hd)
    (h : nextUnchecked m.height m.root hd = .ok (k, f)) : m.EdgeOK f ∧ ∃ n, m.At k n := by
  obtain ⟨A, B, he⟩ := he
  cases B with
  | nil => rw [next_end hb he] at h; simp at h
  | cons kv B =>
    obtain ⟨k', f', h1, h2, h3⟩ := next_edge hb he
    obtain ⟨rfl, rfl⟩ := by simpa using Exec.ok_unique h h1
    exact ⟨⟨_, _, h3⟩, A.length, A, kv, B, h2, rfl⟩

theorem nextBackUnchecked_ok {m : Map K V} (hb : Below m.height m.root) {hd k f : Handle} (he : m.EdgeOK hd)
    (h : nextBackUnchecked m.height m.root hd = .ok (k, f)) : m.EdgeOK f ∧ ∃ n, m.At k n := by
  obtain ⟨A, B, he⟩ := he
  rcases List.eq_nil_or_concat A with rfl | ⟨A, kv, rfl⟩
  · have := (nextBack_in (H := m.height) (T := m.root) he hb [] (by simp [nodeAt])).2 rfl
    simp [nextBackLoop] at this
    rw [this] at h; simp at h
  · simp only [List.concat_eq_append] at he
    obtain ⟨k', f', h1, h2, h3⟩ := nextBack_edge hb he
    obtain ⟨rfl, rfl⟩ := by simpa using Exec.ok_unique h h1
    exact ⟨⟨_, _, h3⟩, A.length, A, kv, B, h2, rfl⟩

/-- A step that returns keeps the iterator's edges valid and hands out a valid pair. -/
def StepSafe {S : Type} (rng : S → Range) (step : Map K V → End → S → Exec (Option Handle × S)) : Prop :=
  ∀ (m : Map K V) (it : S) (e : End) hd it', Below m.height m.root → m.EdgeOK (rng it).front → m.EdgeOK (rng it).back →
    step m e it = .ok (hd, it') → m.EdgeOK (rng it').front ∧ m.EdgeOK (rng it').back ∧ ∀ k, hd = some k → ∃ n, m.At k n

theorem Range.stepSafe : StepSafe (K := K) (V := V) id Range.stepH := by
  intro m it e hd it' hb hf hbk h
  cases e with
  | front =>
    simp only [Range.stepH, Range.nextH] at h
    split at h
    · obtain ⟨rfl, rfl⟩ := by simpa using h
      exact ⟨hf, hbk, by simp⟩
    · obtain ⟨⟨k, f⟩, h1, h2⟩ := Exec.bind_eq_ok.1 h
      obtain ⟨rfl, rfl⟩ := by simpa using h2
      obtain ⟨g1, n, g2⟩ := nextUnchecked_ok hb hf h1
      exact ⟨g1, hbk, by rintro _ ⟨rfl⟩; exact ⟨n, g2⟩⟩
  | back =>
    simp only [Range.stepH, Range.nextBackH] at h
    split at h
    · obtain ⟨rfl, rfl⟩ := by simpa using h
      exact ⟨hf, hbk, by simp⟩
    · obtain ⟨⟨k, f⟩, h1, h2⟩ := Exec.bind_eq_ok.1 h
      obtain ⟨rfl, rfl⟩ := by simpa using h2
      obtain ⟨g1, n, g2⟩ := nextBackUnchecked_ok hb hbk h1
      exact ⟨hf, g1, by rintro _ ⟨rfl⟩; exact ⟨n, g2⟩⟩

theorem Iter.stepSafe : StepSafe (K := K) (V := V) Iter.range Iter.stepH := by
  intro m it e hd it' hb hf hbk h
  cases e with
  | front =>
    simp only [Iter.stepH, Iter.nextH] at h
    split at h
    · obtain ⟨rfl, rfl⟩ := by simpa using h
      exact ⟨hf, hbk, by simp⟩
    · obtain ⟨⟨k, f⟩, h1, h2⟩ := Exec.bind_eq_ok.1 h
      obtain ⟨rfl, rfl⟩ := by simpa using h2
      obtain ⟨g1, n, g2⟩ := nextUnchecked_ok hb hf h1
      exact ⟨g1, hbk, by rintro _ ⟨rfl⟩; exact ⟨n, g2⟩⟩
  | back =>
    simp only [Iter.stepH, Iter.nextBackH] at h
    split at h
    · obtain ⟨rfl, rfl⟩ := by simpa using h
      exact ⟨hf, hbk, by simp⟩
    · obtain ⟨⟨k, f⟩, h1, h2⟩ := Exec.bind_eq_ok.1 h
      obtain ⟨rfl, rfl⟩ := by simpa using h2
      obtain ⟨g1, n, g2⟩ := nextBackUnchecked_ok hb hbk h1
      exact ⟨hf, g1, by rintro _ ⟨rfl⟩; exact ⟨n, g2⟩⟩

theorem mutRun_safe {S : Type} {rng : S → Range} {step : Map K V → End → S → Exec (Option Handle × S)}
    (hstep : StepSafe rng step) (as : List (MutAct V)) {x : Nat} {m m' : Map K V} {it : S} {refs refs' xs}
    (hm : m.Shaped x) (hf : m.EdgeOK (rng it).front) (hb : m.EdgeOK (rng it).back)
    (hr : ∀ k ∈ refs, ∃ n, m.At k n) (h : mutRun step as m it refs = .ok (xs, m', refs')) :
    m'.Shaped x ∧ m'.toList.map (·.1) = m.toList.map (·.1) := by
  induction as generalizing m it refs xs with
  | nil =>
    obtain ⟨rfl, rfl, rfl⟩ := by simpa [mutRun] using h
    exact ⟨hm, rfl⟩
  | cons act as ih =>
    cases act with
    | take e =>
      simp only [mutRun] at h
      obtain ⟨⟨hd, it'⟩, h1, h⟩ := Exec.bind_eq_ok.1 h
      obtain ⟨y, h2, h⟩ := Exec.bind_eq_ok.1 h
      obtain ⟨⟨ys, m1, r1⟩, h3, h⟩ := Exec.bind_eq_ok.1 h
      obtain ⟨rfl, rfl, rfl⟩ := by simpa using h
      obtain ⟨g1, g2, g3⟩ := hstep m it e hd it' hm.below hf hb h1
      refine ih hm g1 g2 ?_ h3
      intro k hk
      rcases List.mem_append.1 hk with hk | hk
      · exact hr k hk
      · exact g3 k (by simpa using hk)
    | write i f =>
      simp only [mutRun] at h
      split at h
      · obtain ⟨⟨ys, m1, r1⟩, h3, h⟩ := Exec.bind_eq_ok.1 h
        obtain ⟨rfl, rfl, rfl⟩ := by simpa using h
        exact ih hm hf hb hr h3
      · rename_i hd hi
        obtain ⟨kv, h1, h⟩ := Exec.bind_eq_ok.1 h
        obtain ⟨⟨m1, o⟩, h2, h⟩ := Exec.bind_eq_ok.1 h
        obtain ⟨⟨ys, m2, r1⟩, h3, h⟩ := Exec.bind_eq_ok.1 h
        obtain ⟨rfl, rfl, rfl⟩ := by simpa using h
        obtain ⟨n, hat⟩ := hr hd (List.mem_of_getElem? hi)
        obtain ⟨m3, e1, e2, e3, e4, e5, e6⟩ := Map.setVal_at hm hat (f kv.2)
        obtain ⟨rfl, _⟩ := by simpa using Exec.ok_unique h2 e1
        have edge : ∀ hd, m.EdgeOK hd → m1.EdgeOK hd := by
          rintro hd ⟨A, B, hg⟩
          obtain ⟨lo, mid, hi, w, _⟩ := e6 ⟨hd, hd⟩ A [] B ⟨by simpa using hg.toList, by simpa using hg, by simpa using hg⟩
          exact ⟨_, _, w.front⟩
        obtain ⟨i1, i2⟩ := ih e2 (edge _ hf) (edge _ hb) (fun k hk => by obtain ⟨n, h⟩ := hr k hk; exact ⟨n, e5 _ _ h⟩) h3
        refine ⟨i1, i2.trans ?_⟩
        have hlt := hat.lt
        rw [e4, List.modify_eq_take_cons_drop hlt]
        conv => rhs; rw [← List.take_append_drop n m.toList, List.drop_eq_getElem_cons hlt]
        simp only [List.map_append, List.map_cons]

theorem ReachOom.ordered [Ord K] [Std.TransOrd K] {m : Map K V} (h : ReachOom m) : ∃ x, m.Ordered x := by
  induction h with
  | new => exact ⟨0, Map.Valid_new⟩
  | insert _ he ih =>
    rename_i m m' k v a r a' _
    obtain ⟨x, ih⟩ := ih
    obtain ⟨r, m1, a1, h1, h2, h3⟩ := Map.tryInsert_ordered ih k v a
    obtain ⟨rfl, rfl, rfl⟩ := by simpa using Exec.ok_unique he h1
    cases r with
    | ok o => exact ⟨x, h2.1⟩
    | error e =>
      obtain ⟨_, _, ⟨rfl, _⟩ | ⟨_, x', _, h⟩⟩ := h2
      · exact ⟨x, ih⟩
      · exact ⟨x', h⟩
  | remove hbo _ he ih =>
    rename_i q _ _
    obtain ⟨x, ih⟩ := ih
    obtain ⟨m1, h1, h2, h3⟩ := Map.removeEntry_ordered hbo ih q
    obtain ⟨rfl, rfl⟩ := by simpa using Exec.ok_unique he h1
    exact ⟨x, h2⟩
  | getMut hbo _ hg hu ih =>
    rename_i q hd f _
    obtain ⟨x, ih⟩ := ih
    rcases Map.getMut_valid hbo ih q with ⟨hd', A, kv, B, h1, h2, h3, h4, h5⟩ | ⟨h1, _⟩
    · obtain rfl := by simpa using Exec.ok_unique hg h1
      obtain ⟨m1, e1, e2, e3⟩ := Map.occUpdate_wf ih.toShaped h2 f
      obtain rfl := Exec.ok_unique hu e1
      have hs := ih.sorted
      rw [h2.toList] at hs
      exact ⟨x, e2, by rw [e3]; exact sorted_set hs rfl⟩
    · simpa using Exec.ok_unique hg h1
  | entry _ he ih =>
    rename_i m m' k a r a' _
    obtain ⟨x, ih⟩ := ih
    obtain ⟨r', m1, a1, h1, h2, _⟩ := Map.tryEntry_ordered ih k a
    obtain ⟨rfl, rfl, rfl⟩ := by simpa using Exec.ok_unique he h1
    exact ⟨x, h2⟩
  | occupied _ he hu ih =>
    rename_i m m1 m' k a hd a1 f _
    obtain ⟨x, ih⟩ := ih
    obtain ⟨r', m2, a2, h1, h2, h3, h4, h5, _⟩ := Map.tryEntry_ordered ih k a
    obtain ⟨rfl, rfl, rfl⟩ := by simpa using Exec.ok_unique he h1
    obtain ⟨m3, e1, e2, _⟩ := RefAt.update h2 h5.2 f
    obtain rfl := Exec.ok_unique hu e1
    exact ⟨x, e2⟩
  | occupiedRemove _ he hu ih =>
    rename_i m m1 m' k a hd a1 kv _
    obtain ⟨x, ih⟩ := ih
    obtain ⟨r', m2, a2, h1, h2, h3, h4, h5, _⟩ := Map.tryEntry_ordered ih k a
    obtain ⟨rfl, rfl, rfl⟩ := by simpa using Exec.ok_unique he h1
    obtain ⟨m3, kv', e1, _, e2, _⟩ := RefAt.removeKv h2 h5.2
    obtain ⟨rfl, rfl⟩ := by simpa using Exec.ok_unique hu e1
    exact ⟨x, e2⟩
  | orInsert _ he hi hu ih =>
    rename_i m m1 m2 m' k a e a1 v ref a2 f _
    obtain ⟨x, ih⟩ := ih
    obtain ⟨r', m3, a3, h1, h2, h3, h4, h5, _⟩ := Map.tryEntry_ordered ih k a
    obtain ⟨rfl, rfl, rfl⟩ := by simpa using Exec.ok_unique he h1
    cases e with
    | occupied hd =>
      obtain ⟨rfl, rfl, rfl⟩ := by simpa [Map.orTryInsert] using hi
      obtain ⟨m3, e1, e2, _⟩ := RefAt.update h2 h5.2 f
      obtain rfl := Exec.ok_unique hu e1
      exact ⟨x, e2⟩
    | vacant k' hd =>
      obtain ⟨r, m4, a4, g1, g2, _⟩ := EntryAt.vacantInsert h2 h5.1 h5.2 v a1
      obtain ⟨rfl, rfl, rfl⟩ := by simpa using Exec.ok_unique hi g1
      obtain ⟨m3, e1, e2, _⟩ := RefAt.update g2.1 g2.2.2.1 f
      obtain rfl := Exec.ok_unique hu e1
      exact ⟨x, e2⟩
  | orInsertErr _ he hi ih =>
    rename_i m m1 m' k a e a1 v er a2 _
    obtain ⟨x, ih⟩ := ih
    obtain ⟨r', m3, a3, h1, h2, h3, h4, h5, _⟩ := Map.tryEntry_ordered ih k a
    obtain ⟨rfl, rfl, rfl⟩ := by simpa using Exec.ok_unique he h1
    cases e with
    | occupied hd => simp [Map.orTryInsert] at hi
    | vacant k' hd =>
      obtain ⟨r, m4, a4, g1, g2, _⟩ := EntryAt.vacantInsert h2 h5.1 h5.2 v a1
      obtain ⟨rfl, rfl, rfl⟩ := by simpa using Exec.ok_unique hi g1
      obtain ⟨_, _, x', _, h⟩ := g2
      exact ⟨x', h⟩
  | extend _ he ih =>
    rename_i m m' l a a' _
    obtain ⟨x, ih⟩ := ih
    rcases Map.extend_spec l ih a with ⟨⟨_, h1⟩, _⟩ | ⟨m1, a1, h1, h2, _⟩
    · rw [he] at h1; simp at h1
    · obtain ⟨rfl, rfl⟩ := by simpa using Exec.ok_unique he h1
      exact ⟨x, h2⟩
  | appendSelf _ _ he ih1 ih2 => exact (append_oom ih1 ih2 he).1
  | appendOther _ _ he ih1 ih2 => exact (append_oom ih1 ih2 he).2
  | splitSelf hbo _ he ih =>
    rename_i q a r m' a' _
    obtain ⟨x, ih⟩ := ih
    obtain ⟨r', m1, a1, h1, h2, _⟩ := Map.splitOff_ordered hbo ih q a
    obtain ⟨rfl, rfl, rfl⟩ := by simpa using Exec.ok_unique he h1
    cases r with
    | error => rw [show m' = _ from h2]; exact ⟨x, ih⟩
    | ok right =>
      obtain ⟨⟨x1, x2, hx, g1, g2⟩, _⟩ := h2
      exact ⟨x1, g1⟩
  | splitRight hbo _ he ih =>
    rename_i q a r m' a' _
    obtain ⟨x, ih⟩ := ih
    obtain ⟨r', m1, a1, h1, h2, _⟩ := Map.splitOff_ordered hbo ih q a
    obtain ⟨rfl, rfl, rfl⟩ := by simpa using Exec.ok_unique he h1
    obtain ⟨⟨x1, x2, hx, g1, g2⟩, _⟩ := h2
    exact ⟨x2, g2⟩
  | clone hck _ he ih =>
    rename_i m ck cv a c a' _
    obtain ⟨x, ih⟩ := ih
    obtain ⟨r, a1, h1, h2, _⟩ := Map.tryClone_wf ck cv ih.toShaped a
    obtain ⟨rfl, rfl⟩ := by simpa using Exec.ok_unique he h1
    obtain ⟨g1, g2⟩ := h2 _ rfl
    refine ⟨0, g1, (g2.mono ?_).sorted ih.sorted⟩
    rintro x y ⟨⟨a, a', h⟩, _⟩
    exact hck _ _ _ _ h
  | iterMut _ hi hr ih =>
    rename_i m it as xs m' refs _
    obtain ⟨x, ih⟩ := ih
    obtain ⟨it', h1, h2, w⟩ := Map.iter_spec ih.toShaped
    obtain rfl := Exec.ok_unique hi h1
    obtain ⟨g1, g2⟩ := mutRun_safe Iter.stepSafe as ih.toShaped ⟨_, _, w.front⟩ ⟨_, _, w.back⟩ (by simp) hr
    exact ⟨x, g1, Sorted.of_keys g2 ih.sorted⟩
  | rangeMut hbo _ hi hr ih =>
    rename_i s e r as xs m' refs _
    obtain ⟨x, ih⟩ := ih
    rcases Map.range_ordered hbo ih s e with ⟨_, msg, h1⟩ | ⟨_, r', lo, hh, h1, w⟩
    · rw [hi] at h1; simp at h1
    · obtain rfl := Exec.ok_unique hi h1
      obtain ⟨g1, g2⟩ := mutRun_safe Range.stepSafe as ih.toShaped ⟨_, _, w.front⟩ ⟨_, _, w.back⟩ (by simp) hr
      exact ⟨x, g1, Sorted.of_keys g2 ih.sorted⟩
where
  append_oom {m o m' o' : Map K V} {a a' : Alloc} (ih1 : ∃ x, m.Ordered x) (ih2 : ∃ x, o.Ordered x)
      (he : m.append o a = .ok (m', o', a')) : (∃ x, m'.Ordered x) ∧ ∃ x, o'.Ordered x := by
    obtain ⟨x, hm⟩ := ih1
    obtain ⟨y, ho⟩ := ih2
    unfold Map.append at he
    split at he
    · obtain ⟨rfl, rfl, rfl⟩ := by simpa using he
      exact ⟨⟨x, hm⟩, y, ho⟩
    · split at he
      · obtain ⟨rfl, rfl, rfl⟩ := by simpa using he
        exact ⟨⟨y, ho⟩, x, hm⟩
      · rename_i h1 h2
        have hx : x = 0 := by
          cases x with
          | zero => rfl
          | succ x => rw [Map.toListE_ub hm.toShaped (by omega)] at he; simp at he
        subst hx
        have hy : y = 0 := by
          cases y with
          | zero => rfl
          | succ y =>
            rw [Map.toListE_spec hm.toShaped, Map.toListE_ub ho.toShaped (by omega)] at he; simp at he
        subst hy
        have he' : m.append o a = .ok (m', o', a') := by
          unfold Map.append; simp only [h1, h2, if_false]; exact he
        rcases Map.append_ordered hm ho a with ⟨⟨_, h1⟩, _⟩ | ⟨m1, o1, a1, h1, h2, h3, _⟩
        · rw [he'] at h1; simp at h1
        · obtain ⟨rfl, rfl, rfl⟩ := by simpa using Exec.ok_unique he' h1
          exact ⟨⟨0, h2⟩, 0, h3⟩

end Verif.BTree
