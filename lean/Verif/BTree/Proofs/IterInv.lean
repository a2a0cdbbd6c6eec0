import Verif.BTree.Proofs.Next
/-
Iterator states as windows of the contents.
-/
namespace Verif.BTree
open Verif Verif.Spec

variable {K V Q : Type} {lo : Nat}

/-- A window of the contents: `pre` before the front edge, `mid` between the edges, `post` after the back edge. -/
structure Window (m : Map K V) (r : Range) (pre mid post : List (K × V)) : Prop where
  all : m.toList = pre ++ (mid ++ post)
  front : m.Gap r.front pre (mid ++ post)
  back : m.Gap r.back (pre ++ mid) post

theorem Window.eq_iff {m : Map K V} {r : Range} {pre mid post} (w : Window m r pre mid post) :
    r.front = r.back ↔ mid = [] := by
  constructor
  · intro h
    have hf := w.front; have hbk := w.back
    rw [h] at hf
    -- the same edge splits the contents in one way only
    have : ∀ {h : Nat} {t : Tree K V} {p idx A B A' B'}, EdgeAt h t p idx A B → EdgeAt h t p idx A' B' →
        A = A' := by
      intro h t p idx A B A' B' he
      induction he generalizing A' B' with
      | leaf A B =>
        intro he'
        generalize ht : (⟨A ++ B, []⟩ : Tree K V) = t at he'
        generalize hi : A.length = i at he'
        cases he' with
        | leaf A' B' =>
          simp only [Tree.mk.injEq, and_true] at ht
          exact (List.append_inj ht hi).1
      | @child h c p idx A B A0 C0 X Y hX hY hc ih =>
        intro he'
        generalize ht : (⟨A0 ++ C0, X ++ c :: Y⟩ : Tree K V) = t at he'
        generalize hp : X.length :: p = q at he'
        cases he' with
        | @child _ c' p' _ A' B' A0' C0' X' Y' hX' hY' hc' =>
          simp only [Tree.mk.injEq, List.cons.injEq] at ht hp
          obtain ⟨hk, hx⟩ := ht
          obtain ⟨hl, rfl⟩ := hp
          obtain ⟨rfl, h2⟩ := List.append_inj hx hl
          simp only [List.cons.injEq] at h2
          obtain ⟨rfl, rfl⟩ := h2
          obtain ⟨rfl, rfl⟩ := List.append_inj hk (by omega)
          rw [ih hc']
    have h2 := this hf hbk
    simpa using h2
  · rintro rfl
    have hf := w.front; have hbk := w.back
    obtain ⟨h1, h2⟩ := EdgeAt.inj hf hbk (by simp)
    have h1' : r.front.up = r.back.up := List.reverse_inj.1 h1
    obtain ⟨⟨fu, fi⟩, ⟨bu, bi⟩⟩ := r
    simp_all

theorem Window.next {m : Map K V} (hb : BelowN lo m.height m.root) {r : Range} {pre kv mid post}
    (w : Window m r pre (kv :: mid) post) :
    ∃ k f, nextUnchecked m.height m.root r.front = .ok (k, f) ∧ m.Points k pre kv (mid ++ post) ∧
      Window m { r with front := f } (pre ++ [kv]) mid post := by
  obtain ⟨k, f, h1, h2, h3⟩ := next_edge hb w.front
  exact ⟨k, f, h1, h2, by simp [w.all], h3, by simpa [Map.Gap] using w.back⟩

theorem Window.nextBack {m : Map K V} (hb : BelowN lo m.height m.root) {r : Range} {pre kv mid post}
    (w : Window m r pre (mid ++ [kv]) post) :
    ∃ k f, nextBackUnchecked m.height m.root r.back = .ok (k, f) ∧ m.Points k (pre ++ mid) kv post ∧
      Window m { r with back := f } pre mid (kv :: post) := by
  have hbk := w.back
  rw [← List.append_assoc] at hbk
  obtain ⟨k, f, h1, h2, h3⟩ := nextBack_edge hb hbk
  exact ⟨k, f, h1, h2, by simp [w.all], by simpa [Map.Gap] using w.front, h3⟩

theorem Map.iter_spec {lo rt x : Nat} {m : Map K V} (h : m.ShapedN lo rt x) :
    ∃ it, m.iter = .ok it ∧ it.length = m.length ∧ Window m it.range [] m.toList [] := by
  obtain ⟨q, h1, h2⟩ := firstLeafPath_edge h.below
  obtain ⟨q', i, h3, h4⟩ := lastLeafPath_edge h.below
  refine ⟨⟨⟨⟨q.reverse, 0⟩, ⟨q'.reverse, i⟩⟩, m.length⟩, ?_, rfl, by simp, ?_, ?_⟩
  · simp [Map.iter, firstLeafEdge, lastLeafEdge, h1, h3]
  · simpa [Map.Gap, Map.toList] using h2
  · simpa [Map.Gap, Map.toList] using h4

/-! ### one step of an iterator, in either direction -/

/-- The handle answered by a step designates the pair that `pop` takes, at its place in the contents. -/
def Gives (m : Map K V) (pre mid post : List (K × V)) : End → Option Handle → Prop
  | .front, hd => match mid with
    | [] => hd = none
    | kv :: mid' => ∃ k, hd = some k ∧ m.Points k pre kv (mid' ++ post)
  | .back, hd => match mid.getLast? with
    | none => hd = none
    | some kv => ∃ k, hd = some k ∧ m.Points k (pre ++ mid.dropLast) kv post

/-- How a step moves the window. -/
def shift (pre mid post : List (K × V)) : End → List (K × V) × List (K × V)
  | .front => (pre ++ mid.take 1, post)
  | .back => (pre, mid.drop (mid.length - 1) ++ post)

theorem Range.stepH_spec {m : Map K V} (hb : BelowN lo m.height m.root) {r : Range} {pre mid post}
    (w : Window m r pre mid post) (e : End) :
    ∃ hd r', r.stepH m e = .ok (hd, r') ∧ Gives m pre mid post e hd ∧
      Window m r' (shift pre mid post e).1 (pop e mid).2 (shift pre mid post e).2 := by
  by_cases hm : mid = []
  · have heq := w.eq_iff.2 hm
    subst hm
    cases e with
    | front => exact ⟨none, r, by simp [Range.stepH, Range.nextH, heq], rfl, by simpa [shift, pop] using w⟩
    | back => exact ⟨none, r, by simp [Range.stepH, Range.nextBackH, heq], rfl, by simpa [shift, pop] using w⟩
  · have hne : ¬ r.front = r.back := fun h => hm (w.eq_iff.1 h)
    cases e with
    | front =>
      cases mid with
      | nil => exact absurd rfl hm
      | cons kv mid =>
        obtain ⟨k, f, h1, h2, h3⟩ := w.next hb
        exact ⟨some k, { r with front := f }, by simp [Range.stepH, Range.nextH, hne, h1], ⟨k, rfl, h2⟩,
          by simpa [shift, pop] using h3⟩
    | back =>
      rcases List.eq_nil_or_concat mid with rfl | ⟨mid, kv, rfl⟩
      · exact absurd rfl hm
      · simp only [List.concat_eq_append] at *
        obtain ⟨k, f, h1, h2, h3⟩ := w.nextBack hb
        refine ⟨some k, { r with back := f }, by simp [Range.stepH, Range.nextBackH, hne, h1], ?_,
          by simpa [shift, pop] using h3⟩
        simp only [Gives, List.getLast?_append, List.getLast?_singleton, Option.some_or, List.dropLast_concat]
        exact ⟨k, rfl, h2⟩

theorem Gives.read {m : Map K V} {pre mid post : List (K × V)} {e hd} (h : Gives m pre mid post e hd) :
    m.readOpt hd = .ok (pop e mid).1 := by
  cases e with
  | front =>
    cases mid with
    | nil => simp only [Gives] at h; subst h; rfl
    | cons kv mid =>
      obtain ⟨k, rfl, h⟩ := h
      simp [Map.readOpt, h.kvAt, pop]
  | back =>
    rcases List.eq_nil_or_concat mid with rfl | ⟨mid, kv, rfl⟩
    · simp only [Gives] at h; subst h; rfl
    · simp [Gives] at h
      obtain ⟨k, rfl, h⟩ := h
      simp [Map.readOpt, h.kvAt, pop]

theorem Range.step_eq (m : Map K V) (e : End) (r : Range) :
    r.step m e = (do let (hd, r) ← r.stepH m e; let kv ← m.readOpt hd; .ok (kv, r)) := by
  cases e <;> rfl

theorem Iter.step_eq (m : Map K V) (e : End) (r : Iter) :
    r.step m e = (do let (hd, r) ← r.stepH m e; let kv ← m.readOpt hd; .ok (kv, r)) := by
  cases e <;> rfl

theorem Range.step_spec {m : Map K V} (hb : BelowN lo m.height m.root) {r : Range} {pre mid post}
    (w : Window m r pre mid post) (e : End) :
    ∃ r', r.step m e = .ok ((pop e mid).1, r') ∧
      Window m r' (shift pre mid post e).1 (pop e mid).2 (shift pre mid post e).2 := by
  obtain ⟨hd, r', h1, h2, h3⟩ := Range.stepH_spec hb w e
  exact ⟨r', by simp [Range.step_eq, h1, h2.read], h3⟩

theorem Iter.stepH_spec {m : Map K V} (hb : BelowN lo m.height m.root) {it : Iter} {pre mid post}
    (w : Window m it.range pre mid post) (hl : it.length = mid.length) (e : End) :
    ∃ hd it', it.stepH m e = .ok (hd, it') ∧ Gives m pre mid post e hd ∧ it'.length = (pop e mid).2.length ∧
      Window m it'.range (shift pre mid post e).1 (pop e mid).2 (shift pre mid post e).2 := by
  obtain ⟨⟨fr, bk⟩, len⟩ := it
  simp only at hl w
  subst hl
  by_cases hm : mid = []
  · subst hm
    cases e with
    | front => exact ⟨none, ⟨⟨fr, bk⟩, 0⟩, by simp [Iter.stepH, Iter.nextH], rfl, rfl, by simpa [shift, pop] using w⟩
    | back => exact ⟨none, ⟨⟨fr, bk⟩, 0⟩, by simp [Iter.stepH, Iter.nextBackH], rfl, rfl, by simpa [shift, pop] using w⟩
  · have hlen : ¬ mid.length = 0 := by simpa using hm
    cases e with
    | front =>
      cases mid with
      | nil => exact absurd rfl hm
      | cons kv mid =>
        obtain ⟨k, f, h1, h2, h3⟩ := w.next hb
        exact ⟨some k, ⟨⟨f, bk⟩, mid.length⟩, by simp [Iter.stepH, Iter.nextH, h1], ⟨k, rfl, h2⟩, rfl,
          by simpa [shift, pop] using h3⟩
    | back =>
      rcases List.eq_nil_or_concat mid with rfl | ⟨mid, kv, rfl⟩
      · exact absurd rfl hm
      · simp only [List.concat_eq_append] at *
        obtain ⟨k, f, h1, h2, h3⟩ := w.nextBack hb
        refine ⟨some k, ⟨⟨fr, f⟩, mid.length⟩, by simp [Iter.stepH, Iter.nextBackH, h1], ?_, by simp [pop],
          by simpa [shift, pop] using h3⟩
        simp only [Gives, List.getLast?_append, List.getLast?_singleton, Option.some_or, List.dropLast_concat]
        exact ⟨k, rfl, h2⟩

theorem Iter.step_spec {m : Map K V} (hb : BelowN lo m.height m.root) {it : Iter} {pre mid post}
    (w : Window m it.range pre mid post) (hl : it.length = mid.length) (e : End) :
    ∃ it', it.step m e = .ok ((pop e mid).1, it') ∧ it'.length = (pop e mid).2.length ∧
      Window m it'.range (shift pre mid post e).1 (pop e mid).2 (shift pre mid post e).2 := by
  obtain ⟨hd, r', h1, h2, h3, h4⟩ := Iter.stepH_spec hb w hl e
  exact ⟨r', by simp [Iter.step_eq, h1, h2.read], h3, h4⟩

/-! ### whole runs -/

theorem Iter.run_spec {m : Map K V} (hb : BelowN lo m.height m.root) (es : List End) {it : Iter} {pre mid post}
    (w : Window m it.range pre mid post) (hl : it.length = mid.length) :
    ∃ it', Iter.run m es it = .ok ((pops es mid).1, it') ∧ it'.length = (pops es mid).2.length := by
  induction es generalizing it pre mid post with
  | nil => exact ⟨it, rfl, hl⟩
  | cons e es ih =>
    obtain ⟨it1, h1, h2, h3⟩ := Iter.step_spec hb w hl e
    obtain ⟨it2, h4, h5⟩ := ih h3 h2
    exact ⟨it2, by simp [Iter.run, h1, h4, pops], h5⟩

theorem Range.run_spec {m : Map K V} (hb : BelowN lo m.height m.root) (es : List End) {r : Range} {pre mid post}
    (w : Window m r pre mid post) :
    ∃ r', Range.run m es r = .ok ((pops es mid).1, r') := by
  induction es generalizing r pre mid post with
  | nil => exact ⟨r, rfl⟩
  | cons e es ih =>
    obtain ⟨it1, h1, h3⟩ := Range.step_spec hb w e
    obtain ⟨it2, h4⟩ := ih h3
    exact ⟨it2, by simp [Range.run, h1, h4, pops]⟩

theorem Iter.collect_spec {m : Map K V} (hb : BelowN lo m.height m.root) {it : Iter} {pre mid post}
    (w : Window m it.range pre mid post) (hl : it.length = mid.length) (fuel : Nat) (hf : mid.length < fuel) :
    it.collect m fuel = .ok mid := by
  induction fuel generalizing it pre mid with
  | zero => omega
  | succ fuel ih =>
    obtain ⟨it1, h1, h2, h3⟩ := Iter.step_spec hb w hl .front
    simp only [Iter.step] at h1
    cases mid with
    | nil => simp [Iter.collect, h1, pop]
    | cons kv mid =>
      have := ih h3 h2 (by simp [pop] at hf ⊢; omega)
      simp [Iter.collect, h1, pop] at this ⊢
      simp [this]

/-- Iterating over a structurally valid map yields its contents. -/
theorem Map.toListE_spec {lo rt : Nat} {m : Map K V} (h : m.ShapedN lo rt 0) : m.toListE = .ok m.toList := by
  obtain ⟨it, h1, h2, h3⟩ := Map.iter_spec h
  have hl := h.len
  simp only [Nat.add_zero] at hl
  simp only [Map.toListE, h1, Exec.ok_bind]
  exact Iter.collect_spec h.below h3 (by rw [h2, hl]) _ (by omega)

/-- If the cached length is too high, iterating runs past the end: undefined behaviour. -/
theorem Iter.collect_ub {m : Map K V} (hb : BelowN lo m.height m.root) {it : Iter} {pre mid}
    (w : Window m it.range pre mid []) (hl : mid.length < it.length) (fuel : Nat) (hf : mid.length < fuel) :
    it.collect m fuel = .ub := by
  induction fuel generalizing it pre mid with
  | zero => omega
  | succ fuel ih =>
    have hz : ¬ it.length = 0 := by omega
    cases mid with
    | nil =>
      have hfr := w.front
      simp only [List.append_nil] at hfr
      have := next_end hb hfr
      simp [Iter.collect, Iter.next, Iter.nextH, hz, this]
    | cons kv mid =>
      obtain ⟨k, f, h1, h2, h3⟩ := w.next hb
      have := ih (it := ⟨{ it.range with front := f }, it.length - 1⟩) h3 (by simp at hl ⊢; omega)
        (by simp at hf; omega)
      simp [Iter.collect, Iter.next, Iter.nextH, hz, h1, Map.readOpt, h2.kvAt, this]

end Verif.BTree
