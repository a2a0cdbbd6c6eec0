import Verif.Vec.Proofs3
import Verif.Spec
/-
Facts about the vector model, continued: iterators that panic, the objects made by `concat`, `vec::IntoIter`.
-/
namespace Verif.Vec
open Verif

variable {T : Type}

theorem pushLoopPanic_eq {e : Env T} (msg : String) (xs : List T) (s : St T) :
    pushLoopPanic e msg xs s =
      match pushLoop e xs s with
      | (.ok (.ok (), _), s') => (.panic msg, s')
      | r => r := by
  induction xs generalizing s with
  | nil => rfl
  | cons x xs ih =>
    simp only [pushLoopPanic, pushLoop, VM.bind_eq]
    rcases tryPush e x s with ⟨r, s'⟩
    rcases r with r | _ | m
    · rcases r with er | ⟨⟩
      · rfl
      · exact ih s'
    · rfl
    · rfl

/-- `try_from_iterator` with an iterator that panics after `xs`: either the panic gets out, with everything pulled dropped; or
an item was refused before. -/
theorem tryFromIteratorPanic_spec {e : Env T} (he : e.OK) (msg : String) (xs : List T) (w : World T) :
    (∃ a', tryFromIteratorPanic e msg xs w = (.panic msg, { w with alloc := a' }.dropMany xs)) ∨
      (∃ ys y zs er a', xs = ys ++ y :: zs ∧
        tryFromIteratorPanic e msg xs w =
          (if e.dropPanics y || ys.any e.dropPanics then .panic "destructor panicked" else .ok (.error er, zs),
            ({ w with alloc := a' }.drop1 y).dropMany ys) ∧ (tryFromIterator e xs w = tryFromIteratorPanic e msg xs w)) := by
  obtain ⟨c', a', h⟩ := pushLoop_spec he xs (l := []) (.new e) (Nat.zero_le _) w
  rw [← new_eq] at h
  have hp := pushLoopPanic_eq (e := e) msg xs ⟨RawVec.new e, w⟩
  rcases h with ⟨g1, g2, g3⟩ | ⟨ys, y, zs, er, c₀, a₀, g1, g2, g3, g4, g5⟩
  · left
    rw [g1] at hp
    simp only [List.nil_append] at hp
    refine ⟨a', ?_⟩
    have hd := dropVec_spec (e := e) (c := c') (l := xs) { w with alloc := a' }
    simp only [tryFromIteratorPanic, hp]
    rcases hr : dropVec e ⟨RawVec.of c' xs, { w with alloc := a' }⟩ with ⟨r, s⟩
    rw [hr] at hd
    simp only at hd
    obtain ⟨rfl, h2⟩ := hd
    cases xs.any e.dropPanics <;> simp [h2, World.dropMany]
  · right
    have heq : pushLoopPanic e msg xs ⟨RawVec.new e, w⟩ = pushLoop e xs ⟨RawVec.new e, w⟩ := by
      rw [hp, g4]
      cases e.dropPanics y <;> rfl
    refine ⟨ys, y, zs, er, a', g1, ?_, by simp only [tryFromIterator, tryFromIteratorPanic, heq]⟩
    simp only [List.nil_append] at g4
    have hd := dropVec_spec (e := e) (c := c') (l := ys) ({ w with alloc := a' }.drop1 y)
    simp only [tryFromIteratorPanic, heq, g4]
    rcases hr : dropVec e ⟨RawVec.of c' ys, { w with alloc := a' }.drop1 y⟩ with ⟨r, s⟩
    rw [hr] at hd
    simp only at hd
    obtain ⟨rfl, h2⟩ := hd
    cases hq : e.dropPanics y <;> cases hq' : ys.any e.dropPanics <;> simp [h2, World.dropMany, hr, hq']

/-- The loop of `concat` makes clones, keeps them all and drops nothing. -/
theorem concatLoop_ledger {e : Env T} (he : e.OK) (cl : Cloner T) (vs : List (List T)) {c : Nat} {l : List T} (hc : e.CapOK c)
    (hl : l.length ≤ c) (w : World T) :
    ∃ r c' m w', concatLoop e cl vs ⟨RawVec.of c l, w⟩ = (r, ⟨RawVec.of c' (l ++ m), w'⟩) ∧ r ≠ .ub ∧ (l ++ m).length ≤ c' ∧
      e.CapOK c' ∧ w'.aborting = w.aborting ∧ w'.made = w.made ++ m ∧ w'.dropped = w.dropped := by
  induction vs generalizing l w c with
  | nil => exact ⟨.ok (.ok ()), c, [], w, by simp [concatLoop], by simp, by simpa using hl, hc, rfl, by simp, rfl⟩
  | cons v vs ih =>
    obtain ⟨r, c', a', h1, h2⟩ := tryExtendFromSliceNoCopy_spec he cl hc hl v w
    cases r with
    | error er =>
      refine ⟨.ok (.error er), c', [], { w with alloc := a' }, ?_, by simp, by simpa using (h1.room' hc hl).1, (h1.room' hc hl).2, rfl,
        by simp, rfl⟩
      simp only [concatLoop]
      rw [VM.bind_ok h2]; simp
    | ok u =>
      simp only [] at h2
      have hr := h1.ok rfl
      have hlen := cloneAll_length cl v a'
      have hfit : (l ++ (cloneAll cl v a').1).length ≤ c' := by have := hlen.1; rw [List.length_append]; omega
      cases hs : (cloneAll cl v a').2.1 with
      | done =>
        obtain ⟨r, c₂, m, w₂, g1, g2, g3, g4, g5, g6, g7⟩ := ih (c := c') (l := l ++ (cloneAll cl v a').1) hr.2.1 hfit
          (clonedOnto cl v c' l { w with alloc := a' }).w
        refine ⟨r, c₂, (cloneAll cl v a').1 ++ m, w₂, ?_, g2, by simpa using g3, g4, g5, by rw [g6]; simp [clonedOnto], g7⟩
        simp only [concatLoop]
        rw [hs] at h2
        rw [VM.bind_ok h2, ← List.append_assoc]
        exact g1
      | failed er =>
        refine ⟨.ok (.error er), c', (cloneAll cl v a').1, (clonedOnto cl v c' l { w with alloc := a' }).w, ?_, by simp, hfit, hr.2.1, rfl,
          rfl, rfl⟩
        simp only [concatLoop]
        rw [hs] at h2
        rw [VM.bind_ok h2]; rfl
      | panicked m =>
        refine ⟨.panic m, c', (cloneAll cl v a').1, (clonedOnto cl v c' l { w with alloc := a' }).w, ?_, by simp, hfit, hr.2.1, rfl,
          rfl, rfl⟩
        simp only [concatLoop]
        rw [hs] at h2
        rw [VM.bind_panic h2]; rfl

/-! ### into_iter -/

/-- A sequence of `next` / `next_back` calls. -/
def IntoIter.run : List Spec.End → IntoIter T → Exec (List (Option T) × IntoIter T)
  | [], it => .ok ([], it)
  | .front :: es, it => do
    let r ← it.next
    let rs ← IntoIter.run es r.2
    .ok (r.1 :: rs.1, rs.2)
  | .back :: es, it => do
    let r ← it.nextBack
    let rs ← IntoIter.run es r.2
    .ok (r.1 :: rs.1, rs.2)

/-- The iterator still has exactly `l` to hand out. -/
structure IntoIter.Has (it : IntoIter T) (l : List T) : Prop where
  stop : it.stop = it.start + l.length
  mem : ∀ k (hk : k < l.length), it.buf.mem (it.start + k) = some l[k]

theorem IntoIter.next_spec {it : IntoIter T} {l : List T} (h : it.Has l) :
    ∃ it', it.next = .ok ((Spec.pop .front l).1, it') ∧ it'.Has (Spec.pop .front l).2 := by
  cases l with
  | nil => exact ⟨it, by simp [IntoIter.next, h.stop, Spec.pop], h⟩
  | cons x l =>
    have h1 : ¬ it.start = it.stop := by have := h.stop; simp at this; omega
    have h2 : it.buf.mem it.start = some x := h.mem 0 (Nat.zero_lt_succ _)
    refine ⟨_, by simp only [IntoIter.next, h1, if_false, h2, Spec.pop]; rfl, ?_, ?_⟩
    · have := h.stop; simp only [List.length_cons] at this; simp only [Spec.pop]; omega
    · intro k hk
      simp only [Spec.pop] at hk ⊢
      have := h.mem (k + 1) (by simp; omega)
      simp only [List.getElem_cons_succ] at this
      rw [if_neg (by omega), ← this]
      congr 1; omega

theorem IntoIter.nextBack_spec {it : IntoIter T} {l : List T} (h : it.Has l) :
    ∃ it', it.nextBack = .ok ((Spec.pop .back l).1, it') ∧ it'.Has (Spec.pop .back l).2 := by
  rcases List.eq_nil_or_concat l with rfl | ⟨l, x, rfl⟩
  · exact ⟨it, by simp [IntoIter.nextBack, h.stop, Spec.pop], h⟩
  · rw [List.concat_eq_append] at h ⊢
    have hs := h.stop
    simp only [List.length_append, List.length_cons, List.length_nil] at hs
    have h1 : ¬ it.start = it.stop := by omega
    have h2 : it.buf.mem (it.stop - 1) = some x := by
      have := h.mem l.length (by simp)
      rw [show it.stop - 1 = it.start + l.length by omega, this]
      simp
    refine ⟨_, by simp only [IntoIter.nextBack, h1, if_false, h2, Spec.pop, List.getLast?_concat]; rfl, ?_, ?_⟩
    · simp only [Spec.pop, List.dropLast_concat]; omega
    · intro k hk
      simp only [Spec.pop, List.dropLast_concat] at hk ⊢
      have := h.mem k (by simp; omega)
      rw [List.getElem_append_left hk] at this
      rw [if_neg (by omega), this]

theorem IntoIter.run_spec (es : List Spec.End) {it : IntoIter T} {l : List T} (h : it.Has l) :
    ∃ it', it.run es = .ok ((Spec.pops es l).1, it') ∧ it'.Has (Spec.pops es l).2 := by
  induction es generalizing it l with
  | nil => exact ⟨it, rfl, h⟩
  | cons d es ih =>
    cases d with
    | front =>
      obtain ⟨it₁, h1, h2⟩ := IntoIter.next_spec h
      obtain ⟨it₂, h3, h4⟩ := ih h2
      exact ⟨it₂, by simp [IntoIter.run, h1, h3, Spec.pops], h4⟩
    | back =>
      obtain ⟨it₁, h1, h2⟩ := IntoIter.nextBack_spec h
      obtain ⟨it₂, h3, h4⟩ := ih h2
      exact ⟨it₂, by simp [IntoIter.run, h1, h3, Spec.pops], h4⟩

theorem IntoIter.drop_spec {e : Env T} {it : IntoIter T} {l : List T} (h : it.Has l) (w : World T) :
    it.drop e w = (dropsOut e l (), { w with dropped := w.dropped ++ l }) := by
  have := dropFrom_ok (e := e) l it.start ⟨it.buf, w⟩ h.mem
  have hs : it.stop - it.start = l.length := by have := h.stop; omega
  simp only [IntoIter.drop, hs, this]
  rfl

theorem intoIter_has {e : Env T} {v : RawVec T} {l : List T} (h : Holds e v l) : (intoIter v).Has l :=
  ⟨by simp [intoIter, h.len], fun k hk => by simp [intoIter, h.mem, hk]⟩

end Verif.Vec
