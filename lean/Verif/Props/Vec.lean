import Verif.Vec.Proofs3
/-
The fallible vector methods (C31, C32, C34 - C38, C40 - C42).

Reading guide: `e : Env T` fixes the target, the element size and the growth policy of std's `Vec`; `Holds e v l` says the
vector `v` holds exactly the list `l` (and has no initialised slot beyond); `w : World T` is the allocator's schedule and the
log of destructor and clone calls.  A run returns its outcome and the state it leaves.  What `try_reserve` does is C31; every
other method is described relative to it, so "fails iff the reservation fails" is part of each statement.
-/
namespace Verif.Props
open Verif Verif.Vec

variable {T : Type} {e : Env T} {v v₁ : RawVec T} {l : List T} {w w₁ : World T}

theorem Reserved.run_eq {n : Nat} {r r₁ : Res Unit} {c' : Nat} {a' : Alloc} {s₁ : St T} (hv : Holds e v l) (h : Reserved e n l v.cap w r c' a')
    (hr : tryReserve e n ⟨v, w⟩ = (.ok r₁, s₁)) : r₁ = r ∧ s₁ = ⟨RawVec.of c' l, { w with alloc := a' }⟩ := by
  have := h.run
  rw [← hv.eq_of, hr] at this
  simpa using this

theorem Reserved.back {n : Nat} {er : TryReserveError} {c' : Nat} {a' : Alloc} (hv : Holds e v l)
    (h : Reserved e n l v.cap w (.error er) c' a') : RawVec.of c' l = v := by
  rw [h.err er rfl]; exact hv.eq_of.symm

/-! ### a concrete setting for the examples below -/

deriving instance DecidableEq for Except

/-- A 64-bit target, 8-byte elements, doubling; the destructor of 13 panics. -/
def demoEnv : Env Nat := ⟨2 ^ 64 - 1, 8, fun c r => max (2 * c) r, fun _ r => r, fun x => x == 13, true⟩

theorem demoEnv_ok : demoEnv.OK := ⟨fun _ _ => Nat.le_max_right _ _, fun _ _ => Nat.le_refl _⟩

theorem demoHolds {c : Nat} {l : List Nat} (hl : l.length ≤ c) (hc : c ≤ 2 ^ 32) : Holds demoEnv (RawVec.of c l) l :=
  .of hl ⟨Nat.le_trans hc (by decide), Nat.le_trans (Nat.mul_le_mul_right 8 hc) (by decide), fun h => absurd h (by decide)⟩

/-- A cloner that asks the allocator once and fails if refused, and that always fails on 5. -/
def failAt5 : Cloner Nat := fun x a =>
  if x = 5 then (.ok (.error .allocError), a) else if a 0 then (.ok (.ok x), a.request.2) else (.ok (.error .allocError), a.request.2)

theorem failAt5_faithful : Faithful failAt5 := by
  intro x a c a' h
  simp only [failAt5] at h
  split at h
  · simp at h
  · split at h
    · simp at h; exact h.1.symm
    · simp at h

/-- The world with the given allocator and empty logs. -/
def demoWorld (a : Alloc) : World Nat := ⟨a, 0, [], [], []⟩

/-- **C31** `try_reserve(n)` touches nothing but the capacity and the allocator.  On `Ok` there is room for `n` more, and
repeating the call does nothing and succeeds whatever the allocator does.  On `Err` the vector is as before.  A total beyond
the address space is always refused, an allocation failure is reported only when the allocator refused a request, and with
room already there nothing is requested. -/
theorem C31_try_reserve (he : e.OK) (hv : Holds e v l) (n : Nat) (w : World T) :
    ∃ r v' a', tryReserve e n ⟨v, w⟩ = (.ok r, ⟨v', { w with alloc := a' }⟩) ∧ Holds e v' l ∧
      (r = .ok () → l.length + n ≤ v'.cap ∧ ∀ w₂, tryReserve e n ⟨v', w₂⟩ = (.ok (.ok ()), ⟨v', w₂⟩)) ∧
      (∀ er, r = .error er → v' = v) ∧
      (e.usizeMax < l.length + n ∨ e.isizeMax < (l.length + n) * e.size → r = .error .capacityOverflow) ∧
      (r = .error .allocError → w.alloc 0 = false) ∧
      (l.length + n ≤ v.cap → r = .ok () ∧ v' = v ∧ a' = w.alloc) := by
  obtain ⟨r, c', a', h1, h2⟩ := tryReserve_spec he hv.cap hv.fits n w
  rw [← hv.eq_of] at h1
  have h3 := h2.room' hv.cap hv.fits
  refine ⟨r, RawVec.of c' l, a', h1, .of h3.1 h3.2, ?_, ?_, ?_, h2.refused, ?_⟩
  · intro hr
    refine ⟨(h2.ok hr).1, fun w₂ => ?_⟩
    exact (reserved_room he h3.2 (h2.ok hr).1 w₂).run
  · intro er hr
    rw [h2.err er hr]; exact hv.eq_of.symm
  · rintro (h | h)
    · exact h2.over h
    · exact h2.overBytes h
  · intro h
    obtain ⟨g1, g2, g3⟩ := h2.room h
    exact ⟨g1, by rw [g2]; exact hv.eq_of.symm, g3⟩

/-- **C32** `try_push` succeeds exactly when `try_reserve(1)` does; then the element is at the end and nothing else changed.
Otherwise the vector is as before and the element has been dropped. -/
theorem C32_try_push (he : e.OK) (hv : Holds e v l) (x : T) {r} (hr : tryReserve e 1 ⟨v, w⟩ = (.ok r, ⟨v₁, w₁⟩)) :
    (r = .ok () → ∃ v', Holds e v' (l ++ [x]) ∧ tryPush e x ⟨v, w⟩ = (.ok (.ok ()), ⟨v', w₁⟩)) ∧
    (∀ er, r = .error er →
      tryPush e x ⟨v, w⟩ = (if e.dropPanics x then .panic "destructor panicked" else .ok (.error er), ⟨v, w₁.drop1 x⟩)) := by
  obtain ⟨r', c', a', h1, h2⟩ := tryPush_spec he hv.cap hv.fits x w
  rw [← hv.eq_of] at h2
  obtain ⟨rfl, h3⟩ := Reserved.run_eq hv h1 hr
  simp only [St.mk.injEq] at h3
  obtain ⟨rfl, rfl⟩ := h3
  constructor
  · rintro rfl
    have := h1.ok rfl
    exact ⟨_, .of (by simp; omega) this.2.1, h2⟩
  · rintro er rfl
    simp only [Reserved.back hv h1] at h2
    exact h2

/-- **C32** `try_push_give_back`: like `try_push`, but on `Err` the very element comes back instead of being dropped. -/
theorem C32_try_push_give_back (he : e.OK) (hv : Holds e v l) (x : T) {r} (hr : tryReserve e 1 ⟨v, w⟩ = (.ok r, ⟨v₁, w₁⟩)) :
    (r = .ok () → ∃ v', Holds e v' (l ++ [x]) ∧ tryPushGiveBack e x ⟨v, w⟩ = (.ok (.ok ()), ⟨v', w₁⟩)) ∧
    (∀ er, r = .error er → tryPushGiveBack e x ⟨v, w⟩ = (.ok (.error (x, er)), ⟨v, w₁⟩)) := by
  obtain ⟨r', c', a', h1, h2⟩ := tryPushGiveBack_spec he hv.cap hv.fits x w
  rw [← hv.eq_of] at h2
  obtain ⟨rfl, h3⟩ := Reserved.run_eq hv h1 hr
  simp only [St.mk.injEq] at h3
  obtain ⟨rfl, rfl⟩ := h3
  constructor
  · rintro rfl
    have := h1.ok rfl
    exact ⟨_, .of (by simp; omega) this.2.1, h2⟩
  · rintro er rfl
    simp only [Reserved.back hv h1] at h2
    exact h2

/-- **C34** `try_insert(i, x)` succeeds exactly when there is memory and `i <= len`: the element is at index `i` and the tail
moved up.  It panics exactly when there is memory and `i > len` (the contents are unchanged, the element is dropped).
Without memory it returns the element and the vector is unchanged. -/
theorem C34_try_insert (he : e.OK) (hv : Holds e v l) (i : Nat) (x : T) {r} (hr : tryReserve e 1 ⟨v, w⟩ = (.ok r, ⟨v₁, w₁⟩)) :
    (r = .ok () → i ≤ l.length →
      ∃ v', Holds e v' (l.take i ++ x :: l.drop i) ∧ tryInsert e i x ⟨v, w⟩ = (.ok (.ok ()), ⟨v', w₁⟩)) ∧
    (r = .ok () → l.length < i →
      Holds e v₁ l ∧ tryInsert e i x ⟨v, w⟩ = (.panic "insertion index should be <= len", ⟨v₁, w₁.drop1 x⟩)) ∧
    (∀ er, r = .error er → tryInsert e i x ⟨v, w⟩ = (.ok (.error (x, er)), ⟨v, w₁⟩)) := by
  obtain ⟨r', c', a', h1, h2⟩ := tryInsert_spec he hv.cap hv.fits i x w
  rw [← hv.eq_of] at h2
  obtain ⟨rfl, h3⟩ := Reserved.run_eq hv h1 hr
  simp only [St.mk.injEq] at h3
  obtain ⟨rfl, rfl⟩ := h3
  refine ⟨?_, ?_, ?_⟩
  · rintro rfl hi
    have := h1.ok rfl
    rw [h2]
    exact ⟨_, .of (by simp; omega) this.2.1, by simp only [if_neg (Nat.not_lt.2 hi)]⟩
  · rintro rfl hi
    have := h1.ok rfl
    refine ⟨.of (by omega) this.2.1, ?_⟩
    rw [h2]
    simp only [if_pos hi, World.drop1]
  · rintro er rfl
    simp only [Reserved.back hv h1] at h2
    exact h2

/-- **C35** `try_append(&mut other)` succeeds exactly when there is memory for all of `other`: then the elements of `other`
follow and `other` is empty.  Otherwise both are as before. -/
theorem C35_try_append (he : e.OK) (hv : Holds e v l) {v₂ : RawVec T} {l₂ : List T} (hv₂ : Holds e v₂ l₂) {r}
    (hr : tryReserve e l₂.length ⟨v, w⟩ = (.ok r, ⟨v₁, w₁⟩)) :
    (r = .ok () → ∃ v' v₂', Holds e v' (l ++ l₂) ∧ Holds e v₂' [] ∧ tryAppend e v₂ ⟨v, w⟩ = (.ok (.ok (), v₂'), ⟨v', w₁⟩)) ∧
    (∀ er, r = .error er → tryAppend e v₂ ⟨v, w⟩ = (.ok (.error er, v₂), ⟨v, w₁⟩)) := by
  obtain ⟨r', c', a', h1, h2⟩ := tryAppend_spec he hv.cap hv.fits v₂.cap l₂ w
  rw [← hv.eq_of, ← hv₂.eq_of] at h2
  obtain ⟨rfl, h3⟩ := Reserved.run_eq hv h1 hr
  simp only [St.mk.injEq] at h3
  obtain ⟨rfl, rfl⟩ := h3
  constructor
  · rintro rfl
    have := h1.ok rfl
    exact ⟨_, _, .of (by simp; omega) this.2.1, .of (Nat.zero_le _) hv₂.cap, h2⟩
  · rintro er rfl
    simp only [Reserved.back hv h1] at h2
    exact h2

/-- **C36** `try_resize(n, x)` for `Copy` elements: fails only when growing and then changes nothing; `Ok` cuts or appends
copies. -/
theorem C36_try_resize (he : e.OK) (hv : Holds e v l) (n : Nat) (x : T) {r}
    (hr : tryReserve e (n - l.length) ⟨v, w⟩ = (.ok r, ⟨v₁, w₁⟩)) :
    (r = .ok () → ∃ v' w', Holds e v' (l.take n ++ List.replicate (n - l.length) x) ∧ tryResize e n x ⟨v, w⟩ = (.ok (.ok ()), ⟨v', w'⟩)) ∧
    (∀ er, r = .error er → l.length < n ∧ tryResize e n x ⟨v, w⟩ = (.ok (.error er), ⟨v, w₁⟩)) := by
  obtain ⟨r', c', a', h1, h2⟩ := tryResize_spec he hv.cap hv.fits n x w
  rw [← hv.eq_of] at h2
  obtain ⟨rfl, h3⟩ := Reserved.run_eq hv h1 hr
  simp only [St.mk.injEq] at h3
  obtain ⟨rfl, rfl⟩ := h3
  have hf := hv.fits
  constructor
  · rintro rfl
    have := h1.ok rfl
    exact ⟨_, _, .of (by simp; omega) this.2.1, h2⟩
  · rintro er rfl
    refine ⟨?_, by simpa only [Reserved.back hv h1] using h2⟩
    apply Classical.byContradiction
    intro hn
    have := (h1.room (by omega)).1
    simp at this

/-- **C36** `try_resize_with(n, f)`: when growing, `f` is called left to right, once per new element (until it panics, if it
does), and each result is put at the end; when shrinking the tail is dropped (a panic of one of those destructors is passed
on, the tail is gone all the same) and `f` is not called; `Err` happens only when growing, before any call of `f`, and changes
nothing. -/
theorem C36_try_resize_with (he : e.OK) (hv : Holds e v l) (n : Nat) (f : Nat → Except String T) {r ys stop}
    (hr : tryReserve e (n - l.length) ⟨v, w⟩ = (.ok r, ⟨v₁, w₁⟩)) (hf : callAll f 0 (n - l.length) = (ys, stop)) :
    (r = .ok () → ∃ v', Holds e v' (l.take n ++ ys) ∧
      tryResizeWith e n f ⟨v, w⟩ = (if (l.drop n).any e.dropPanics then .panic "destructor panicked" else stop.out, ⟨v', { w₁ with dropped := w.dropped ++ l.drop n, made := w.made ++ ys }⟩)) ∧
    (∀ er, r = .error er → l.length < n ∧ tryResizeWith e n f ⟨v, w⟩ = (.ok (.error er), ⟨v, w₁⟩)) := by
  obtain ⟨r', c', a', h1, h2⟩ := tryResizeWith_spec he hv.cap hv.fits n f w
  rw [← hv.eq_of] at h2
  obtain ⟨rfl, h3⟩ := Reserved.run_eq hv h1 hr
  simp only [St.mk.injEq] at h3
  obtain ⟨rfl, rfl⟩ := h3
  have hfit := hv.fits
  have hlen := callAll_length f 0 (n - l.length)
  rw [hf] at h2 hlen
  constructor
  · rintro rfl
    have := h1.ok rfl
    simp only [] at hlen
    exact ⟨_, .of (by rw [List.length_append, List.length_take]; omega) this.2.1, h2⟩
  · rintro er rfl
    refine ⟨?_, by simpa only [Reserved.back hv h1] using h2⟩
    apply Classical.byContradiction
    intro hn
    have := (h1.room (by omega)).1
    simp at this

/-- **C37** `try_resize_no_copy(n, x)` when growing and there is memory: `n - len - 1` clones are made left to right, then
`x` itself is moved in.  If a clone fails or panics, the clones made so far stay behind the old elements, and `x` is
dropped.  (If `x`'s own destructor panics there, that panic is what the caller gets.) -/
theorem C37_grow (he : e.OK) (hv : Holds e v l) {cl : Cloner T} {n : Nat} (hn : l.length < n) (x : T) {made stop a₂}
    (hr : tryReserve e (n - l.length) ⟨v, w⟩ = (.ok (.ok ()), ⟨v₁, w₁⟩))
    (hc : cloneAll cl (List.replicate (n - l.length - 1) x) w₁.alloc = (made, stop, a₂)) :
    (stop = .done → ∃ v', Holds e v' (l ++ made ++ [x]) ∧ made.length = n - l.length - 1 ∧
      tryResizeNoCopy e cl n x ⟨v, w⟩ = (.ok (.ok ()),
        ⟨v', { w with alloc := a₂, made := w.made ++ made, cloned := w.cloned ++ List.replicate (n - l.length - 1) x }⟩)) ∧
    (stop ≠ .done → ∃ v', Holds e v' (l ++ made) ∧ made.length < n - l.length - 1 ∧
      tryResizeNoCopy e cl n x ⟨v, w⟩ =
        (stop.outAfter (e.dropPanics x),
        ⟨v', { w with alloc := a₂, made := w.made ++ made, cloned := w.cloned ++ List.replicate (made.length + 1) x,
                      dropped := w.dropped ++ [x] }⟩)) := by
  obtain ⟨r', c', a', h1, h2⟩ := tryExtendWith_spec he cl hv.cap hv.fits (show 0 < n - l.length by omega) x w
  rw [← tryResizeNoCopy_grow hn, ← hv.eq_of] at h2
  obtain ⟨rfl, h3⟩ := Reserved.run_eq hv h1 hr
  simp only [St.mk.injEq] at h3
  obtain ⟨rfl, rfl⟩ := h3
  have hok := h1.ok rfl
  have hlen := cloneAll_length cl (List.replicate (n - l.length - 1) x) a'
  simp only [] at hc
  simp only [hc, clonedOnto, List.length_replicate] at h2 hlen
  constructor
  · rintro rfl
    have h4 := hlen.2.1 rfl
    refine ⟨_, .of (by simp; omega) hok.2.1, h4, ?_⟩
    rw [h2]; simp [asked]
  · intro hs
    have h4 := hlen.2.2 hs
    refine ⟨_, .of (c := c') (by simp; omega) hok.2.1, h4, ?_⟩
    rw [h2]
    cases stop with
    | done => exact absurd rfl hs
    | failed er => simp [asked, World.drop1, List.take_replicate, Stop.outAfter]; omega
    | panicked m => simp [asked, World.drop1, List.take_replicate, Stop.outAfter]; omega

/-- **C37** ... and when there is no memory: nothing is cloned, the vector is unchanged, `x` is dropped. -/
theorem C37_grow_refused (he : e.OK) (hv : Holds e v l) {cl : Cloner T} {n : Nat} (hn : l.length < n) (x : T) {er}
    (hr : tryReserve e (n - l.length) ⟨v, w⟩ = (.ok (.error er), ⟨v₁, w₁⟩)) :
    tryResizeNoCopy e cl n x ⟨v, w⟩ =
      (if e.dropPanics x then .panic "destructor panicked" else .ok (.error er), ⟨v, w₁.drop1 x⟩) := by
  obtain ⟨r', c', a', h1, h2⟩ := tryExtendWith_spec he cl hv.cap hv.fits (show 0 < n - l.length by omega) x w
  rw [← tryResizeNoCopy_grow hn, ← hv.eq_of] at h2
  obtain ⟨rfl, h3⟩ := Reserved.run_eq hv h1 hr
  simp only [St.mk.injEq] at h3
  obtain ⟨rfl, rfl⟩ := h3
  simpa only [Reserved.back hv h1] using h2

/-- **C37** `try_resize_no_copy(n, x)` when not growing: always `Ok`, the first `n` elements stay, exactly the others and `x`
are dropped, each once (last element first), nothing is cloned or allocated - provided the dropped elements' destructors do
not panic (see C54 for what happens if one does). -/
theorem C37_shrink (hv : Holds e v l) {cl : Cloner T} {n : Nat} (hn : n ≤ l.length) (x : T) (w : World T)
    (hp : ∀ y ∈ l.drop n, e.dropPanics y = false) :
    ∃ v', Holds e v' (l.take n) ∧ tryResizeNoCopy e cl n x ⟨v, w⟩ =
      (if e.dropPanics x then .panic "destructor panicked" else .ok (.ok ()), ⟨v', w.dropMany ((l.drop n).reverse ++ [x])⟩) := by
  have h := tryResizeNoCopy_shrink (e := e) (cl := cl) hv.fits hn (by simpa using hp) x w
  rw [← hv.eq_of] at h
  exact ⟨_, .of (by have := hv.fits; rw [List.length_take]; omega) hv.cap, h⟩

/-- **C37** With a cloner that gives back equal values a successful `try_resize_no_copy` has the contents of `resize`. -/
theorem C37_faithful {cl : Cloner T} (hcl : Faithful cl) (x : T) {n : Nat} {a made a₂}
    (hc : cloneAll cl (List.replicate (n - l.length - 1) x) a = (made, .done, a₂)) (hn : l.length < n) :
    l ++ made ++ [x] = l ++ List.replicate (n - l.length) x := by
  have h1 := hcl.cloneAll (List.replicate (n - l.length - 1) x) a
  have h2 := (cloneAll_length cl (List.replicate (n - l.length - 1) x) a).2.1 (by rw [hc])
  rw [hc] at h1 h2
  simp only [List.length_replicate] at h1 h2
  rw [h1, h2, List.take_of_length_le (by simp), List.append_assoc, ← List.replicate_succ']
  congr 2
  omega

/-- **C54** Shrinking through `try_resize_no_copy` is not panic safe: if the destructor of an element being cut off panics, the
vector left behind still covers an element already dropped, and dropping the vector is undefined behaviour. -/
theorem C54_shrink_not_panic_safe (hv : Holds e v l) {cl : Cloner T} {n : Nat} (hn : n ≤ l.length) (x : T) (w : World T)
    {y : T} (hy : y ∈ l.drop n) (hp : e.dropPanics y = true) :
    ∃ s', tryResizeNoCopy e cl n x ⟨v, w⟩ = (.panic "destructor panicked", s') ∧ (dropVec e s').1 = .ub := by
  have h := tryResizeNoCopy_shrink_panic (e := e) (cl := cl) hv.fits hn (by simp only [List.any_eq_true]; exact ⟨y, hy, hp⟩) x w
  rw [← hv.eq_of] at h
  obtain ⟨s', h1, h2, _⟩ := h
  exact ⟨s', h1, h2⟩

/-- **C54** Exactly what is left behind: let `y` (at index `k`) be the last element whose destructor panics.  It, everything
behind it and the value given have been dropped, once each; the vector's length is `k + 1`, so it still counts `y`, whose slot holds
no object any more; the elements before are untouched. -/
theorem C54_state (hv : Holds e v l) {cl : Cloner T} {n : Nat} (hn : n ≤ l.length) (x : T) (w : World T)
    {y : T} (hy : y ∈ l.drop n) (hp : e.dropPanics y = true) :
    ∃ k y, n ≤ k ∧ l[k]? = some y ∧ e.dropPanics y = true ∧ (∀ z ∈ l.drop (k + 1), e.dropPanics z = false) ∧
      ∃ v', tryResizeNoCopy e cl n x ⟨v, w⟩ = (.panic "destructor panicked", ⟨v', w.dropMany ((l.drop k).reverse ++ [x])⟩) ∧
        v'.len = k + 1 ∧ v'.mem k = none ∧ ∀ i < k, v'.mem i = l[i]? := by
  obtain ⟨k, z, h1, h2, h3, h4, h5⟩ := tryResizeNoCopy_shrink_state (e := e) (cl := cl) hv.fits hn
    (by simp only [List.any_eq_true]; exact ⟨y, hy, hp⟩) x w
  rw [← hv.eq_of] at h5
  refine ⟨k, z, h1, h2, h3, h4, _, h5, rfl, ?_, fun i hi => ?_⟩
  · exact List.getElem?_eq_none (by rw [List.length_take]; omega)
  · simp [List.getElem?_take, hi]

/-- **C38** `try_extend_from_slice` (`Copy` elements): everything is appended or nothing changes. -/
theorem C38_copy (he : e.OK) (hv : Holds e v l) (xs : List T) {r} (hr : tryReserve e xs.length ⟨v, w⟩ = (.ok r, ⟨v₁, w₁⟩)) :
    (r = .ok () → ∃ v', Holds e v' (l ++ xs) ∧ tryExtendFromSlice e xs ⟨v, w⟩ = (.ok (.ok ()), ⟨v', w₁⟩)) ∧
    (∀ er, r = .error er → tryExtendFromSlice e xs ⟨v, w⟩ = (.ok (.error er), ⟨v, w₁⟩)) := by
  obtain ⟨r', c', a', h1, h2⟩ := tryExtendFromSlice_spec he hv.cap hv.fits xs w
  rw [← hv.eq_of] at h2
  obtain ⟨rfl, h3⟩ := Reserved.run_eq hv h1 hr
  simp only [St.mk.injEq] at h3
  obtain ⟨rfl, rfl⟩ := h3
  constructor
  · rintro rfl
    have := h1.ok rfl
    exact ⟨_, .of (by simp; omega) this.2.1, h2⟩
  · rintro er rfl
    simpa only [Reserved.back hv h1] using h2

/-- **C38** `try_extend_from_slice_no_copy`: without memory nothing changes; otherwise the elements are cloned left to right
and appended, and if a clone fails or panics the clones of the proper prefix before it stay. -/
theorem C38_no_copy (he : e.OK) (hv : Holds e v l) (cl : Cloner T) (xs : List T) {r made stop a₂}
    (hr : tryReserve e xs.length ⟨v, w⟩ = (.ok r, ⟨v₁, w₁⟩)) (hc : cloneAll cl xs w₁.alloc = (made, stop, a₂)) :
    (r = .ok () → ∃ v', Holds e v' (l ++ made) ∧ (stop = .done → made.length = xs.length) ∧ (stop ≠ .done → made.length < xs.length) ∧
      tryExtendFromSliceNoCopy e cl xs ⟨v, w⟩ = (stop.out,
        ⟨v', { w with alloc := a₂, made := w.made ++ made, cloned := w.cloned ++ asked xs made stop }⟩)) ∧
    (∀ er, r = .error er → tryExtendFromSliceNoCopy e cl xs ⟨v, w⟩ = (.ok (.error er), ⟨v, w₁⟩)) := by
  obtain ⟨r', c', a', h1, h2⟩ := tryExtendFromSliceNoCopy_spec he cl hv.cap hv.fits xs w
  rw [← hv.eq_of] at h2
  obtain ⟨rfl, h3⟩ := Reserved.run_eq hv h1 hr
  simp only [St.mk.injEq] at h3
  obtain ⟨rfl, rfl⟩ := h3
  simp only [] at hc
  have hlen := cloneAll_length cl xs a'
  rw [hc] at hlen
  constructor
  · rintro rfl
    have := h1.ok rfl
    refine ⟨_, .of (c := c') (by have := hlen.1; simp only [List.length_append]; simp only [] at this; omega) this.2.1, hlen.2.1, hlen.2.2, ?_⟩
    rw [h2]; simp [hc, clonedOnto]
  · rintro er rfl
    simpa only [Reserved.back hv h1] using h2

/-- The world after cloning the elements `xs` from `w`. -/
def afterCloning (w : World T) (xs made : List T) (stop : Stop) (a : Alloc) : World T :=
  { w with alloc := a, made := w.made ++ made, cloned := w.cloned ++ asked xs made stop }

/-- How a function ends that builds a new vector out of clones of `xs`: without memory (`r`), with `Err`; if all clones
succeeded, with a vector holding exactly them; otherwise the clones made are dropped (and a destructor that panics meanwhile
takes over from an error). -/
def Builds (e : Env T) (xs : List T) (r : Res Unit) (w₁ w : World T) (made : List T) (stop : Stop) (a₂ : Alloc)
    (out : Exec (Res (RawVec T)) × World T) : Prop :=
  (∀ er, r = .error er → out = (.ok (.error er), w₁)) ∧
  (r = .ok () →
    (stop = .done → made.length = xs.length ∧ ∃ v', Holds e v' made ∧ out = (.ok (.ok v'), afterCloning w xs made stop a₂)) ∧
    (∀ er, stop = .failed er → made.length < xs.length ∧
      out = (if made.any e.dropPanics then .panic "destructor panicked" else .ok (.error er), (afterCloning w xs made stop a₂).dropMany made)) ∧
    (∀ m, stop = .panicked m → made.length < xs.length ∧ out = (.panic m, (afterCloning w xs made stop a₂).dropMany made)))

theorem Builds.of {xs : List T} {r : Res Unit} {c' : Nat} {a' : Alloc} {cl : Cloner T} {out : Exec (Res (RawVec T)) × World T} {c : Nat}
    (h2 : out = match r with
      | .error er => (.ok (.error er), { w with alloc := a' })
      | .ok () =>
        let ys := (cloneAll cl xs a').1
        let w' := (clonedOnto cl xs c' [] { w with alloc := a' }).w
        match (cloneAll cl xs a').2.1 with
        | .done => (.ok (.ok (RawVec.of c' ys)), w')
        | .failed er => (if ys.any e.dropPanics then .panic "destructor panicked" else .ok (.error er), w'.dropMany ys)
        | .panicked m => (.panic m, w'.dropMany ys))
    (h1 : Reserved e xs.length ([] : List T) c w r c' a') {made stop a₂} (hc : cloneAll cl xs a' = (made, stop, a₂)) :
    Builds e xs r { w with alloc := a' } w made stop a₂ out := by
  have hlen := cloneAll_length cl xs a'
  rw [hc] at hlen h2
  simp only [] at hlen h2
  constructor
  · rintro er rfl; exact h2
  · rintro rfl
    have := h1.ok rfl
    simp only [List.length_nil, Nat.zero_add] at this
    refine ⟨?_, ?_, ?_⟩
    · rintro rfl
      refine ⟨hlen.2.1 rfl, _, .of (by omega) this.2.1, ?_⟩
      rw [h2]; simp [clonedOnto, afterCloning, hc]
    · rintro er rfl
      refine ⟨hlen.2.2 (by simp), ?_⟩
      rw [h2]; simp [clonedOnto, afterCloning, hc]
    · rintro m rfl
      refine ⟨hlen.2.2 (by simp), ?_⟩
      rw [h2]; simp [clonedOnto, afterCloning, hc]

/-- **C40** `try_clone` of a vector and `TryFrom<&[T]>` / `TryFrom<&str>`: one reservation, then the elements cloned left to
right; the source is not touched (it is only read). -/
theorem C40_try_clone (he : e.OK) (cl : Cloner T) (xs : List T) {r made stop a₂}
    (hr : tryReserve e xs.length ⟨RawVec.new e, w⟩ = (.ok r, ⟨v₁, w₁⟩)) (hc : cloneAll cl xs w₁.alloc = (made, stop, a₂)) :
    Builds e xs r w₁ w made stop a₂ (tryCloneSlice e cl xs w) := by
  obtain ⟨r', c', a', h1, h2⟩ := tryCloneSlice_spec he cl xs w
  obtain ⟨rfl, h3⟩ := Reserved.run_eq (.new e) h1 hr
  simp only [St.mk.injEq] at h3
  obtain ⟨rfl, rfl⟩ := h3
  exact .of h2 h1 hc

/-- **C40** `concat` of vectors whose total length is a `usize`: the clones of all elements in order. -/
theorem C40_concat (he : e.OK) (cl : Cloner T) (vs : List (List T)) (hn : vs.flatten.length ≤ e.usizeMax) {r made stop a₂}
    (hr : tryReserve e vs.flatten.length ⟨RawVec.new e, w⟩ = (.ok r, ⟨v₁, w₁⟩))
    (hc : cloneAll cl vs.flatten w₁.alloc = (made, stop, a₂)) :
    Builds e vs.flatten r w₁ w made stop a₂ (concat e cl vs w) := by
  obtain ⟨r', c', a', h1, h2⟩ := concat_spec he cl vs hn w
  obtain ⟨rfl, h3⟩ := Reserved.run_eq (.new e) h1 hr
  simp only [St.mk.injEq] at h3
  obtain ⟨rfl, rfl⟩ := h3
  exact .of h2 h1 hc

/-- **C40** If the total length is not a `usize` (only zero-sized elements can get there) `concat` never returns a vector and
never misbehaves; with overflow checks it panics instead of returning `Err`. -/
theorem C40_concat_overflow (he : e.OK) (cl : Cloner T) (vs : List (List T)) (hn : e.usizeMax < vs.flatten.length) (w : World T) :
    (concat e cl vs w).1 ≠ .ub ∧ (∀ v, (concat e cl vs w).1 ≠ .ok (.ok v)) ∧
    (e.overflowChecks = true → (concat e cl vs w).1 = .panic "attempt to add with overflow") := by
  obtain ⟨h1, h2, _, h4⟩ := concat_overflow he cl vs hn w
  exact ⟨h1, h2, h4⟩

/-- **C40** With a cloner that gives back equal values, a successful clone holds exactly the elements of the source. -/
theorem C40_faithful {cl : Cloner T} (hcl : Faithful cl) (xs : List T) {a made a₂} (hc : cloneAll cl xs a = (made, .done, a₂)) :
    made = xs := by
  have h1 := hcl.cloneAll xs a
  have h2 := (cloneAll_length cl xs a).2.1 (by rw [hc])
  rw [hc] at h1 h2
  simp only [] at h1 h2
  rw [h1, h2, List.take_length]

/-- **C41** `try_from_iterator` / `try_collect`: either every item was pulled and the vector holds them all in order, or some
item `y` could not be pushed because a reservation for one more element failed: exactly the items up to and including `y` were
pulled, these are dropped, and the error is that of the reservation. -/
theorem C41_try_from_iterator (he : e.OK) (xs : List T) (w : World T) :
    (∃ v' a', Holds e v' xs ∧ tryFromIterator e xs w = (.ok (.ok v', []), { w with alloc := a' })) ∨
    (∃ ys y zs er v₀ a₀ a', xs = ys ++ y :: zs ∧ Holds e v₀ ys ∧
      tryReserve e 1 ⟨v₀, { w with alloc := a₀ }⟩ = (.ok (.error er), ⟨v₀, { w with alloc := a' }⟩) ∧
      tryFromIterator e xs w =
        (if e.dropPanics y || ys.any e.dropPanics then .panic "destructor panicked" else .ok (.error er, zs),
          { w with alloc := a', dropped := w.dropped ++ y :: ys })) := by
  rcases tryFromIterator_spec he xs w with ⟨c', a', h | ⟨ys, y, zs, er, c₀, a₀, h1, h2, h3, h4, h5⟩⟩
  · exact .inl ⟨_, a', .of h.2.1 h.2.2, h.1⟩
  · refine .inr ⟨ys, y, zs, er, RawVec.of c₀ ys, a₀, a', h1, .of (h3.err er rfl ▸ h4) (h3.err er rfl ▸ h5), ?_, ?_⟩
    · have := h3.run
      rw [h3.err er rfl] at this
      exact this
    · rw [h2]; simp [World.drop1, World.dropMany]

/-- **C41** An item is refused only if the vector is full; with room for all items the first alternative holds. -/
theorem C41_refused_only_when_full (he : e.OK) {v₀ : RawVec T} {ys : List T} (hv : Holds e v₀ ys) {er a'}
    (h : tryReserve e 1 ⟨v₀, w⟩ = (.ok (.error er), ⟨v₀, { w with alloc := a' }⟩)) :
    v₀.cap = ys.length ∧ (er = .capacityOverflow ∨ w.alloc 0 = false) := by
  obtain ⟨r, c', a'', h1, h2⟩ := tryReserve_spec he hv.cap hv.fits 1 w
  obtain ⟨rfl, _⟩ := Reserved.run_eq hv h2 h
  constructor
  · apply Classical.byContradiction
    intro hne
    have := (h2.room (by have := hv.fits; omega)).1
    simp at this
  · cases er with
    | capacityOverflow => exact .inl rfl
    | allocError => exact .inr (h2.refused rfl)

/-- **C42** `try_from_elem(x, 0)`, that is `try_vec![x; 0]`: an empty vector; no memory, no clone, `x` is dropped. -/
theorem C42_zero (cl : Cloner T) (x : T) (w : World T) :
    Holds e (RawVec.new e) [] ∧ tryFromElem e cl x 0 w =
      (if e.dropPanics x then .panic "destructor panicked" else .ok (.ok (RawVec.new e)), w.drop1 x) :=
  ⟨.new e, tryFromElem_zero x w⟩

/-- **C42** `try_from_elem(x, n)` for `n > 0` with memory: `n - 1` clones and then `x` itself; a clone that fails or panics
ends it, and everything made is dropped.  Without memory: `Err`, and `x` is dropped. -/
theorem C42_try_from_elem (he : e.OK) (cl : Cloner T) (x : T) {n : Nat} (hn : 0 < n) {r made stop a₂}
    (hr : tryReserve e n ⟨RawVec.new e, w⟩ = (.ok r, ⟨v₁, w₁⟩))
    (hc : cloneAll cl (List.replicate (n - 1) x) w₁.alloc = (made, stop, a₂)) :
    (∀ er, r = .error er → tryFromElem e cl x n w =
      (if e.dropPanics x then .panic "destructor panicked" else .ok (.error er), w₁.drop1 x)) ∧
    (r = .ok () →
      (stop = .done → made.length = n - 1 ∧ ∃ v', Holds e v' (made ++ [x]) ∧
        tryFromElem e cl x n w = (.ok (.ok v'), afterCloning w (List.replicate (n - 1) x) made stop a₂)) ∧
      (∀ er, stop = .failed er → tryFromElem e cl x n w =
        (if e.dropPanics x || made.any e.dropPanics then .panic "destructor panicked" else .ok (.error er),
          (afterCloning w (List.replicate (n - 1) x) made stop a₂).dropMany (x :: made))) ∧
      (∀ m, stop = .panicked m → tryFromElem e cl x n w =
        (.panic m, (afterCloning w (List.replicate (n - 1) x) made stop a₂).dropMany (x :: made)))) := by
  obtain ⟨r', c', a', h1, h2⟩ := tryFromElem_spec he cl x hn w
  obtain ⟨rfl, h3⟩ := Reserved.run_eq (.new e) h1 hr
  simp only [St.mk.injEq] at h3
  obtain ⟨rfl, rfl⟩ := h3
  simp only [] at hc
  have hlen := cloneAll_length cl (List.replicate (n - 1) x) a'
  rw [hc] at hlen h2
  simp only [List.length_replicate] at hlen h2
  constructor
  · rintro er rfl; exact h2
  · rintro rfl
    have := h1.ok rfl
    simp only [List.length_nil, Nat.zero_add] at this
    refine ⟨?_, ?_, ?_⟩
    · rintro rfl
      have h5 := hlen.2.1 rfl
      refine ⟨h5, _, .of (by simp; omega) this.2.1, ?_⟩
      rw [h2]; simp [clonedOnto, afterCloning, hc]
    · rintro er rfl
      rw [h2]; simp [clonedOnto, afterCloning, hc, World.drop1, World.dropMany]
    · rintro m rfl
      rw [h2]; simp [clonedOnto, afterCloning, hc, World.drop1, World.dropMany]

/-- **C42** The `u8` version (`write_bytes`) returns `n` copies of `x` exactly when there is memory, for every `n`. -/
theorem C42_u8 (he : e.OK) (x : T) (n : Nat) {r} (hr : tryReserve e n ⟨RawVec.new e, w⟩ = (.ok r, ⟨v₁, w₁⟩)) :
    (r = .ok () → ∃ v', Holds e v' (List.replicate n x) ∧ tryFromElemU8 e x n w = (.ok (.ok v'), w₁)) ∧
    (∀ er, r = .error er → tryFromElemU8 e x n w = (.ok (.error er), w₁)) := by
  obtain ⟨r', c', a', h1, h2⟩ := tryFromElemU8_spec he x n w
  obtain ⟨rfl, h3⟩ := Reserved.run_eq (.new e) h1 hr
  simp only [St.mk.injEq] at h3
  obtain ⟨rfl, rfl⟩ := h3
  constructor
  · rintro rfl
    have := h1.ok rfl
    exact ⟨_, .of (by simpa using this.1) this.2.1, h2⟩
  · rintro er rfl; exact h2

/-- **C42** The `u8` version and the generic one agree on elements that clone to themselves without asking for memory and have
no destructor: same outcome, same contents. -/
theorem C42_u8_agrees (he : e.OK) (cl : Cloner T) (hcl : ∀ x a, cl x a = (.ok (.ok x), a)) (hp : ∀ x, e.dropPanics x = false)
    (x : T) (n : Nat) (w : World T) :
    (∃ v v' l, Holds e v l ∧ Holds e v' l ∧ l = List.replicate n x ∧ (tryFromElemU8 e x n w).1 = .ok (.ok v) ∧
      (tryFromElem e cl x n w).1 = .ok (.ok v')) ∨
    (∃ er, (tryFromElemU8 e x n w).1 = .ok (.error er) ∧ (tryFromElem e cl x n w).1 = .ok (.error er)) := by
  obtain ⟨r, v₁, a₁, hr, g1, g2, g3, g4, g5, g6⟩ := C31_try_reserve he (.new e) n w
  have hu := C42_u8 he x n hr
  have hcl' : ∀ xs a, cloneAll cl xs a = (xs, .done, a) := by
    intro xs a
    induction xs with
    | nil => rfl
    | cons y ys ih => simp [cloneAll, hcl, ih]
  by_cases hn : n = 0
  · subst hn
    obtain ⟨rfl, _⟩ := g6 (by simp)
    obtain ⟨v', h1, h2⟩ := hu.1 rfl
    left
    refine ⟨v', RawVec.new e, [], h1, .new e, rfl, by rw [h2], ?_⟩
    rw [(C42_zero cl x w).2]; simp [hp]
  · have hg := C42_try_from_elem he cl x (Nat.pos_of_ne_zero hn) hr (hcl' _ _)
    cases r with
    | error er => right; exact ⟨er, by rw [hu.2 er rfl], by rw [hg.1 er rfl]; simp [hp]⟩
    | ok u =>
      left
      obtain ⟨v, h1, h2⟩ := hu.1 rfl
      obtain ⟨_, v', h3, h4⟩ := (hg.2 rfl).1 rfl
      refine ⟨v, v', _, h1, ?_, rfl, by rw [h2], by rw [h4]⟩
      rw [← List.replicate_succ'] at h3
      rwa [show n - 1 + 1 = n by omega] at h3

/-! ### concrete cases meeting the hypotheses above -/

/-- A full vector of three elements: with an allocator that grants, `try_reserve` succeeds and so do the calls relative to it. -/
example : Holds demoEnv (RawVec.of 3 [1, 2, 3]) [1, 2, 3] ∧
    (tryReserve demoEnv 1 ⟨RawVec.of 3 [1, 2, 3], demoWorld fun _ => true⟩).1 = .ok (.ok ()) ∧
    (tryPush demoEnv 4 ⟨RawVec.of 3 [1, 2, 3], demoWorld fun _ => true⟩).2.v.items = [1, 2, 3, 4] ∧
    (tryInsert demoEnv 1 4 ⟨RawVec.of 3 [1, 2, 3], demoWorld fun _ => true⟩).2.v.items = [1, 4, 2, 3] ∧
    (tryResizeNoCopy demoEnv failAt5 5 9 ⟨RawVec.of 3 [1, 2, 3], demoWorld fun _ => true⟩).2.v.items = [1, 2, 3, 9, 9] :=
  ⟨demoHolds (by decide) (by decide), by decide +kernel, by decide +kernel, by decide +kernel, by decide +kernel⟩

/-- The same vector with an allocator that refuses: the other branch. -/
example : (tryReserve demoEnv 1 ⟨RawVec.of 3 [1, 2, 3], demoWorld fun _ => false⟩).1 = .ok (.error .allocError) ∧
    (tryPushGiveBack demoEnv 4 ⟨RawVec.of 3 [1, 2, 3], demoWorld fun _ => false⟩).1 = .ok (.error (4, .allocError)) ∧
    (tryPushGiveBack demoEnv 4 ⟨RawVec.of 3 [1, 2, 3], demoWorld fun _ => false⟩).2.v.items = [1, 2, 3] := by
  decide +kernel

/-- A partial failure of `try_extend_from_slice_no_copy` (C38): the clone of 5 fails, the clone of 4 stays. -/
example : cloneAll failAt5 [4, 5, 6] (fun _ => true) = ([4], .failed .allocError, fun _ => true) ∧
    (tryExtendFromSliceNoCopy demoEnv failAt5 [4, 5, 6] ⟨RawVec.of 6 [1, 2, 3], demoWorld fun _ => true⟩).1 = .ok (.error .allocError) ∧
    (tryExtendFromSliceNoCopy demoEnv failAt5 [4, 5, 6] ⟨RawVec.of 6 [1, 2, 3], demoWorld fun _ => true⟩).2.v.items = [1, 2, 3, 4] :=
  ⟨rfl, by decide +kernel, by decide +kernel⟩

/-- A panicking destructor while shrinking (C54): `[1, 13, 3]` cut to length 1; 13's destructor panics. -/
example : (13 : Nat) ∈ [1, 13, 3].drop 1 ∧ demoEnv.dropPanics 13 = true ∧
    (tryResizeNoCopy demoEnv failAt5 1 9 ⟨RawVec.of 3 [1, 13, 3], demoWorld fun _ => true⟩).1 = .panic "destructor panicked" ∧
    (dropVec demoEnv (tryResizeNoCopy demoEnv failAt5 1 9 ⟨RawVec.of 3 [1, 13, 3], demoWorld fun _ => true⟩).2).1 = .ub := by
  decide +kernel

/-- `concat`, `try_from_elem`, `try_from_iterator` on literals; the iterator's third item is refused and the fourth stays in it. -/
example : ((tryFromIterator { demoEnv with grow := fun _ r => r } [1, 2, 3, 4] (demoWorld fun n => n < 2)).1
      matches .ok (.error .allocError, [4])) = true ∧
    (tryFromIterator demoEnv [1, 2, 3] (demoWorld fun n => n < 1)).2.dropped = [2, 1] := by
  decide +kernel

/-- Overflow of the total length (C40): two vectors of two zero-sized elements each on a machine with words up to 3. -/
example : (3 : Nat) < ([[(), ()], [(), ()]] : List (List Unit)).flatten.length ∧
    (concat (⟨3, 0, fun _ r => r, fun _ r => r, fun _ => false, true⟩ : Env Unit) (fun x a => (.ok (.ok x), a)) [[(), ()], [(), ()]]
      ⟨fun _ => true, 0, [], [], []⟩).1 = .panic "attempt to add with overflow" :=
  ⟨by decide, rfl⟩

end Verif.Props
