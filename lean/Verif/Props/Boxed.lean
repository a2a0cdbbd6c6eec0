import Verif.Misc.Boxed
import Verif.Props.Vec
/-
`Box`, `TryBox`, `Rc`, `Arc` (C46, C47).
-/
namespace Verif.Props
open Verif Verif.Vec Verif.Misc

variable {T : Type} {e : Env T}

/-- What is assumed of the target: a machine with an address space, an element type that fits it, and a `try_reserve_exact`
that allocates exactly what it is asked for (as std's does, although it does not promise to: see `C46_inexact`). -/
structure SaneTarget (e : Env T) : Prop where
  word : 0 < e.usizeMax
  size : e.size ≤ e.isizeMax
  exact : e.exact 0 1 = 1

/-- The world after one more request. -/
def World.asked1 (w : World T) : World T := { w with alloc := w.alloc.request.2 }

theorem boxTryNew_zst (h0 : e.size = 0) (hw : 0 < e.usizeMax) (x : T) (w : World T) : boxTryNew e x w = (.ok (.ok ⟨1, x⟩), w) := by
  have h1 : stdTryReserveExact e 1 ⟨RawVec.of e.usizeMax [], w⟩ = (.ok (.ok ()), ⟨RawVec.of e.usizeMax [], w⟩) := by
    have : 1 ≤ e.usizeMax := hw
    simp [stdTryReserveExact, RawVec.of, this]
  have h2 : (RawVec.new e : RawVec T) = RawVec.of e.usizeMax [] := by rw [new_eq, if_pos h0]
  have h3 : intoBoxedSlice e ⟨RawVec.of e.usizeMax [x], w⟩ = (.ok (), ⟨RawVec.of e.usizeMax [x], w⟩) := by simp [intoBoxedSlice, h0]
  have h4 : boxFromRaw e ⟨RawVec.of e.usizeMax [x], w⟩ = (.ok ⟨1, x⟩, ⟨RawVec.of e.usizeMax [x], w⟩) := by simp [boxFromRaw, RawVec.of, h0]
  simp only [boxTryNew, h2]
  rw [VM.bind_ok h1]
  simp only []
  rw [VM.bind_ok (stdPush_room (l := []) hw x w), List.nil_append, VM.bind_ok h3, VM.bind_ok h4]
  rfl

/-- For sized objects, whatever capacity `k` the reservation obtains. -/
theorem boxTryNew_sized (h0 : e.size ≠ 0) (hw : 0 < e.usizeMax) {k : Nat} (hk : e.exact 0 1 = k) (hk1 : 1 ≤ k) (hs : k * e.size ≤ e.isizeMax)
    (x : T) (w : World T) : boxTryNew e x w =
      if w.alloc 0 then
        if k = 1 then (.ok (.ok ⟨1, x⟩), World.asked1 w)
        else (if w.alloc 1 then .ok (.ok ⟨1, x⟩) else .panic "memory allocation failed",
          { World.asked1 (World.asked1 w) with aborting := w.aborting + 1 })
      else (if e.dropPanics x then .panic "destructor panicked" else .ok (.error .allocError), (World.asked1 w).drop1 x) := by
  have h2 : (RawVec.new e : RawVec T) = RawVec.of 0 [] := by rw [new_eq, if_neg h0]
  have hu : ¬ e.usizeMax < 1 := by omega
  have hs' : ¬ e.isizeMax < k * e.size := by omega
  have h1 : stdTryReserveExact e 1 ⟨RawVec.of 0 [], w⟩ =
      if w.alloc 0 then (.ok (.ok ()), ⟨RawVec.of k [], World.asked1 w⟩)
      else (.ok (.error .allocError), ⟨RawVec.of 0 [], World.asked1 w⟩) := by
    simp [stdTryReserveExact, RawVec.of, growFor, growTo, h0, hu, hk, hs', Alloc.request, World.asked1]
  simp only [boxTryNew, h2]
  cases ha : w.alloc 0 with
  | false =>
    rw [ha] at h1
    rw [VM.bind_ok (show _ = (_, _) from h1)]
    simp only [VM.bind_eq, dropVal]
    cases e.dropPanics x <;> simp [World.drop1]
  | true =>
    rw [ha] at h1
    rw [VM.bind_ok (show _ = (_, _) from h1)]
    simp only []
    rw [VM.bind_ok (stdPush_room (l := []) (show 0 < k from hk1) x _), List.nil_append]
    by_cases hk2 : k = 1
    · subst hk2
      simp [VM.bind_eq, intoBoxedSlice, RawVec.of, boxFromRaw]
    · have : 1 < k := by omega
      cases ha1 : w.alloc 1 <;>
        simp [VM.bind_eq, intoBoxedSlice, RawVec.of, boxFromRaw, this, h0, hk2, Alloc.request, World.asked1, ha1]

/-- **C46** `Box::try_new` and `TryBox::try_new`: for zero-sized objects always `Ok`, without touching the allocator.  Otherwise
one fallible request: granted, `Ok` with a box (an allocation of one element) holding the very object; refused, `Err` with
the object dropped.  No request is made whose failure would abort. -/
theorem C46_try_new (he : SaneTarget e) (x : T) (w : World T) : boxTryNew e x w =
    if e.size = 0 then (.ok (.ok ⟨1, x⟩), w)
    else if w.alloc 0 then (.ok (.ok ⟨1, x⟩), World.asked1 w)
    else (if e.dropPanics x then .panic "destructor panicked" else .ok (.error .allocError), (World.asked1 w).drop1 x) := by
  by_cases h0 : e.size = 0
  · rw [if_pos h0, boxTryNew_zst h0 he.word]
  · rw [if_neg h0, boxTryNew_sized h0 he.word he.exact (Nat.le_refl 1) (by rw [Nat.one_mul]; exact he.size), if_pos rfl]

/-- **C46** If `try_reserve_exact` ever over-allocated, `into_boxed_slice` would make a second request, and its refusal aborts:
the exactness assumption of `C46_try_new` is needed. -/
theorem C46_inexact (h0 : e.size ≠ 0) (hw : 0 < e.usizeMax) (hk : 1 < e.exact 0 1) (hs : e.exact 0 1 * e.size ≤ e.isizeMax) (x : T)
    {w : World T} (ha : w.alloc 0 = true) :
    (boxTryNew e x w).2.aborting = w.aborting + 1 ∧
    (w.alloc 1 = true → (boxTryNew e x w).1 = .ok (.ok ⟨1, x⟩)) ∧
    (w.alloc 1 = false → (boxTryNew e x w).1 = .panic "memory allocation failed") := by
  rw [boxTryNew_sized h0 hw rfl (by omega) hs, if_pos ha, if_neg (by omega)]
  refine ⟨rfl, fun h => by simp [h], fun h => by simp [h]⟩

/-- **C46** `try_clone` of a `Box` or `TryBox` clones the content and puts the clone into a new box: `Ok` gives a box with the
clone (an equal one, for a faithful cloner); if cloning the content fails nothing else happens; if there is no memory for
the box the clone is dropped. -/
theorem C46_try_clone (he : SaneTarget e) (cl : Cloner T) (b : Boxed T) (w : World T) {r a} (hc : cl b.content w.alloc = (r, a)) :
    (∀ m, r = .error m → (boxTryClone e cl b w).1 = .panic m) ∧
    (∀ er, r = .ok (.error er) → boxTryClone e cl b w = (.ok (.error er), { w with alloc := a, cloned := w.cloned ++ [b.content] })) ∧
    (∀ c, r = .ok (.ok c) → (e.size = 0 ∨ a 0 = true → (boxTryClone e cl b w).1 = .ok (.ok ⟨1, c⟩)) ∧
      (e.size ≠ 0 → a 0 = false → e.dropPanics c = false → (boxTryClone e cl b w).1 = .ok (.error .allocError) ∧
        (boxTryClone e cl b w).2.dropped = w.dropped ++ [c])) ∧
    (boxTryClone e cl b w).2.aborting = w.aborting ∧
    (Faithful cl → ∀ b' w', boxTryClone e cl b w = (.ok (.ok b'), w') → b'.content = b.content) := by
  simp only [boxTryClone, hc]
  rcases r with m | er | c
  · simp
  · simp
  · simp only [C46_try_new he]
    refine ⟨by simp, by simp, ?_, ?_, ?_⟩
    · rintro c' h
      obtain rfl : c = c' := by simpa using h
      refine ⟨?_, ?_⟩
      · rintro (h | h)
        · simp [h]
        · by_cases h0 : e.size = 0 <;> simp [h, h0]
      · intro h1 h2 h3
        simp [h1, h2, h3, World.drop1, World.asked1]
    · by_cases h0 : e.size = 0
      · simp [h0]
      · by_cases ha : a 0 = true <;> simp [h0, ha, World.drop1, World.asked1]
    · intro hf b' w' h
      have hcc := hf _ _ _ _ hc
      by_cases h0 : e.size = 0
      · simp [h0] at h
        rw [← h.1, hcc]
      · cases ha : a 0 with
        | true =>
          simp [h0, ha] at h
          rw [← h.1, hcc]
        | false =>
          cases hd : e.dropPanics c <;> simp [h0, ha, hd] at h

/-- **C47** `Rc::try_new`, and `Arc::try_new` on stable, are not fallible: with memory for the box, a second request follows, and
its refusal aborts.  `Err` happens exactly when the box cannot be allocated; `Ok` holds the very object with count 1. -/
theorem C47_stable (he : SaneTarget e) (h0 : e.size ≠ 0) {header : Nat} (hh : e.size + header ≤ e.isizeMax) (x : T) (w : World T) :
    (w.alloc 0 = true → w.alloc 1 = true → (rcTryNew e header x w).1 = .ok (.ok ⟨1, x⟩) ∧ (rcTryNew e header x w).2.aborting = w.aborting + 1) ∧
    (w.alloc 0 = true → w.alloc 1 = false → (rcTryNew e header x w).1 = .panic "memory allocation failed") ∧
    (w.alloc 0 = false → e.dropPanics x = false → (rcTryNew e header x w).1 = .ok (.error .allocError) ∧
      (rcTryNew e header x w).2.dropped = w.dropped ++ [x] ∧ (rcTryNew e header x w).2.aborting = w.aborting) := by
  have hh' : ¬ e.isizeMax < e.size + header := by omega
  simp only [rcTryNew, C46_try_new he, if_neg h0]
  refine ⟨?_, ?_, ?_⟩
  · intro h1 h2
    simp [h1, h2, countedFromBox, hh', Alloc.request, World.asked1]
  · intro h1 h2
    simp [h1, h2, countedFromBox, hh', Alloc.request, World.asked1]
  · intro h1 h2
    simp [h1, h2, World.drop1, World.asked1]

/-- **C47** For a zero-sized object `Rc::try_new` can never return `Err`: its only request is the aborting one. -/
theorem C47_zst (he : SaneTarget e) (h0 : e.size = 0) {header : Nat} (hh : header ≤ e.isizeMax) (x : T) (w : World T) :
    (rcTryNew e header x w).1 = (if w.alloc 0 then .ok (.ok ⟨1, x⟩) else .panic "memory allocation failed") := by
  have hh' : ¬ e.isizeMax < e.size + header := by omega
  simp only [rcTryNew, C46_try_new he, if_pos h0]
  cases ha : w.alloc 0 <;> simp [countedFromBox, hh', Alloc.request, ha]

/-- **C47** With the feature `unstable`, `Arc::try_new` is fallible: one request, `Ok` or `Err` accordingly, nothing that aborts. -/
theorem C47_unstable (x : T) (w : World T) :
    (arcTryNewUnstable e x w).2.aborting = w.aborting ∧
    (w.alloc 0 = true → arcTryNewUnstable e x w = (.ok (.ok ⟨1, x⟩), World.asked1 w)) ∧
    (w.alloc 0 = false → e.dropPanics x = false →
      arcTryNewUnstable e x w = (.ok (.error .allocError), (World.asked1 w).drop1 x)) := by
  cases ha : w.alloc 0 <;> simp [arcTryNewUnstable, Alloc.request, ha, World.asked1, World.drop1]

/-- **C47** `Arc::try_clone` never fails: it gives a handle to the same allocation, whose count goes up by one, and changes
nothing else; it aborts exactly if there are already more than `isize::MAX` handles. -/
theorem C47_arc_clone {isizeMax addr : Nat} {h : ArcHeap T} {c : Counted T} (hc : h[addr]? = some c) :
    (c.count ≤ isizeMax → ∃ h', arcTryClone isizeMax addr h = (.ok (.ok addr), h') ∧
      h'[addr]? = some ⟨c.count + 1, c.content⟩ ∧ (∀ i, i ≠ addr → h'[i]? = h[i]?) ∧ h'.length = h.length) ∧
    (isizeMax < c.count → arcTryClone isizeMax addr h = (.panic "abort: reference count overflow", h)) := by
  refine ⟨fun hle => ?_, fun hlt => by simp [arcTryClone, hc, hlt]⟩
  have hle' : ¬ isizeMax < c.count := by omega
  refine ⟨h.set addr ⟨c.count + 1, c.content⟩, by simp [arcTryClone, hc, hle'], ?_, ?_, by simp⟩
  · have : addr < h.length := by
      rw [List.getElem?_eq_some_iff] at hc; exact hc.1
    simp [this]
  · intro i hi
    simp [Ne.symm hi]

/-! ### concrete cases -/

theorem demoEnv_sane : SaneTarget demoEnv := ⟨by decide, by decide, rfl⟩

example : (boxTryNew demoEnv 7 (demoWorld fun _ => true)).1 = .ok (.ok ⟨1, 7⟩) := by decide +kernel
example : (boxTryNew demoEnv 7 (demoWorld fun _ => false)).2.dropped = [7] := by decide +kernel
example := C46_inexact (e := { demoEnv with exact := fun _ r => r + 3 }) (by decide) (by decide) (by decide) (by decide) 7 (w := demoWorld fun n => n == 0) rfl
example := (C46_try_clone demoEnv_sane failAt5 ⟨1, 7⟩ (demoWorld fun _ => true) rfl).2.2.1 7 rfl
example : (rcTryNew demoEnv 16 7 (demoWorld fun n => n == 0)).1 = .panic "memory allocation failed" :=
  (C47_stable demoEnv_sane (by decide) (by decide) 7 _).2.1 rfl rfl
example := C47_zst (e := { demoEnv with size := 0 }) ⟨by decide, by decide, rfl⟩ rfl (header := 16) (by decide) 7 (demoWorld fun _ => false)
example := (C47_unstable (e := demoEnv) 7 (demoWorld fun _ => false)).2.2 rfl rfl
example := (C47_arc_clone (isizeMax := 2 ^ 63 - 1) (addr := 1) (h := [⟨1, 4⟩, ⟨3, 9⟩]) rfl).1 (by decide)

end Verif.Props
