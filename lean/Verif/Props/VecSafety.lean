import Verif.Vec.Calls
import Verif.Vec.Proofs3
import Verif.Props.Vec
/-
The fallible vector methods never allocate infallibly (C33), stay inside their memory and drop every object exactly once (C39).
-/
namespace Verif.Props
open Verif Verif.Vec

variable {T : Type} {e : Env T}

/-- What a call does, for short: everything C33 and C39 need to know. -/
structure Fine (e : Env T) (owning : Prop) (l given : List T) (w : World T) (out : Exec (List T)) (v' : RawVec T) (w' : World T) : Prop where
  ub : out ≠ .ub
  aborting : w'.aborting = w.aborting
  holds : ∃ l', Holds e v' l' ∧
    ∃ dropped made, w'.dropped = w.dropped ++ dropped ∧ w'.made = w.made ++ made ∧
      (owning → (l ++ given ++ made).Perm (l' ++ dropped ++ back out))

/-- The outcome of a run whose result is ignored. -/
def noBack {α : Type} (o : Exec α) : Exec (List T) := o >>= fun _ => .ok []

theorem VM.bind_pure_fst {α : Type} {x : VM T α} {s s' : St T} {o : Exec α} (h : x s = (o, s')) :
    (x >>= fun _ => pure ([] : List T)) s = (noBack o, s') := by
  rw [VM.bind_eq, h]; cases o <;> rfl

theorem back_noBack {α : Type} (o : Exec α) : back (noBack o : Exec (List T)) = [] := by cases o <;> rfl

theorem perm_swap_tail (a b : List T) (c : List T) : (a ++ b ++ c).Perm (a ++ c ++ b) := by
  rw [List.append_assoc, List.append_assoc]; exact List.Perm.append_left _ List.perm_append_comm

/-- The one thing to beware of (see `C54_shrink_not_panic_safe`): `try_resize_no_copy` must not cut off an element whose
destructor panics.  `l` is what the vector holds when the call is made. -/
def Careful (e : Env T) (l : List T) : Call T → Prop
  | .resizeNoCopy _ n _ => ∀ y ∈ l.drop n, e.dropPanics y = false
  | _ => True

theorem careful_of (hp : ∀ x, e.dropPanics x = false) (l : List T) (c : Call T) : Careful e l c := by
  cases c <;> simp [Careful, hp]

theorem exchange_perm (l : List T) (i j : Nat) : (exchange l i j).Perm l := by
  unfold exchange
  split
  · rename_i x y hx hy
    obtain ⟨hi, rfl⟩ := List.getElem?_eq_some_iff.1 hx
    obtain ⟨hj, rfl⟩ := List.getElem?_eq_some_iff.1 hy
    exact List.set_set_perm hi hj
  · exact .refl _

theorem noBack_ne {α : Type} {o : Exec α} (h : o ≠ .ub) : (noBack o : Exec (List T)) ≠ .ub := by
  cases o <;> simp_all [noBack]

theorem dropsOut_ne {l : List T} {α : Type} {a : α} : dropsOut e l a ≠ .ub := by
  unfold dropsOut; split <;> simp

theorem call_fine (he : e.OK) {v : RawVec T} {l : List T} (hv : Holds e v l) (c : Call T) (hc : c.OK e) (hp : Careful e l c)
    (w : World T) : ∃ out v' w', c.run e ⟨v, w⟩ = (out, ⟨v', w'⟩) ∧ Fine e c.Owning l c.given w out v' w' := by
  rw [hv.eq_of]
  have hcap := hv.cap
  have hfit := hv.fits
  generalize v.cap = cap at hcap hfit
  cases c with
  | reserve n =>
    obtain ⟨r, c', a', h1, h2⟩ := tryReserve_spec he hcap hfit n w
    have h3 := h2.room' hcap hfit
    refine ⟨_, _, _, VM.bind_ok h1, by simp, rfl, l, .of h3.1 h3.2, [], [], by simp, by simp, fun _ => ?_⟩
    simp [Call.given, back]
  | push x =>
    obtain ⟨r, c', a', h1, h2⟩ := tryPush_spec he hcap hfit x w
    have h3 := h1.room' hcap hfit
    cases r with
    | ok u =>
      have h4 := h1.ok rfl
      refine ⟨_, _, _, VM.bind_ok h2, by simp, rfl, l ++ [x], .of (by simp; omega) h3.2, [], [], by simp, by simp, fun _ => ?_⟩
      simp [Call.given, back]
    | error er =>
      refine ⟨_, _, _, VM.bind_pure_fst h2, noBack_ne (by split <;> simp), rfl, l, .of h3.1 h3.2, [x], [], by simp, by simp, fun _ => ?_⟩
      rw [back_noBack]
      simp [Call.given]
  | pushGiveBack x =>
    obtain ⟨r, c', a', h1, h2⟩ := tryPushGiveBack_spec he hcap hfit x w
    have h3 := h1.room' hcap hfit
    cases r with
    | ok u =>
      have h4 := h1.ok rfl
      refine ⟨_, _, _, VM.bind_ok h2, by simp, rfl, l ++ [x], .of (by simp; omega) h3.2, [], [], by simp, by simp, fun _ => ?_⟩
      simp [Call.given, back]
    | error er =>
      refine ⟨_, _, _, VM.bind_ok h2, by simp, rfl, l, .of h3.1 h3.2, [], [], by simp, by simp, fun _ => ?_⟩
      simp [Call.given, back]
  | insert i x =>
    obtain ⟨r, c', a', h1, h2⟩ := tryInsert_spec he hcap hfit i x w
    have h3 := h1.room' hcap hfit
    cases r with
    | ok u =>
      have h4 := h1.ok rfl
      by_cases hi : l.length < i
      · simp only [hi, if_true] at h2
        refine ⟨_, _, _, VM.bind_panic h2, by simp, rfl, l, .of h3.1 h3.2, [x], [], by simp, by simp, fun _ => ?_⟩
        simp [Call.given, back]
      · simp only [hi, if_false] at h2
        refine ⟨_, _, _, VM.bind_ok h2, by simp, rfl, l.take i ++ x :: l.drop i, .of (by simp; omega) h3.2, [], [], by simp, by simp,
          fun _ => ?_⟩
        simp only [Call.given, back, List.append_nil, VM.pure_eq]
        refine List.Perm.trans List.perm_append_comm ?_
        refine List.Perm.trans ?_ List.perm_middle.symm
        simp
    | error er =>
      refine ⟨_, _, _, VM.bind_ok h2, by simp, rfl, l, .of h3.1 h3.2, [], [], by simp, by simp, fun _ => ?_⟩
      simp [Call.given, back]
  | append other =>
    obtain ⟨l₂, ho⟩ := hc
    obtain ⟨r, c', a', h1, h2⟩ := tryAppend_spec he hcap hfit other.cap l₂ w
    rw [← ho.eq_of] at h2
    have h3 := h1.room' hcap hfit
    cases r with
    | ok u =>
      have h4 := h1.ok rfl
      refine ⟨_, _, _, VM.bind_ok h2, by simp, rfl, l ++ l₂, .of (by simp; omega) h3.2, [], [], by simp, by simp, fun _ => ?_⟩
      simp [Call.given, back, items_of, ho.items]
    | error er =>
      refine ⟨_, _, _, VM.bind_ok h2, by simp, rfl, l, .of h3.1 h3.2, [], [], by simp, by simp, fun _ => ?_⟩
      simp [Call.given, back, ho.items]
  | resize n x =>
    obtain ⟨r, c', a', h1, h2⟩ := tryResize_spec he hcap hfit n x w
    have h3 := h1.room' hcap hfit
    cases r with
    | ok u =>
      have h4 := h1.ok rfl
      refine ⟨_, _, _, VM.bind_ok h2, by simp, rfl, _, .of (by simp; omega) h3.2, l.drop n, [], by simp, by simp, fun h => ?_⟩
      exact absurd h (by simp [Call.Owning])
    | error er =>
      refine ⟨_, _, _, VM.bind_ok h2, by simp, rfl, l, .of h3.1 h3.2, [], [], by simp, by simp, fun _ => ?_⟩
      simp [Call.given, back]
  | resizeWith n f =>
    obtain ⟨r, c', a', h1, h2⟩ := tryResizeWith_spec he hcap hfit n f w
    have h3 := h1.room' hcap hfit
    cases r with
    | ok u =>
      have h4 := h1.ok rfl
      have h5 := callAll_length f 0 (n - l.length)
      have hh : Holds e (RawVec.of c' (l.take n ++ (callAll f 0 (n - l.length)).1)) (l.take n ++ (callAll f 0 (n - l.length)).1) :=
        .of (by rw [List.length_append, List.length_take]; omega) h3.2
      refine ⟨_, _, _, VM.bind_pure_fst h2, ?_, rfl, _, hh, l.drop n, (callAll f 0 (n - l.length)).1, rfl, rfl, fun _ => ?_⟩
      · refine noBack_ne ?_
        split
        · simp
        · rcases callAll_stop f 0 (n - l.length) with h | ⟨m, h⟩ <;> simp [h, Stop.out]
      · rw [back_noBack]
        simp only [Call.given, List.append_nil]
        have := perm_swap_tail (l.take n) (l.drop n) (callAll f 0 (n - l.length)).1
        rwa [List.take_append_drop] at this
    | error er =>
      refine ⟨_, _, _, VM.bind_ok h2, by simp, rfl, l, .of h3.1 h3.2, [], [], by simp, by simp, fun _ => ?_⟩
      simp [Call.given, back]
  | resizeNoCopy cl n x =>
    by_cases hn : l.length < n
    · obtain ⟨r, c', a', h1, h2⟩ := tryExtendWith_spec he cl hcap hfit (show 0 < n - l.length by omega) x w
      rw [← tryResizeNoCopy_grow hn] at h2
      have h3 := h1.room' hcap hfit
      cases r with
      | error er =>
        refine ⟨_, _, _, VM.bind_pure_fst h2, noBack_ne (by split <;> simp), rfl, l, .of h3.1 h3.2, [x], [], by simp [World.drop1],
          by simp [World.drop1], fun _ => ?_⟩
        rw [back_noBack]
        simp [Call.given]
      | ok u =>
        have h4 := h1.ok rfl
        have hlen := cloneAll_length cl (List.replicate (n - l.length - 1) x) a'
        rw [List.length_replicate] at hlen
        simp only [] at h2
        cases hs : (cloneAll cl (List.replicate (n - l.length - 1) x) a').2.1 with
        | done =>
          rw [hs] at h2
          refine ⟨_, _, _, VM.bind_ok h2, by simp, rfl, _, .of (by have := hlen.1; simp; omega) h3.2, [],
            (cloneAll cl (List.replicate (n - l.length - 1) x) a').1, by simp [clonedOnto], by simp [clonedOnto], fun _ => ?_⟩
          simp only [Call.given, back, List.append_nil, VM.pure_eq]
          exact perm_swap_tail _ _ _
        | failed er =>
          rw [hs] at h2
          refine ⟨_, _, _, VM.bind_pure_fst h2, noBack_ne (by split <;> simp), rfl, _, .of (by have := hlen.1; simp; omega) h3.2, [x],
            (cloneAll cl (List.replicate (n - l.length - 1) x) a').1, by simp [clonedOnto, World.drop1], by simp [clonedOnto, World.drop1], fun _ => ?_⟩
          rw [back_noBack]
          simp only [Call.given, List.append_nil]
          exact perm_swap_tail _ _ _
        | panicked m =>
          rw [hs] at h2
          refine ⟨_, _, _, VM.bind_panic h2, by simp, rfl, _, .of (by have := hlen.1; simp; omega) h3.2, [x],
            (cloneAll cl (List.replicate (n - l.length - 1) x) a').1, by simp [clonedOnto, World.drop1], by simp [clonedOnto, World.drop1], fun _ => ?_⟩
          simp only [Call.given, back, List.append_nil]
          exact perm_swap_tail _ _ _
    · have h2 := tryResizeNoCopy_shrink (e := e) (cl := cl) hfit (Nat.le_of_not_lt hn) (by simpa [Careful] using hp) x w
      refine ⟨_, _, _, VM.bind_pure_fst h2, noBack_ne (by split <;> simp), rfl, _, .of (by simp; omega) hcap, (l.drop n).reverse ++ [x], [],
        by simp [World.dropMany], by simp [World.dropMany], fun _ => ?_⟩
      rw [back_noBack]
      simp only [Call.given, List.append_nil, ← List.append_assoc]
      refine List.Perm.append_right _ ?_
      have : (l.take n ++ l.drop n).Perm (l.take n ++ (l.drop n).reverse) := List.Perm.append_left _ (List.reverse_perm _).symm
      rwa [List.take_append_drop] at this
  | extendFromSlice xs =>
    obtain ⟨r, c', a', h1, h2⟩ := tryExtendFromSlice_spec he hcap hfit xs w
    have h3 := h1.room' hcap hfit
    cases r with
    | ok u =>
      have h4 := h1.ok rfl
      refine ⟨_, _, _, VM.bind_ok h2, by simp, rfl, _, .of (by simp; omega) h3.2, [], [], by simp, by simp, fun h => ?_⟩
      exact absurd h (by simp [Call.Owning])
    | error er =>
      refine ⟨_, _, _, VM.bind_ok h2, by simp, rfl, l, .of h3.1 h3.2, [], [], by simp, by simp, fun _ => ?_⟩
      simp [Call.given, back]
  | extendFromSliceNoCopy cl xs =>
    obtain ⟨r, c', a', h1, h2⟩ := tryExtendFromSliceNoCopy_spec he cl hcap hfit xs w
    have h3 := h1.room' hcap hfit
    cases r with
    | ok u =>
      have h4 := h1.ok rfl
      have hlen := cloneAll_length cl xs a'
      simp only [] at h2
      refine ⟨_, _, _, VM.bind_pure_fst h2, ?_, rfl, _, .of (l := l ++ (cloneAll cl xs a').1) (by have := hlen.1; rw [List.length_append]; omega) h3.2, [],
        (cloneAll cl xs a').1, by simp [clonedOnto], by simp [clonedOnto], fun _ => ?_⟩
      · cases (cloneAll cl xs a').2.1 <;> simp [Stop.out, noBack]
      · rw [back_noBack]; simp [Call.given]
    | error er =>
      refine ⟨_, _, _, VM.bind_ok h2, by simp, rfl, l, .of h3.1 h3.2, [], [], by simp, by simp, fun _ => ?_⟩
      simp [Call.given, back]
  | pop =>
    have h2 := stdPop_spec (c := cap) (l := l) w
    rcases List.eq_nil_or_concat l with rfl | ⟨l, x, rfl⟩
    · refine ⟨_, _, _, VM.bind_ok h2, by simp, rfl, [], .of hfit hcap, [], [], by simp, by simp, fun _ => ?_⟩
      simp [Call.given, back]
    · simp only [List.concat_eq_append, List.getLast?_concat, List.dropLast_concat] at h2
      simp only [List.concat_eq_append, List.length_append, List.length_cons, List.length_nil] at hfit
      rw [← List.concat_eq_append] at h2
      refine ⟨.ok [x], RawVec.of cap l, w, VM.bind_ok h2, by simp, rfl, l, .of (by omega) hcap, [], [], by simp, by simp, fun _ => ?_⟩
      simp [Call.given, back]
  | clear =>
    have h2 := stdCut_spec (e := e) (c := cap) (Nat.zero_le l.length) w
    refine ⟨_, _, _, VM.bind_pure_fst h2, noBack_ne dropsOut_ne, rfl, _, .of (by simp) hcap, _, [], rfl, by simp, fun _ => ?_⟩
    rw [back_noBack]
    simp [Call.given]
  | assign i x =>
    have h2 := stdAssign_spec (e := e) (c := cap) (l := l) i x w
    cases hx : l[i]? with
    | none =>
      rw [hx] at h2
      refine ⟨_, _, _, VM.bind_panic h2, by simp, rfl, l, .of hfit hcap, [x], [], rfl, by simp [World.drop1], fun _ => ?_⟩
      simp [Call.given, back]
    | some y =>
      rw [hx] at h2
      obtain ⟨hi, rfl⟩ := List.getElem?_eq_some_iff.1 hx
      refine ⟨_, _, _, VM.bind_pure_fst h2, noBack_ne dropsOut_ne, rfl, _, .of (by simpa using hfit) hcap, [l[i]], [], rfl,
        by simp [World.drop1], fun _ => ?_⟩
      rw [back_noBack]
      simp only [Call.given, List.append_nil]
      have e1 : (l.take i ++ l[i] :: l.drop (i + 1)).Perm (l[i] :: (l.take i ++ l.drop (i + 1))) := List.perm_middle
      have e2 : (l.take i ++ x :: l.drop (i + 1)).Perm (x :: (l.take i ++ l.drop (i + 1))) := List.perm_middle
      have g1 : l.take i ++ l[i] :: l.drop (i + 1) = l := by simp
      have g2 : l.set i x = l.take i ++ x :: l.drop (i + 1) := by rw [List.set_eq_take_append_cons_drop, if_pos hi]
      rw [g1] at e1
      rw [← g2] at e2
      exact (e1.append_right _).trans (((List.perm_append_comm (l₁ := _ :: _)).trans
        (List.Perm.append_left [x] (List.perm_append_comm (l₁ := [l[i]])))).trans (e2.symm.append_right [l[i]]))
  | swap i j =>
    have h2 := stdSwap_spec (c := cap) (l := l) i j w
    refine ⟨_, _, _, VM.bind_pure_fst h2, noBack_ne (by split <;> simp), rfl, _,
      .of (by rw [(exchange_perm l i j).length_eq]; exact hfit) hcap, [], [], by simp, by simp, fun _ => ?_⟩
    rw [back_noBack]
    simp only [Call.given, List.append_nil]
    exact (exchange_perm l i j).symm

/-- A call in which no code of the caller panics: the destructors, the cloner, the closure; and an index within bounds. -/
def Calm (e : Env T) (l : List T) : Call T → Prop
  | .insert i _ => i ≤ l.length
  | .assign i _ => i < l.length
  | .swap i j => i < l.length ∧ j < l.length
  | .resizeWith n f => ∀ i < n, ∃ y, f i = .ok y
  | .resizeNoCopy cl _ _ | .extendFromSliceNoCopy cl _ => ∀ x a, ∃ r a', cl x a = (.ok r, a')
  | _ => True

theorem cloneAll_calm {cl : Cloner T} (h : ∀ x a, ∃ r a', cl x a = (.ok r, a')) (xs : List T) (a : Alloc) (m : String) :
    (cloneAll cl xs a).2.1 ≠ .panicked m := by
  induction xs generalizing a with
  | nil => simp [cloneAll]
  | cons x xs ih =>
    obtain ⟨r, a', hr⟩ := h x a
    cases r <;> simp [cloneAll, hr, ih]

theorem callAll_calm {f : Nat → Except String T} (n i : Nat) (h : ∀ j < i + n, ∃ y, f j = .ok y) : (callAll f i n).2 = .done := by
  induction n generalizing i with
  | zero => rfl
  | succ n ih =>
    obtain ⟨y, hy⟩ := h i (by omega)
    simp [callAll, hy, ih (i + 1) (fun j hj => h j (by omega))]

/-- **C33** No call of any method makes an allocation request whose failure would abort or panic (`aborting` counts those),
nor does anything undefined: whatever the allocator, the destructors, the cloner and the closure do.  And if no code of the
caller panics and the index is in bounds, the call returns - it does not panic. -/
theorem C33_call (he : e.OK) {v : RawVec T} {l : List T} (hv : Holds e v l) (c : Call T) (hc : c.OK e) (w : World T) :
    (c.run e ⟨v, w⟩).1 ≠ .ub ∧ (c.run e ⟨v, w⟩).2.w.aborting = w.aborting ∧
    ((∀ x, e.dropPanics x = false) → Calm e l c → ∃ r, (c.run e ⟨v, w⟩).1 = .ok r) := by
  rw [hv.eq_of]
  have hcap := hv.cap
  have hfit := hv.fits
  generalize v.cap = cap at hcap hfit
  cases c with
  | reserve n =>
    obtain ⟨r, c', a', h1, h2⟩ := tryReserve_spec he hcap hfit n w
    simp only [Call.run, VM.bind_ok h1]
    simp
  | push x =>
    obtain ⟨r, c', a', h1, h2⟩ := tryPush_spec he hcap hfit x w
    cases r with
    | ok u => simp only [Call.run, VM.bind_ok h2]; simp
    | error er =>
      simp only [] at h2
      simp only [Call.run, VM.bind_pure_fst h2]
      cases hq : e.dropPanics x <;> simp [noBack]
      intro h; simp [h] at hq
  | pushGiveBack x =>
    obtain ⟨r, c', a', h1, h2⟩ := tryPushGiveBack_spec he hcap hfit x w
    cases r <;> (simp only [Call.run, VM.bind_ok h2]; simp)
  | insert i x =>
    obtain ⟨r, c', a', h1, h2⟩ := tryInsert_spec he hcap hfit i x w
    cases r with
    | ok u =>
      by_cases hi : l.length < i
      · simp only [hi, if_true] at h2
        simp only [Call.run, VM.bind_panic h2]
        simp [Calm]; omega
      · simp only [hi, if_false] at h2
        simp only [Call.run, VM.bind_ok h2]
        simp
    | error er => simp only [Call.run, VM.bind_ok h2]; simp
  | append other =>
    obtain ⟨l₂, ho⟩ := hc
    obtain ⟨r, c', a', h1, h2⟩ := tryAppend_spec he hcap hfit other.cap l₂ w
    rw [← ho.eq_of] at h2
    cases r <;> (simp only [Call.run, VM.bind_ok h2]; simp)
  | resize n x =>
    obtain ⟨r, c', a', h1, h2⟩ := tryResize_spec he hcap hfit n x w
    cases r <;> (simp only [Call.run, VM.bind_ok h2]; simp)
  | resizeWith n f =>
    obtain ⟨r, c', a', h1, h2⟩ := tryResizeWith_spec he hcap hfit n f w
    cases r with
    | ok u =>
      simp only [] at h2
      simp only [Call.run, VM.bind_pure_fst h2]
      refine ⟨?_, trivial, ?_⟩
      · refine noBack_ne ?_
        split
        · simp
        · rcases callAll_stop f 0 (n - l.length) with h | ⟨m, h⟩ <;> simp [h, Stop.out]
      · intro hq hcalm
        rw [callAll_calm (n - l.length) 0 (fun j hj => hcalm j (by omega)), if_neg (by simp [hq])]
        exact ⟨_, rfl⟩
    | error er => simp only [Call.run, VM.bind_ok h2]; simp
  | resizeNoCopy cl n x =>
    by_cases hn : l.length < n
    · obtain ⟨r, c', a', h1, h2⟩ := tryExtendWith_spec he cl hcap hfit (show 0 < n - l.length by omega) x w
      rw [← tryResizeNoCopy_grow hn] at h2
      cases r with
      | error er =>
        simp only [] at h2
        simp only [Call.run, VM.bind_pure_fst h2]
        cases hq : e.dropPanics x <;> simp [noBack, World.drop1]
        intro h; simp [h] at hq
      | ok u =>
        simp only [] at h2
        cases hs : (cloneAll cl (List.replicate (n - l.length - 1) x) a').2.1 with
        | done =>
          rw [hs] at h2
          simp only [Call.run, VM.bind_pure_fst h2]
          simp [noBack, clonedOnto]
        | failed er =>
          rw [hs] at h2
          simp only [Call.run, VM.bind_pure_fst h2]
          cases hq : e.dropPanics x <;> simp [noBack, World.drop1, clonedOnto]
          intro h; simp [h] at hq
        | panicked m =>
          rw [hs] at h2
          simp only [Call.run, VM.bind_pure_fst h2]
          refine ⟨by simp [noBack], by simp [World.drop1, clonedOnto], fun _ hcalm => ?_⟩
          exact absurd hs (cloneAll_calm hcalm _ _ _)
    · cases hq : (l.drop n).any e.dropPanics with
      | false =>
        have h2 := tryResizeNoCopy_shrink (e := e) (cl := cl) hfit (Nat.le_of_not_lt hn) (by simpa using hq) x w
        simp only [Call.run, VM.bind_pure_fst h2]
        cases hq : e.dropPanics x <;> simp [noBack, World.dropMany]
        intro h; simp [h] at hq
      | true =>
        obtain ⟨s', h2, _, h4⟩ := tryResizeNoCopy_shrink_panic (e := e) (cl := cl) hfit (Nat.le_of_not_lt hn) hq x w
        simp only [Call.run, VM.bind_pure_fst h2]
        refine ⟨by simp [noBack], h4, fun h => ?_⟩
        simp [h] at hq
  | extendFromSlice xs =>
    obtain ⟨r, c', a', h1, h2⟩ := tryExtendFromSlice_spec he hcap hfit xs w
    cases r <;> (simp only [Call.run, VM.bind_ok h2]; simp)
  | extendFromSliceNoCopy cl xs =>
    obtain ⟨r, c', a', h1, h2⟩ := tryExtendFromSliceNoCopy_spec he cl hcap hfit xs w
    cases r with
    | ok u =>
      simp only [] at h2
      simp only [Call.run, VM.bind_pure_fst h2]
      refine ⟨?_, rfl, fun _ hcalm => ?_⟩
      · cases (cloneAll cl xs a').2.1 <;> simp [Stop.out, noBack]
      · cases hs : (cloneAll cl xs a').2.1 with
        | panicked m => exact absurd hs (cloneAll_calm hcalm _ _ _)
        | done => exact ⟨_, rfl⟩
        | failed er => exact ⟨_, rfl⟩
    | error er => simp only [Call.run, VM.bind_ok h2]; simp
  | pop =>
    have h2 := stdPop_spec (c := cap) (l := l) w
    simp only [Call.run, VM.bind_ok h2]
    cases l.getLast? <;> simp
  | clear =>
    have h2 := stdCut_spec (e := e) (c := cap) (Nat.zero_le l.length) w
    simp only [Call.run, VM.bind_pure_fst h2]
    refine ⟨noBack_ne dropsOut_ne, trivial, fun hq _ => ?_⟩
    simp [dropsOut, hq, noBack]
  | assign i x =>
    have h2 := stdAssign_spec (e := e) (c := cap) (l := l) i x w
    cases hx : l[i]? with
    | none =>
      rw [hx] at h2
      simp only [Call.run, VM.bind_panic h2]
      refine ⟨by simp, rfl, fun _ hcalm => ?_⟩
      have := List.getElem?_eq_none_iff.1 hx
      simp only [Calm] at hcalm
      omega
    | some y =>
      rw [hx] at h2
      simp only [Call.run, VM.bind_pure_fst h2]
      refine ⟨noBack_ne dropsOut_ne, rfl, fun hq _ => ?_⟩
      simp [dropsOut, hq, noBack]
  | swap i j =>
    have h2 := stdSwap_spec (c := cap) (l := l) i j w
    simp only [Call.run, VM.bind_pure_fst h2]
    refine ⟨noBack_ne (by split <;> simp), trivial, fun _ hcalm => ?_⟩
    simp only [Calm] at hcalm
    simp [hcalm, noBack]

/-- **C33** The same for the functions that build a vector: `try_with_capacity`, `try_clone` / `TryFrom`, `try_from_elem` (both
versions), `try_from_iterator` and `concat`. -/
theorem C33_builders (he : e.OK) (cl : Cloner T) (x : T) (n : Nat) (xs : List T) (vs : List (List T)) (w : World T) :
    ((tryWithCapacity e n w).1 ≠ .ub ∧ (tryWithCapacity e n w).2.aborting = w.aborting) ∧
    ((tryCloneSlice e cl xs w).1 ≠ .ub ∧ (tryCloneSlice e cl xs w).2.aborting = w.aborting) ∧
    ((tryFromElem e cl x n w).1 ≠ .ub ∧ (tryFromElem e cl x n w).2.aborting = w.aborting) ∧
    ((tryFromElemU8 e x n w).1 ≠ .ub ∧ (tryFromElemU8 e x n w).2.aborting = w.aborting) ∧
    ((tryFromIterator e xs w).1 ≠ .ub ∧ (tryFromIterator e xs w).2.aborting = w.aborting) ∧
    ((concat e cl vs w).1 ≠ .ub ∧ (concat e cl vs w).2.aborting = w.aborting) := by
  refine ⟨?_, ?_, ?_, ?_, ?_, ?_⟩
  · obtain ⟨r, c', a', _, h⟩ := tryWithCapacity_spec he n w
    rw [h]; cases r <;> simp
  · obtain ⟨r, c', a', _, h⟩ := tryCloneSlice_spec he cl xs w
    rw [h]
    cases r with
    | error er => simp
    | ok u => cases (cloneAll cl xs a').2.1 <;> simp [clonedOnto, World.dropMany]; split <;> simp
  · by_cases hn : 0 < n
    · obtain ⟨r, c', a', _, h⟩ := tryFromElem_spec he cl x hn w
      rw [h]
      cases r with
      | error er => simp [World.drop1]; split <;> simp
      | ok u => cases (cloneAll cl (List.replicate (n - 1) x) a').2.1 <;> simp [clonedOnto, World.dropMany, World.drop1]; split <;> simp
    · obtain rfl : n = 0 := by omega
      rw [tryFromElem_zero]
      simp [World.drop1]; split <;> simp
  · obtain ⟨r, c', a', _, h⟩ := tryFromElemU8_spec he x n w
    rw [h]; cases r <;> simp
  · rcases tryFromIterator_spec he xs w with ⟨c', a', h | ⟨ys, y, zs, er, c₀, a₀, h1, h2, h3, h4, h5⟩⟩
    · rw [h.1]; simp
    · rw [h2]; simp [World.drop1, World.dropMany]; split <;> simp
  · by_cases hn : vs.flatten.length ≤ e.usizeMax
    · obtain ⟨r, c', a', _, h⟩ := concat_spec he cl vs hn w
      rw [h]
      cases r with
      | error er => simp
      | ok u => cases (cloneAll cl vs.flatten a').2.1 <;> simp [clonedOnto, World.dropMany]; split <;> simp
    · obtain ⟨h1, _, h3, _⟩ := concat_overflow he cl vs (Nat.lt_of_not_le hn) w
      exact ⟨h1, h3⟩

/-- **C39** Any call of any method on a vector that holds a list, with any allocator, cloner (failing or panicking) and
closure: no access outside the allocation, to an uninitialised slot or beyond `set_len`'s contract; afterwards - also after a
panic - the vector again holds a list; and every object is accounted for: those in the vector before, those handed over and
those produced are, up to order, those in the vector after, those dropped and those handed back.  (Destructors that panic
are excluded: see C54.) -/
theorem C39_call (he : e.OK) (hp : ∀ x, e.dropPanics x = false) {v : RawVec T} {l : List T} (hv : Holds e v l) (c : Call T) (hc : c.OK e)
    (w : World T) : ∃ out v' w' l' dropped made, c.run e ⟨v, w⟩ = (out, ⟨v', w'⟩) ∧ out ≠ .ub ∧ Holds e v' l' ∧
      w'.dropped = w.dropped ++ dropped ∧ w'.made = w.made ++ made ∧
      (c.Owning → (l ++ c.given ++ made).Perm (l' ++ dropped ++ back out)) := by
  obtain ⟨out, v', w', h1, h2, _, l', h4, d, m, h5, h6, h7⟩ := call_fine he hv c hc (careful_of hp l c) w
  exact ⟨out, v', w', l', d, m, h1, h2, h4, h5, h6, h7⟩

/-- **C39** A whole life: after any history of calls (of the methods for elements with destructors) on a fresh vector, panics
being caught, dropping the vector is fine, and then every object ever handed over or produced has been dropped exactly once
or handed back, and nothing else has. -/
theorem C39_history (he : e.OK) (hp : ∀ x, e.dropPanics x = false) (cs : List (Call T)) (hc : ∀ c ∈ cs, c.OK e ∧ c.Owning) (a : Alloc) :
    ∃ s', runCalls e cs ⟨RawVec.new e, ⟨a, 0, [], [], []⟩⟩ = ((runCalls e cs ⟨RawVec.new e, ⟨a, 0, [], [], []⟩⟩).1, s') ∧
      (dropVec e s').1 = .ok () ∧
      (cs.flatMap Call.given ++ s'.w.made).Perm
        ((dropVec e s').2.w.dropped ++ (runCalls e cs ⟨RawVec.new e, ⟨a, 0, [], [], []⟩⟩).1) := by
  suffices H : ∀ (cs : List (Call T)) (_ : ∀ c ∈ cs, c.OK e ∧ c.Owning) (v : RawVec T) (l : List T) (_ : Holds e v l) (w : World T),
      ∃ l' w' v' d m, (runCalls e cs ⟨v, w⟩).2 = ⟨v', w'⟩ ∧ Holds e v' l' ∧ w'.dropped = w.dropped ++ d ∧ w'.made = w.made ++ m ∧
        (l ++ cs.flatMap Call.given ++ m).Perm (l' ++ d ++ (runCalls e cs ⟨v, w⟩).1) by
    obtain ⟨l', w', v', d, m, h1, h2, h3, h4, h5⟩ := H cs hc _ [] (.new e) ⟨a, 0, [], [], []⟩
    simp only [List.nil_append] at h3 h4 h5
    refine ⟨⟨v', w'⟩, by rw [← h1], ?_, ?_⟩
    · rw [h2.eq_of, (dropVec_spec w').1]; simp [hp]
    · rw [h2.eq_of, (dropVec_spec w').2]
      simp only [h3, h4]
      refine h5.trans (List.Perm.append_right _ List.perm_append_comm)
  intro cs
  induction cs with
  | nil => intro _ v l hv w; exact ⟨l, w, v, [], [], rfl, hv, by simp, by simp, by simp [runCalls]⟩
  | cons c cs ih =>
    intro hc v l hv w
    obtain ⟨out, v₁, w₁, h1, h2, _, l₁, h4, d₁, m₁, h5, h6, h7⟩ := call_fine he hv c (hc c (by simp)).1 (careful_of hp l c) w
    obtain ⟨l', w', v', d, m, g1, g2, g3, g4, g5⟩ := ih (fun c h => hc c (by simp [h])) v₁ l₁ h4 w₁
    refine ⟨l', w', v', d₁ ++ d, m₁ ++ m, ?_, g2, by rw [g3, h5]; simp, by rw [g4, h6]; simp, ?_⟩
    · simp only [runCalls, h1, g1]
    · have h7 := h7 (hc c (by simp)).2
      simp only [runCalls, h1, List.flatMap_cons]
      have e1 : (l ++ (c.given ++ cs.flatMap Call.given) ++ (m₁ ++ m)).Perm ((l ++ c.given ++ m₁) ++ (cs.flatMap Call.given ++ m)) := by
        simp only [List.append_assoc]
        refine List.Perm.append_left _ (List.Perm.append_left _ ?_)
        simp only [← List.append_assoc]
        exact List.Perm.append_right _ List.perm_append_comm
      have e2 : ((l₁ ++ d₁ ++ back out) ++ (cs.flatMap Call.given ++ m)).Perm ((l₁ ++ cs.flatMap Call.given ++ m) ++ (d₁ ++ back out)) := by
        simp only [List.append_assoc]
        refine List.Perm.append_left _ ?_
        simp only [← List.append_assoc]
        rw [List.append_assoc (d₁ ++ back out), List.append_assoc (cs.flatMap Call.given ++ m)]
        exact List.perm_append_comm
      have e3 : ((l' ++ d ++ (runCalls e cs ⟨v₁, w₁⟩).1) ++ (d₁ ++ back out)).Perm
          (l' ++ (d₁ ++ d) ++ (back out ++ (runCalls e cs ⟨v₁, w₁⟩).1)) := by
        simp only [List.append_assoc]
        refine List.Perm.append_left _ ?_
        rw [← List.append_assoc d, ← List.append_assoc (d ++ _)]
        refine List.Perm.trans (List.Perm.append_right _ List.perm_append_comm) ?_
        simp only [List.append_assoc]
        refine List.Perm.append_left _ ?_
        refine List.Perm.append_left _ ?_
        exact List.perm_append_comm
      exact e1.trans ((h7.append_right _).trans (e2.trans ((g5.append_right _).trans e3)))

/-- A history that meets the hypotheses of `C39_history`, with a refused push, a clone that fails, an index out of bounds and a
closure that panics. -/
example : ∀ c ∈ ([.push 1, .pushGiveBack 2, .extendFromSliceNoCopy failAt5 [3, 5, 7], .insert 9 8, .resizeNoCopy failAt5 6 4,
      .resizeWith 9 (fun i => if i = 1 then .error "boom" else .ok (i + 100)), .append (RawVec.of 2 [10, 11])] : List (Call Nat)),
    c.OK demoEnv ∧ c.Owning := by
  simp only [List.mem_cons, List.not_mem_nil, or_false]
  rintro c (rfl | rfl | rfl | rfl | rfl | rfl | rfl) <;> refine ⟨?_, ?_⟩ <;> try trivial
  exact ⟨[10, 11], demoHolds (by decide) (by decide)⟩

/-- What such a history does when the allocator refuses the second and the fifth request: nothing handed back, the elements
left, those dropped (8 by the panicking `insert`, 4 by the refused resize) and those produced. -/
example :
    let r := runCalls demoEnv [.push 1, .extendFromSliceNoCopy failAt5 [3, 5, 7], .extendFromSliceNoCopy failAt5 [3, 5, 7],
      .insert 9 8, .resizeNoCopy failAt5 6 4, .pushGiveBack 2,
      .resizeWith 9 (fun i => if i = 1 then .error "boom" else .ok (i + 100))]
      ⟨RawVec.new demoEnv, ⟨fun n => n != 1 && n != 4, 0, [], [], []⟩⟩
    r.1 = [] ∧ r.2.v.items = [1, 3, 2, 100] ∧ r.2.w.dropped = [8, 4] ∧ r.2.w.made = [3, 100] := by
  decide +kernel

end Verif.Props
