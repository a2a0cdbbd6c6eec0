import Verif.Vec.Proofs2
/-
Facts about the vector model, continued: `try_resize_no_copy` and the functions that build vectors.
-/
namespace Verif.Vec
open Verif

variable {T α β : Type}

theorem dropVal_eq (e : Env T) (x : T) (s : St T) : dropVal e x s =
    (if e.dropPanics x then .panic "destructor panicked" else .ok (),
      { s with w := { s.w with dropped := s.w.dropped ++ [x] } }) := rfl

theorem tryExtendWith_spec {e : Env T} (he : e.OK) (cl : Cloner T) {c : Nat} {l : List T} (hc : e.CapOK c) (hl : l.length ≤ c)
    {n : Nat} (hn : 0 < n) (val : T) (w : World T) :
    ∃ r c' a', Reserved e n l c w r c' a' ∧ tryExtendWith e cl n val ⟨RawVec.of c l, w⟩ =
      match r with
      | .error er => (if e.dropPanics val then .panic "destructor panicked" else .ok (.error er),
          ⟨RawVec.of c' l, { w with alloc := a' }.drop1 val⟩)
      | .ok () =>
        let s := clonedOnto cl (List.replicate (n - 1) val) c' l { w with alloc := a' }
        match (cloneAll cl (List.replicate (n - 1) val) a').2.1 with
        | .done => (.ok (.ok ()),
          ⟨RawVec.of c' (l ++ (cloneAll cl (List.replicate (n - 1) val) a').1 ++ [val]), s.w⟩)
        | .failed er => (if e.dropPanics val then .panic "destructor panicked" else .ok (.error er), ⟨s.v, s.w.drop1 val⟩)
        | .panicked m => (.panic m, ⟨s.v, s.w.drop1 val⟩) := by
  obtain ⟨r, c', a', h1, h2⟩ := needsToGrow_spec he hc hl n w
  refine ⟨r, c', a', h2, ?_⟩
  simp only [tryExtendWith, VM.get_bind]
  rw [VM.bind_ok h1]
  cases r with
  | error er =>
    simp only [VM.pure_eq, dropVal_eq]
    cases hp : e.dropPanics val <;> simp [World.drop1]
  | ok u =>
    have hroom := (h2.ok rfl).1
    simp only [VM.get_bind, hn, if_true]
    rw [extendWithLoop_eq, extendSliceLoop_spec (n := (RawVec.of c' l).len) cl _ _ rfl (by simp; omega)]
    have hlen := cloneAll_length cl (List.replicate (n - 1) val) a'
    cases hs : (cloneAll cl (List.replicate (n - 1) val) a').2.1 with
    | done =>
      simp only [Stop.out]
      have hl2 := hlen.2.1 hs
      simp only [List.length_replicate] at hl2
      rw [pushAt (c := c') (l := l ++ (cloneAll cl (List.replicate (n - 1) val) a').1) val _
        (by simp [RawVec.of, hl2]) (by simp; omega)]
      simp [clonedOnto, hs]
    | failed er =>
      simp only [Stop.out, dropVal_eq]
      cases hp : e.dropPanics val <;> simp [clonedOnto, hs, World.drop1]
    | panicked m =>
      simp only [Stop.out, dropVal_eq]
      simp [clonedOnto, hs, World.drop1]

theorem tryResizeNoCopy_grow {e : Env T} {cl : Cloner T} {c : Nat} {l : List T} {n : Nat} (hn : l.length < n) (val : T) (w : World T) :
    tryResizeNoCopy e cl n val ⟨RawVec.of c l, w⟩ = tryExtendWith e cl (n - l.length) val ⟨RawVec.of c l, w⟩ := by
  simp only [tryResizeNoCopy, VM.get_bind]
  have : (RawVec.of c l).len < n := hn
  rw [if_pos this]
  rfl

theorem truncate_eq {e : Env T} {c : Nat} {l : List T} (n : Nat) (w : World T) :
    truncate e n ⟨RawVec.of c l, w⟩ = truncateLoop e (l.length - n) l.length ⟨RawVec.of c l, w⟩ := rfl

theorem tryResizeNoCopy_shrink {e : Env T} {cl : Cloner T} {c : Nat} {l : List T} {n : Nat} (hl : l.length ≤ c) (hn : n ≤ l.length)
    (hp : (l.drop n).all (fun x => !e.dropPanics x) = true) (val : T) (w : World T) :
    tryResizeNoCopy e cl n val ⟨RawVec.of c l, w⟩ =
      (if e.dropPanics val then .panic "destructor panicked" else .ok (.ok ()),
        ⟨RawVec.of c (l.take n), w.dropMany ((l.drop n).reverse ++ [val])⟩) := by
  simp only [tryResizeNoCopy, VM.get_bind]
  have h1 : ¬ (RawVec.of c l).len < n := by simp [RawVec.of]; omega
  have hk : l.length - (l.length - n) = n := by omega
  have ht := truncateLoop_spec (e := e) (c := c) (l.length - n) w (by omega) hl (by rw [hk]; exact hp)
  rw [← truncate_eq, hk] at ht
  rw [if_neg h1, withDrop, VM.bind_ok ht]
  simp only [VM.pure_eq, dropVal_eq]
  cases e.dropPanics val <;> simp [World.dropMany]

/-- A panicking destructor of an element being cut off leaves a vector whose own drop is undefined behaviour. -/
theorem tryResizeNoCopy_shrink_panic {e : Env T} {cl : Cloner T} {c : Nat} {l : List T} {n : Nat} (hl : l.length ≤ c) (hn : n ≤ l.length)
    (hp : (l.drop n).any e.dropPanics = true) (val : T) (w : World T) :
    ∃ s', tryResizeNoCopy e cl n val ⟨RawVec.of c l, w⟩ = (.panic "destructor panicked", s') ∧ (dropVec e s').1 = .ub ∧
      s'.w.aborting = w.aborting := by
  have h1 : ¬ (RawVec.of c l).len < n := by simp [RawVec.of]; omega
  have hk : l.length - (l.length - n) = n := by omega
  obtain ⟨k, x, g1, g2, g3, _, g4⟩ := truncateLoop_panic (e := e) (c := c) (l.length - n) w (by omega) hl (by rw [hk]; exact hp)
  have hkl : k < l.length := by
    apply Classical.byContradiction
    intro h
    rw [List.getElem?_eq_none (by omega)] at g2
    simp at g2
  rw [← truncate_eq] at g4
  refine ⟨_, by
    simp only [tryResizeNoCopy, VM.get_bind]
    rw [if_neg h1, withDrop, VM.bind_panic g4], ?_, rfl⟩
  simp only [dropVec, dropVal_eq]
  refine dropFrom_ub (l.take k) 0 _ _ (fun j hj => ?_) ?_ ?_
  · simp only [Nat.zero_add]
    exact List.getElem?_eq_getElem hj
  · simp
  · simp; omega

/-- The state it leaves: everything behind the last panicking element, and that element, has been dropped, back to front, and
the value too; the length still counts that element. -/
theorem tryResizeNoCopy_shrink_state {e : Env T} {cl : Cloner T} {c : Nat} {l : List T} {n : Nat} (hl : l.length ≤ c) (hn : n ≤ l.length)
    (hp : (l.drop n).any e.dropPanics = true) (val : T) (w : World T) :
    ∃ k x, n ≤ k ∧ l[k]? = some x ∧ e.dropPanics x = true ∧ (∀ y ∈ l.drop (k + 1), e.dropPanics y = false) ∧
      tryResizeNoCopy e cl n val ⟨RawVec.of c l, w⟩ = (.panic "destructor panicked",
        ⟨⟨c, k + 1, fun j => (l.take k)[j]?⟩, w.dropMany ((l.drop k).reverse ++ [val])⟩) := by
  have h1 : ¬ (RawVec.of c l).len < n := by simp [RawVec.of]; omega
  have hk : l.length - (l.length - n) = n := by omega
  obtain ⟨k, x, g1, g2, g3, g5, g4⟩ := truncateLoop_panic (e := e) (c := c) (l.length - n) w (by omega) hl (by rw [hk]; exact hp)
  rw [← truncate_eq] at g4
  refine ⟨k, x, by omega, g2, g3, g5, ?_⟩
  simp only [tryResizeNoCopy, VM.get_bind]
  rw [if_neg h1, withDrop, VM.bind_panic g4]
  simp [dropVal_eq, World.dropMany]

/-! ### building -/

/-- How `building` ends when its body ended with `out`, leaving a vector of capacity `c` holding `l`. -/
def buildOut (e : Env T) (c : Nat) (l : List T) (w : World T) : Exec (Res Unit) → Exec (Res (RawVec T)) × World T
  | .ok (.ok ()) => (.ok (.ok (RawVec.of c l)), w)
  | .ok (.error er) => (if l.any e.dropPanics then .panic "destructor panicked" else .ok (.error er), w.dropMany l)
  | .panic m => (.panic m, w.dropMany l)
  | .ub => (.ub, w)

theorem building_spec {e : Env T} {start : RawVec T} {body : VM T (Res Unit)} {w w' : World T} {out : Exec (Res Unit)} {c : Nat} {l : List T}
    (h : body ⟨start, w⟩ = (out, ⟨RawVec.of c l, w'⟩)) :
    building e start body w = buildOut e c l w' out := by
  have hd := dropVec_spec (e := e) (c := c) (l := l) w'
  simp only [building, h, buildOut]
  rcases out with r | _ | m
  · rcases r with er | _
    · simp only []
      rcases hr : dropVec e ⟨RawVec.of c l, w'⟩ with ⟨r, s⟩
      rw [hr] at hd
      simp only at hd
      obtain ⟨rfl, h2⟩ := hd
      cases l.any e.dropPanics <;> simp [h2, World.dropMany]
    · rfl
  · rfl
  · simp only []
    rcases hr : dropVec e ⟨RawVec.of c l, w'⟩ with ⟨r, s⟩
    rw [hr] at hd
    simp only at hd
    obtain ⟨rfl, h2⟩ := hd
    cases l.any e.dropPanics <;> simp [h2, World.dropMany]

theorem tryWithCapacity_spec {e : Env T} (he : e.OK) (n : Nat) (w : World T) :
    ∃ r c' a', Reserved e n ([] : List T) (RawVec.new e).cap w r c' a' ∧ tryWithCapacity e n w =
      match r with
      | .ok () => (.ok (.ok (RawVec.of c' [])), { w with alloc := a' })
      | .error er => (.ok (.error er), { w with alloc := a' }) := by
  obtain ⟨r, c', a', h1, h2⟩ := tryReserve_spec (l := []) he (.new e) (Nat.zero_le _) n w
  refine ⟨r, c', a', h2, ?_⟩
  rw [← new_eq] at h1
  simp only [tryWithCapacity, h1]
  cases r <;> rfl

theorem tryCloneSlice_spec {e : Env T} (he : e.OK) (cl : Cloner T) (src : List T) (w : World T) :
    ∃ r c' a', Reserved e src.length ([] : List T) (RawVec.new e).cap w r c' a' ∧ tryCloneSlice e cl src w =
      match r with
      | .error er => (.ok (.error er), { w with alloc := a' })
      | .ok () =>
        let ys := (cloneAll cl src a').1
        let w' := (clonedOnto cl src c' [] { w with alloc := a' }).w
        match (cloneAll cl src a').2.1 with
        | .done => (.ok (.ok (RawVec.of c' ys)), w')
        | .failed er => (if ys.any e.dropPanics then .panic "destructor panicked" else .ok (.error er), w'.dropMany ys)
        | .panicked m => (.panic m, w'.dropMany ys) := by
  obtain ⟨r, c', a', h1, h2⟩ := tryExtendFromSliceNoCopy_spec he cl (l := []) (.new e) (Nat.zero_le _) src w
  refine ⟨r, c', a', h1, ?_⟩
  rw [← new_eq] at h2
  cases r with
  | error er => rw [tryCloneSlice, building_spec (c := c') (l := []) h2]; simp [buildOut, World.dropMany]
  | ok u =>
    rw [tryCloneSlice, building_spec (c := c') (l := (cloneAll cl src a').1) h2]
    cases hs : (cloneAll cl src a').2.1 <;> simp [Stop.out, buildOut, clonedOnto, hs]

theorem tryFromElem_zero {e : Env T} {cl : Cloner T} (x : T) (w : World T) :
    tryFromElem e cl x 0 w =
      (if e.dropPanics x then .panic "destructor panicked" else .ok (.ok (RawVec.new e)), w.drop1 x) := by
  have h := tryResizeNoCopy_shrink (e := e) (cl := cl) (l := []) (n := 0) (Nat.zero_le (RawVec.new e).cap) (Nat.le_refl _) rfl x w
  rw [show RawVec.of (RawVec.new e).cap ([] : List T) = RawVec.new e from rfl] at h
  rw [tryFromElem, building_spec (c := (RawVec.new e).cap) (l := []) h]
  cases e.dropPanics x <;> simp [buildOut, World.dropMany, World.drop1, new_eq, RawVec.of]

theorem tryFromElem_spec {e : Env T} (he : e.OK) (cl : Cloner T) (x : T) {n : Nat} (hn : 0 < n) (w : World T) :
    ∃ r c' a', Reserved e n ([] : List T) (RawVec.new e).cap w r c' a' ∧ tryFromElem e cl x n w =
      match r with
      | .error er => (if e.dropPanics x then .panic "destructor panicked" else .ok (.error er), { w with alloc := a' }.drop1 x)
      | .ok () =>
        let ys := (cloneAll cl (List.replicate (n - 1) x) a').1
        let w' := (clonedOnto cl (List.replicate (n - 1) x) c' [] { w with alloc := a' }).w
        match (cloneAll cl (List.replicate (n - 1) x) a').2.1 with
        | .done => (.ok (.ok (RawVec.of c' (ys ++ [x]))), w')
        | .failed er => (if e.dropPanics x || ys.any e.dropPanics then .panic "destructor panicked" else .ok (.error er),
            (w'.drop1 x).dropMany ys)
        | .panicked m => (.panic m, (w'.drop1 x).dropMany ys) := by
  obtain ⟨r, c', a', h1, h2⟩ := tryExtendWith_spec he cl (l := []) (.new e) (Nat.zero_le _) hn x w
  refine ⟨r, c', a', h1, ?_⟩
  have hg := tryResizeNoCopy_grow (e := e) (cl := cl) (c := if e.size = 0 then e.usizeMax else 0) (l := []) (n := n) (by simpa using hn) x w
  simp only [List.length_nil, Nat.sub_zero] at hg
  rw [← hg, ← new_eq] at h2
  cases r with
  | error er =>
    rw [tryFromElem, building_spec (c := c') (l := []) h2]
    cases hp : e.dropPanics x <;> simp [buildOut, World.dropMany]
  | ok u =>
    simp only [] at h2 ⊢
    cases hs : (cloneAll cl (List.replicate (n - 1) x) a').2.1 with
    | done =>
      simp only [hs] at h2 ⊢
      rw [tryFromElem, building_spec (c := c') (l := (cloneAll cl (List.replicate (n - 1) x) a').1 ++ [x]) h2]
      simp [buildOut]
    | failed er =>
      simp only [hs] at h2 ⊢
      rw [tryFromElem, building_spec (c := c') (l := (cloneAll cl (List.replicate (n - 1) x) a').1) h2]
      cases hp : e.dropPanics x <;> simp [buildOut]
    | panicked m =>
      simp only [hs] at h2 ⊢
      rw [tryFromElem, building_spec (c := c') (l := (cloneAll cl (List.replicate (n - 1) x) a').1) h2]
      simp [buildOut]

theorem tryFromElemU8_spec {e : Env T} (he : e.OK) (x : T) (n : Nat) (w : World T) :
    ∃ r c' a', Reserved e n ([] : List T) (RawVec.new e).cap w r c' a' ∧ tryFromElemU8 e x n w =
      match r with
      | .ok () => (.ok (.ok (RawVec.of c' (List.replicate n x))), { w with alloc := a' })
      | .error er => (.ok (.error er), { w with alloc := a' }) := by
  obtain ⟨r, c', a', h1, h2⟩ := tryWithCapacity_spec he n w
  refine ⟨r, c', a', h1, ?_⟩
  cases r with
  | error er => simp only [tryFromElemU8, h2]
  | ok u =>
    have hroom := (h1.ok rfl).1
    simp only [List.length_nil, Nat.zero_add] at hroom
    have hm : (fun i => if i < n then some x else ([] : List T)[i]?) = fun i => (List.replicate n x)[i]? := by
      funext i
      rw [List.getElem?_replicate]
      simp
    have hb : (writeBytes x n >>= fun _ => setLen n >>= fun _ => pure (.ok ()) : VM T (Res Unit)) ⟨RawVec.of c' [], { w with alloc := a' }⟩ =
        (.ok (.ok ()), ⟨RawVec.of c' (List.replicate n x), { w with alloc := a' }⟩) := by
      rw [VM.bind_ok (a := ()) (s' := ⟨⟨c', 0, fun i => (List.replicate n x)[i]?⟩, { w with alloc := a' }⟩)]
      · rw [VM.bind_ok (setLen_all _ (by simp) hroom _)]; rfl
      · simp only [writeBytes, RawVec.of, hroom, if_true]
        simp
        exact hm
    simp only [tryFromElemU8, h2]
    rw [building_spec hb]
    simp [buildOut]

/-! ### try_from_iterator -/

/-- Pushing items one by one: a prefix fits; then either everything did, or the next item was refused. -/
theorem pushLoop_spec {e : Env T} (he : e.OK) (xs : List T) {c : Nat} {l : List T} (hc : e.CapOK c) (hl : l.length ≤ c) (w : World T) :
    ∃ c' a', (pushLoop e xs ⟨RawVec.of c l, w⟩ = (.ok (.ok (), []), ⟨RawVec.of c' (l ++ xs), { w with alloc := a' }⟩) ∧
        (l ++ xs).length ≤ c' ∧ e.CapOK c') ∨
      (∃ ys y zs er c₀ a₀, xs = ys ++ y :: zs ∧ e.CapOK c' ∧ (l ++ ys).length ≤ c' ∧
        pushLoop e xs ⟨RawVec.of c l, w⟩ =
          (if e.dropPanics y then .panic "destructor panicked" else .ok (.error er, zs),
            ⟨RawVec.of c' (l ++ ys), { w with alloc := a' }.drop1 y⟩) ∧
        Reserved e 1 (l ++ ys) c₀ { w with alloc := a₀ } (.error er) c' a') := by
  induction xs generalizing c l w with
  | nil => exact ⟨c, w.alloc, .inl ⟨by simp [pushLoop], by simpa using hl, hc⟩⟩
  | cons x xs ih =>
    obtain ⟨r, c1, a1, h1, h2⟩ := tryPush_spec he hc hl x w
    cases r with
    | error er =>
      simp only [] at h2
      refine ⟨c1, a1, .inr ⟨[], x, xs, er, c, w.alloc, rfl, ?_, ?_, ?_, ?_⟩⟩
      · exact (h1.room' hc hl).2
      · simpa using (h1.room' hc hl).1
      · simp only [pushLoop]
        cases hp : e.dropPanics x with
        | true =>
          simp only [hp, if_true] at h2
          rw [VM.bind_panic h2]
          simp [World.drop1]
        | false =>
          simp only [hp] at h2
          rw [VM.bind_ok h2]
          simp [World.drop1]
      · simpa using h1
    | ok u =>
      simp only [] at h2
      have hr := h1.ok rfl
      obtain ⟨c', a', h3⟩ := ih (c := c1) (l := l ++ [x]) hr.2.1 (by simp; omega) { w with alloc := a1 }
      refine ⟨c', a', ?_⟩
      have hstep : pushLoop e (x :: xs) ⟨RawVec.of c l, w⟩ = pushLoop e xs ⟨RawVec.of c1 (l ++ [x]), { w with alloc := a1 }⟩ := by
        simp only [pushLoop]
        rw [VM.bind_ok h2]
      rcases h3 with ⟨g1, g2, g3⟩ | ⟨ys, y, zs, er, c₀, a₀, g1, g2, g3, g4, g5⟩
      · left
        exact ⟨by rw [hstep, g1]; simp, by simpa using g2, g3⟩
      · right
        refine ⟨x :: ys, y, zs, er, c₀, a₀, by simp [g1], g2, by simpa using g3, ?_, by simpa using g5⟩
        rw [hstep, g4]; simp

theorem tryFromIterator_spec {e : Env T} (he : e.OK) (xs : List T) (w : World T) :
    ∃ c' a', (tryFromIterator e xs w = (.ok (.ok (RawVec.of c' xs), []), { w with alloc := a' }) ∧ xs.length ≤ c' ∧ e.CapOK c') ∨
      (∃ ys y zs er c₀ a₀, xs = ys ++ y :: zs ∧
        tryFromIterator e xs w =
          (if e.dropPanics y || ys.any e.dropPanics then .panic "destructor panicked" else .ok (.error er, zs),
            ({ w with alloc := a' }.drop1 y).dropMany ys) ∧
        Reserved e 1 ys c₀ { w with alloc := a₀ } (.error er) c' a' ∧ ys.length ≤ c' ∧ e.CapOK c') := by
  obtain ⟨c', a', h⟩ := pushLoop_spec he xs (l := []) (.new e) (Nat.zero_le _) w
  refine ⟨c', a', ?_⟩
  rw [← new_eq] at h
  rcases h with ⟨g1, g2, g3⟩ | ⟨ys, y, zs, er, c₀, a₀, g1, g2, g3, g4, g5⟩
  · left
    exact ⟨by simp [tryFromIterator, g1], by simpa using g2, g3⟩
  · right
    refine ⟨ys, y, zs, er, c₀, a₀, g1, ?_, by simpa using g5, by simpa using g3, g2⟩
    simp only [List.nil_append] at g4
    have hd := dropVec_spec (e := e) (c := c') (l := ys) ({ w with alloc := a' }.drop1 y)
    rcases hr : dropVec e ⟨RawVec.of c' ys, { w with alloc := a' }.drop1 y⟩ with ⟨r, s⟩
    rw [hr] at hd
    simp only at hd
    obtain ⟨rfl, h2⟩ := hd
    cases hp : e.dropPanics y <;> cases hq : ys.any e.dropPanics <;>
      simp only [hp, hq, if_true, Bool.false_eq_true, if_false] at hr g4 <;>
      simp only [tryFromIterator, g4, hr, h2] <;> rfl

/-! ### concat -/

theorem sumUsize_spec (e : Env T) (ns : List Nat) :
    sumUsize e ns = if ns.sum ≤ e.usizeMax then .ok ns.sum
      else if e.overflowChecks then .panic "attempt to add with overflow" else .ok (ns.sum % (e.usizeMax + 1)) := by
  induction ns with
  | nil => simp [sumUsize]
  | cons n ns ih =>
    simp only [sumUsize, ih, List.sum_cons]
    by_cases h1 : ns.sum ≤ e.usizeMax
    · simp only [h1, if_true, Exec.ok_bind]
      by_cases h2 : n + ns.sum ≤ e.usizeMax
      · simp [h2, Nat.not_lt.2 h2]
      · simp [h2, Nat.lt_of_not_le h2]
    · have h2 : ¬ n + ns.sum ≤ e.usizeMax := by omega
      simp only [h1, h2, if_false]
      cases e.overflowChecks with
      | true => simp
      | false =>
        have h3 : n + ns.sum % (e.usizeMax + 1) ≤ e.usizeMax → (n + ns.sum) % (e.usizeMax + 1) = n + ns.sum % (e.usizeMax + 1) := by
          intro h
          rw [Nat.add_mod, Nat.mod_eq_of_lt (a := n) (by omega), Nat.mod_eq_of_lt (by omega)]
        simp
        intro h
        exact (h3 h).symm

theorem cloneAll_append (cl : Cloner T) (xs ys : List T) (a : Alloc) :
    cloneAll cl (xs ++ ys) a =
      match (cloneAll cl xs a).2.1 with
      | .done => ((cloneAll cl xs a).1 ++ (cloneAll cl ys (cloneAll cl xs a).2.2).1, (cloneAll cl ys (cloneAll cl xs a).2.2).2)
      | _ => cloneAll cl xs a := by
  induction xs generalizing a with
  | nil => simp [cloneAll]
  | cons x xs ih =>
    simp only [List.cons_append, cloneAll]
    rcases hx : cl x a with ⟨m | er | d, a'⟩ <;> simp only []
    rw [ih a']
    cases hs : (cloneAll cl xs a').2.1 <;> simp

theorem concatLoop_room {e : Env T} (he : e.OK) (cl : Cloner T) (vs : List (List T)) {c : Nat} {l : List T} (hc : e.CapOK c) (w : World T)
    (hroom : l.length + vs.flatten.length ≤ c) :
    concatLoop e cl vs ⟨RawVec.of c l, w⟩ =
      ((cloneAll cl vs.flatten w.alloc).2.1.out, clonedOnto cl vs.flatten c l w) := by
  induction vs generalizing l w with
  | nil => simp [concatLoop, cloneAll, Stop.out, clonedOnto, asked]
  | cons v vs ih =>
    simp only [List.flatten_cons, List.length_append] at hroom
    obtain ⟨r, c', a', h1, h2⟩ := tryExtendFromSliceNoCopy_spec he cl (l := l) hc (by omega) v w
    obtain ⟨rfl, rfl, rfl⟩ := h1.room (by omega)
    simp only [] at h2
    simp only [concatLoop, List.flatten_cons]
    have hlen := cloneAll_length cl v w.alloc
    have hca := cloneAll_append cl v vs.flatten w.alloc
    cases hs : (cloneAll cl v w.alloc).2.1 with
    | done =>
      simp only [hs] at h2 hca
      rw [VM.bind_ok (a := .ok ()) h2]
      simp only [hca, clonedOnto, hs, asked]
      rw [ih _ (by have := hlen.1; rw [List.length_append]; omega)]
      simp only [clonedOnto]
      have h4 := hlen.2.1 hs
      cases hq : (cloneAll cl vs.flatten (cloneAll cl v w.alloc).2.2).2.1 <;>
        simp [asked, List.take_append, h4]
      · rw [List.take_of_length_le (l := v) (by omega)]
        congr 2; omega
      · rw [List.take_of_length_le (l := v) (by omega)]
        congr 2; omega
    | failed er =>
      have h4 := hlen.2.2 (by simp [hs])
      simp only [hs, Stop.out] at h2 hca
      rw [VM.bind_ok h2]
      simp [clonedOnto, hca, hs, asked, Stop.out, List.take_append_of_le_length (Nat.succ_le_of_lt h4)]
    | panicked m =>
      have h4 := hlen.2.2 (by simp [hs])
      simp only [hs, Stop.out] at h2 hca
      rw [VM.bind_panic h2]
      simp [clonedOnto, hca, hs, asked, Stop.out, List.take_append_of_le_length (Nat.succ_le_of_lt h4)]

/-- Whatever room there is: the loop leaves a vector that holds some list; it made no aborting request; if it succeeded,
every element of every source vector was appended. -/
theorem concatLoop_soft {e : Env T} (he : e.OK) (cl : Cloner T) (vs : List (List T)) {c : Nat} {l : List T} (hc : e.CapOK c)
    (hl : l.length ≤ c) (w : World T) :
    ∃ r c' l' w', concatLoop e cl vs ⟨RawVec.of c l, w⟩ = (r, ⟨RawVec.of c' l', w'⟩) ∧ r ≠ .ub ∧
      (r = .ok (.ok ()) → l'.length = l.length + vs.flatten.length) ∧ l'.length ≤ c' ∧ e.CapOK c' ∧ w'.aborting = w.aborting := by
  induction vs generalizing l w c with
  | nil => exact ⟨.ok (.ok ()), c, l, w, by simp [concatLoop], by simp, by simp, hl, hc, rfl⟩
  | cons v vs ih =>
    obtain ⟨r, c', a', h1, h2⟩ := tryExtendFromSliceNoCopy_spec he cl hc hl v w
    cases r with
    | error er =>
      refine ⟨.ok (.error er), c', l, { w with alloc := a' }, ?_, by simp, by simp, (h1.room' hc hl).1, (h1.room' hc hl).2, rfl⟩
      simp only [concatLoop]
      rw [VM.bind_ok h2]; rfl
    | ok u =>
      simp only [] at h2
      have hr := h1.ok rfl
      have hlen := cloneAll_length cl v a'
      cases hs : (cloneAll cl v a').2.1 with
      | done =>
        obtain ⟨r, c₂, l₂, w₂, g1, g2, g3, g4, g5, g6⟩ := ih (c := c') (l := l ++ (cloneAll cl v a').1) hr.2.1
          (by have := hlen.1; rw [List.length_append]; omega) (clonedOnto cl v c' l { w with alloc := a' }).w
        refine ⟨r, c₂, l₂, w₂, ?_, g2, ?_, g4, g5, g6⟩
        · simp only [concatLoop]
          rw [hs] at h2
          rw [VM.bind_ok h2]
          exact g1
        · intro h
          rw [g3 h, List.length_append, List.flatten_cons, List.length_append, hlen.2.1 hs]; omega
      | failed er =>
        refine ⟨.ok (.error er), c', l ++ (cloneAll cl v a').1, (clonedOnto cl v c' l { w with alloc := a' }).w, ?_, by simp, by simp,
          by have := hlen.1; rw [List.length_append]; omega, hr.2.1, rfl⟩
        simp only [concatLoop]
        rw [hs] at h2
        rw [VM.bind_ok h2]; rfl
      | panicked m =>
        refine ⟨.panic m, c', l ++ (cloneAll cl v a').1, (clonedOnto cl v c' l { w with alloc := a' }).w, ?_, by simp, by simp,
          by have := hlen.1; rw [List.length_append]; omega, hr.2.1, rfl⟩
        simp only [concatLoop]
        rw [hs] at h2
        rw [VM.bind_panic h2]; rfl

/-- `concat` when the total length fits a machine word. -/
theorem concat_spec {e : Env T} (he : e.OK) (cl : Cloner T) (vs : List (List T)) (hsum : vs.flatten.length ≤ e.usizeMax) (w : World T) :
    ∃ r c' a', Reserved e vs.flatten.length ([] : List T) (RawVec.new e).cap w r c' a' ∧ concat e cl vs w =
      match r with
      | .error er => (.ok (.error er), { w with alloc := a' })
      | .ok () =>
        let ys := (cloneAll cl vs.flatten a').1
        let w' := (clonedOnto cl vs.flatten c' [] { w with alloc := a' }).w
        match (cloneAll cl vs.flatten a').2.1 with
        | .done => (.ok (.ok (RawVec.of c' ys)), w')
        | .failed er => (if ys.any e.dropPanics then .panic "destructor panicked" else .ok (.error er), w'.dropMany ys)
        | .panicked m => (.panic m, w'.dropMany ys) := by
  have hs : (vs.map List.length).sum = vs.flatten.length := by simp
  obtain ⟨r, c', a', h1, h2⟩ := tryWithCapacity_spec he vs.flatten.length w
  refine ⟨r, c', a', h1, ?_⟩
  simp only [concat, sumUsize_spec, hs, hsum, if_true, h2]
  cases r with
  | error er => rfl
  | ok u =>
    have hr := h1.ok rfl
    have h3 := concatLoop_room he cl vs (l := []) hr.2.1 { w with alloc := a' } (by have := hr.1; simpa using this)
    simp only []
    rw [building_spec (c := c') (l := (cloneAll cl vs.flatten a').1) h3]
    cases hq : (cloneAll cl vs.flatten a').2.1 <;> simp [Stop.out, buildOut, clonedOnto, hq]

/-- `concat` when the total length does not fit a machine word (possible only for zero-sized elements): no result. -/
theorem concat_overflow {e : Env T} (he : e.OK) (cl : Cloner T) (vs : List (List T)) (hsum : e.usizeMax < vs.flatten.length) (w : World T) :
    (concat e cl vs w).1 ≠ .ub ∧ (∀ v, (concat e cl vs w).1 ≠ .ok (.ok v)) ∧ (concat e cl vs w).2.aborting = w.aborting ∧
    (e.overflowChecks = true → (concat e cl vs w).1 = .panic "attempt to add with overflow") := by
  have hs : (vs.map List.length).sum = vs.flatten.length := by simp
  have hn : ¬ vs.flatten.length ≤ e.usizeMax := by omega
  simp only [concat, sumUsize_spec, hs, hn, if_false]
  cases ho : e.overflowChecks with
  | true => simp
  | false =>
    simp only [Bool.false_eq_true, if_false]
    obtain ⟨r, c', a', h1, h2⟩ := tryWithCapacity_spec he (vs.flatten.length % (e.usizeMax + 1)) w
    simp only [h2]
    cases r with
    | error er => simp
    | ok u =>
      have hr := h1.ok rfl
      obtain ⟨r, c₂, l₂, w₂, g1, g2, g3, g4, g5, g6⟩ := concatLoop_soft he cl vs (l := []) hr.2.1 (Nat.zero_le _) { w with alloc := a' }
      simp only []
      rw [building_spec g1]
      have := g5.word
      cases r with
      | ub => exact absurd rfl g2
      | panic m => simp [buildOut, World.dropMany, g6]
      | ok x =>
        cases x with
        | ok u => have := g3 rfl; simp only [List.length_nil] at this; omega
        | error er => simp only [buildOut]; split <;> simp [World.dropMany, g6]

end Verif.Vec
