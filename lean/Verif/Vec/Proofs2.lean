import Verif.Vec.Proofs
import Verif.Vec.Spec
/-
Facts about the vector model, continued: resizing, cloning, truncating, dropping, and the functions that build vectors.
-/
namespace Verif.Vec
open Verif

variable {T α β : Type}

theorem Reserved.room' {e : Env T} {n : Nat} {l : List T} {c : Nat} {w : World T} {r : Res Unit} {c' : Nat} {a' : Alloc}
    (h : Reserved e n l c w r c' a') (hc : e.CapOK c) (hl : l.length ≤ c) : l.length ≤ c' ∧ e.CapOK c' := by
  cases r with
  | ok u => have := h.ok rfl; exact ⟨by omega, this.2.1⟩
  | error er => rw [h.err er rfl]; exact ⟨hl, hc⟩

/-! ### dropping -/

theorem dropFrom_ok {e : Env T} (xs : List T) (i : Nat) (s : St T) (h : ∀ k (hk : k < xs.length), s.v.mem (i + k) = some xs[k]) :
    (dropFrom e i xs.length s).1 = (if xs.any e.dropPanics then .panic "destructor panicked" else .ok ()) ∧
    (dropFrom e i xs.length s).2.w = { s.w with dropped := s.w.dropped ++ xs } := by
  induction xs generalizing i s with
  | nil => simp [dropFrom]
  | cons x xs ih =>
    have h0 : s.v.mem i = some x := h 0 (Nat.zero_lt_succ _)
    have h1 := ih (i + 1) ⟨{ s.v with mem := fun j => if j = i then none else s.v.mem j },
      { s.w with dropped := s.w.dropped ++ [x] }⟩ (by
        intro k hk
        have := h (k + 1) (by simp; omega)
        simp only [List.getElem_cons_succ] at this
        simp only []
        rw [if_neg (by omega), ← this]
        congr 1; omega)
    simp only [List.length_cons, dropFrom, dropSlot, h0]
    cases hx : e.dropPanics x with
    | false => simp [hx] at h1 ⊢; exact h1
    | true =>
      simp only [if_true]
      rcases hr : dropFrom e (i + 1) xs.length ⟨{ s.v with mem := fun j => if j = i then none else s.v.mem j },
        { s.w with dropped := s.w.dropped ++ [x] }⟩ with ⟨r, s'⟩
      rw [hr] at h1
      simp only at h1
      rcases r with _ | _ | _
      · simp [hx, h1.2]
      · have := h1.1; split at this <;> simp at this
      · simp [hx, h1.2]

/-- What the vector looks like after a run of destructors: the slots are empty. -/
theorem dropFrom_v {e : Env T} (xs : List T) (i : Nat) (s : St T) (h : ∀ k (hk : k < xs.length), s.v.mem (i + k) = some xs[k]) :
    (dropFrom e i xs.length s).2.v = { s.v with mem := fun j => if i ≤ j ∧ j < i + xs.length then none else s.v.mem j } := by
  induction xs generalizing i s with
  | nil =>
    simp only [List.length_nil, dropFrom, VM.pure_eq]
    have : (fun j => if i ≤ j ∧ j < i + 0 then none else s.v.mem j) = s.v.mem := by
      funext j
      rw [if_neg (by omega)]
    rw [this]
  | cons x xs ih =>
    have h0 : s.v.mem i = some x := h 0 (Nat.zero_lt_succ _)
    have h1 := ih (i + 1) ⟨{ s.v with mem := fun j => if j = i then none else s.v.mem j },
      { s.w with dropped := s.w.dropped ++ [x] }⟩ (by
        intro k hk
        have := h (k + 1) (by simp; omega)
        simp only [List.getElem_cons_succ] at this
        simp only []
        rw [if_neg (by omega), ← this]
        congr 1; omega)
    have hm : (fun j => if i + 1 ≤ j ∧ j < i + 1 + xs.length then none else if j = i then none else s.v.mem j) =
        fun j => if i ≤ j ∧ j < i + (xs.length + 1) then none else s.v.mem j := by
      funext j
      by_cases h2 : j = i
      · rw [if_neg (by omega), if_pos h2, if_pos (by omega)]
      · by_cases h3 : i + 1 ≤ j ∧ j < i + 1 + xs.length
        · rw [if_pos h3, if_pos (by omega)]
        · rw [if_neg h3, if_neg h2, if_neg (by omega)]
    simp only [hm] at h1
    simp only [List.length_cons, dropFrom, dropSlot, h0]
    cases hx : e.dropPanics x with
    | false => simpa using h1
    | true =>
      simp only [if_true]
      rcases hr : dropFrom e (i + 1) xs.length ⟨{ s.v with mem := fun j => if j = i then none else s.v.mem j },
        { s.w with dropped := s.w.dropped ++ [x] }⟩ with ⟨r, s'⟩
      rw [hr] at h1
      rcases r with _ | _ | _ <;> exact h1

/-- How a call ends that runs these destructors last. -/
def dropsOut (e : Env T) (l : List T) {α : Type} (a : α) : Exec α :=
  if l.any e.dropPanics then .panic "destructor panicked" else .ok a

theorem stdCut_spec {e : Env T} {c n : Nat} {l : List T} (hn : n ≤ l.length) (w : World T) :
    stdCut e n ⟨RawVec.of c l, w⟩ =
      (dropsOut e (l.drop n) (), ⟨RawVec.of c (l.take n), { w with dropped := w.dropped ++ l.drop n }⟩) := by
  have h1 : ¬ (RawVec.of c l).len < n := by simp [RawVec.of]; omega
  have hmem : ∀ k (hk : k < (l.drop n).length), (RawVec.of c l).mem (n + k) = some (l.drop n)[k] := by
    intro k hk
    have : n + k < l.length := by simp at hk; omega
    simp [RawVec.of, this]
  have g1 := dropFrom_ok (e := e) (l.drop n) n ⟨{ RawVec.of c l with len := n }, w⟩ hmem
  have g2 := dropFrom_v (e := e) (l.drop n) n ⟨{ RawVec.of c l with len := n }, w⟩ hmem
  have hlen : (l.drop n).length = l.length - n := by simp
  rw [hlen] at g1 g2
  have hm : (fun i => if n ≤ i ∧ i < n + (l.length - n) then none else l[i]?) = fun i => (l.take n)[i]? := by
    funext i
    rw [List.getElem?_take]
    by_cases h3 : i < n
    · have : ¬ (n ≤ i ∧ i < n + (l.length - n)) := by omega
      simp [h3, this]
    · by_cases h4 : i < l.length
      · rw [if_pos (by omega), if_neg h3]
      · simp [h3, Nat.le_of_not_lt h4]
  simp only [stdCut, h1, if_false]
  have e1 : (RawVec.of c l).len = l.length := rfl
  rw [e1]
  rcases hr : dropFrom e n (l.length - n) ⟨{ RawVec.of c l with len := n }, w⟩ with ⟨r, s'⟩
  rw [hr] at g1 g2
  obtain ⟨v', w'⟩ := s'
  simp only at g1 g2
  obtain ⟨rfl, rfl⟩ := g1
  subst g2
  have e2 : ({ RawVec.of c l with len := n, mem := fun j => if n ≤ j ∧ j < n + (l.length - n) then none else (RawVec.of c l).mem j } : RawVec T)
      = RawVec.of c (l.take n) := by
    have e3 : (fun j => if n ≤ j ∧ j < n + (l.length - n) then none else (RawVec.of c l).mem j) = fun i => (l.take n)[i]? := hm
    rw [e3]
    simp [RawVec.of]; omega
  rw [e2]
  rfl

theorem stdPop_spec {c : Nat} {l : List T} (w : World T) :
    stdPop ⟨RawVec.of c l, w⟩ = (.ok l.getLast?, ⟨RawVec.of c l.dropLast, w⟩) := by
  rcases List.eq_nil_or_concat l with rfl | ⟨l, x, rfl⟩
  · simp [stdPop, RawVec.of]
  · have hm : (fun j => if j = l.length then none else (l ++ [x])[j]?) = fun j => l[j]? := by
      funext j
      by_cases h : j = l.length
      · simp [h]
      · by_cases h2 : j < l.length
        · simp [h, List.getElem?_append_left h2]
        · rw [if_neg h, List.getElem?_eq_none (by simp; omega), List.getElem?_eq_none (by omega)]
    simp [stdPop, RawVec.of]
    exact hm

theorem stdAssign_spec {e : Env T} {c : Nat} {l : List T} (i : Nat) (x : T) (w : World T) :
    stdAssign e i x ⟨RawVec.of c l, w⟩ =
      match l[i]? with
      | none => (.panic "index out of bounds", ⟨RawVec.of c l, w.drop1 x⟩)
      | some y => (dropsOut e [y] (), ⟨RawVec.of c (l.set i x), w.drop1 y⟩) := by
  by_cases h : i < l.length
  · have h1 : ¬ (RawVec.of c l).len ≤ i := by simp [RawVec.of]; omega
    have h2 : (RawVec.of c l).mem i = some l[i] := by simp [RawVec.of, h]
    have hm : (fun j => if j = i then some x else if j = i then none else l[j]?) = fun j => (l.set i x)[j]? := by
      funext j
      rw [List.getElem?_set]
      by_cases h3 : j = i
      · subst h3; simp [h]
      · simp [h3, Ne.symm h3]
    have e2 : ({ RawVec.of c l with mem := fun j => if j = i then some x else if j = i then none else (RawVec.of c l).mem j } : RawVec T)
        = RawVec.of c (l.set i x) := by
      have e3 : (fun j => if j = i then some x else if j = i then none else (RawVec.of c l).mem j) = fun j => (l.set i x)[j]? := hm
      rw [e3]; simp [RawVec.of]
    rw [List.getElem?_eq_getElem h]
    simp only [stdAssign, h1, if_false, dropSlot, h2]
    cases hx : e.dropPanics l[i] <;> simp [hx, dropsOut, e2, World.drop1]
  · have h1 : (RawVec.of c l).len ≤ i := by simp [RawVec.of]; omega
    rw [List.getElem?_eq_none (by omega)]
    simp [stdAssign, h1, dropVal, World.drop1]

/-- Two elements of a list exchanged. -/
def exchange (l : List T) (i j : Nat) : List T :=
  match l[i]?, l[j]? with
  | some x, some y => (l.set i y).set j x
  | _, _ => l

theorem stdSwap_spec {c : Nat} {l : List T} (i j : Nat) (w : World T) :
    stdSwap i j ⟨RawVec.of c l, w⟩ =
      (if i < l.length ∧ j < l.length then .ok () else .panic "index out of bounds", ⟨RawVec.of c (exchange l i j), w⟩) := by
  by_cases h : i < l.length ∧ j < l.length
  · have h1 : ¬ ((RawVec.of c l).len ≤ i ∨ (RawVec.of c l).len ≤ j) := by simp [RawVec.of]; omega
    have hm : (fun k => if k = i then l[j]? else if k = j then l[i]? else l[k]?) = fun k => (exchange l i j)[k]? := by
      funext k
      simp only [exchange, List.getElem?_eq_getElem h.1, List.getElem?_eq_getElem h.2, List.getElem?_set, List.length_set]
      by_cases h2 : k = j
      · subst h2
        by_cases h3 : k = i
        · subst h3; simp [h.1]
        · simp [h3, h.2]
      · by_cases h3 : k = i
        · subst h3; simp [Ne.symm h2, h.1, h2]
        · simp [h2, h3, Ne.symm h2, Ne.symm h3]
    have e2 : ({ RawVec.of c l with mem := fun k => if k = i then (RawVec.of c l).mem j else if k = j then (RawVec.of c l).mem i else (RawVec.of c l).mem k } : RawVec T)
        = RawVec.of c (exchange l i j) := by
      have e3 : (fun k => if k = i then (RawVec.of c l).mem j else if k = j then (RawVec.of c l).mem i else (RawVec.of c l).mem k) =
          fun k => (exchange l i j)[k]? := hm
      have e4 : (exchange l i j).length = l.length := by simp [exchange, h.1, h.2]
      rw [e3]; simp [RawVec.of, e4]
    simp only [stdSwap, h1, if_false, e2, h, and_self, if_true]
  · have h1 : (RawVec.of c l).len ≤ i ∨ (RawVec.of c l).len ≤ j := by simp [RawVec.of]; omega
    have h2 : exchange l i j = l := by
      unfold exchange
      split
      · rename_i x y hx hy
        have := (List.getElem?_eq_some_iff.1 hx).1
        have := (List.getElem?_eq_some_iff.1 hy).1
        omega
      · rfl
    simp only [stdSwap, h1, if_true, h, if_false, h2]

/-! ### try_resize, try_resize_with -/

theorem stdTruncate_spec {c n : Nat} {l : List T} (hn : n ≤ l.length) (w : World T) :
    stdTruncate n ⟨RawVec.of c l, w⟩ =
      (.ok (), ⟨RawVec.of c (l.take n), { w with dropped := w.dropped ++ l.drop n }⟩) := by
  have h1 : ¬ (RawVec.of c l).len < n := by simp [RawVec.of]; omega
  have h2 : (fun i => if n ≤ i ∧ i < l.length then none else l[i]?) = fun i => (l.take n)[i]? := by
    funext i
    rw [List.getElem?_take]
    by_cases h3 : i < n
    · have : ¬ (n ≤ i ∧ i < l.length) := by omega
      simp [h3, this]
    · by_cases h4 : i < l.length
      · simp [h3, h4, Nat.le_of_not_lt h3]
      · simp [h3, Nat.le_of_not_lt h4]
  simp only [stdTruncate, h1, if_false, items_of]
  have : min n l.length = n := by omega
  simp [RawVec.of, this]
  exact h2

/-- The reservation of `try_resize`. -/
theorem resizeReserve_spec {e : Env T} (he : e.OK) {c : Nat} {l : List T} (hc : e.CapOK c) (hl : l.length ≤ c) (n : Nat)
    (w : World T) :
    ∃ r c' a', (if (RawVec.of c l).len < n then tryReserve e (n - (RawVec.of c l).len) else pure (.ok ()))
        ⟨RawVec.of c l, w⟩ = (.ok r, ⟨RawVec.of c' l, { w with alloc := a' }⟩) ∧
      Reserved e (n - l.length) l c w r c' a' := by
  by_cases h : l.length < n
  · have h' : (RawVec.of c l).len < n := h
    rw [if_pos h']; exact tryReserve_spec he hc hl _ w
  · have h' : ¬ (RawVec.of c l).len < n := h
    rw [if_neg h']
    have : n - l.length = 0 := by omega
    rw [this]
    exact ⟨.ok (), c, w.alloc, rfl, reserved_room he hc (by omega) w⟩

theorem tryResize_spec {e : Env T} (he : e.OK) {c : Nat} {l : List T} (hc : e.CapOK c) (hl : l.length ≤ c) (n : Nat) (x : T)
    (w : World T) :
    ∃ r c' a', Reserved e (n - l.length) l c w r c' a' ∧ tryResize e n x ⟨RawVec.of c l, w⟩ =
      match r with
      | .ok () => (.ok (.ok ()), ⟨RawVec.of c' (l.take n ++ List.replicate (n - l.length) x),
          { w with alloc := a', dropped := w.dropped ++ l.drop n }⟩)
      | .error er => (.ok (.error er), ⟨RawVec.of c' l, { w with alloc := a' }⟩) := by
  obtain ⟨r, c', a', h1, h2⟩ := resizeReserve_spec he hc hl n w
  refine ⟨r, c', a', h2, ?_⟩
  simp only [tryResize, VM.get_bind]
  rw [VM.bind_ok h1]
  cases r with
  | error er => rfl
  | ok u =>
    have hroom := (h2.ok rfl).1
    have : stdResize e n x ⟨RawVec.of c' l, { w with alloc := a' }⟩ =
        (.ok (), ⟨RawVec.of c' (l.take n ++ List.replicate (n - l.length) x),
          { w with alloc := a', dropped := w.dropped ++ l.drop n }⟩) := by
      simp only [stdResize, VM.get_bind]
      by_cases h : l.length < n
      · have h' : (RawVec.of c' l).len < n := h
        rw [if_pos h']
        rw [VM.bind_ok (stdReserve_room (e := e) (n := n - (RawVec.of c' l).len) (by simpa [RawVec.of] using hroom) _)]
        rw [writeAll_spec _ _ (by simpa [RawVec.of] using hroom)]
        rw [List.take_of_length_le (by omega), List.drop_eq_nil_of_le (by omega)]
        simp [RawVec.of]
      · have h' : ¬ (RawVec.of c' l).len < n := h
        rw [if_neg h', stdTruncate_spec (by omega)]
        have : n - l.length = 0 := by omega
        simp [this]
    simp only []
    rw [VM.bind_ok this]
    rfl

theorem fillWith_spec {c : Nat} (f : Nat → Except String T) (n i : Nat) {l : List T} (w : World T) (hc : l.length + n ≤ c) :
    fillWith f i n ⟨RawVec.of c l, w⟩ =
      (match (callAll f i n).2 with
        | .panicked m => .panic m
        | _ => .ok (), ⟨RawVec.of c (l ++ (callAll f i n).1), { w with made := w.made ++ (callAll f i n).1 }⟩) := by
  induction n generalizing l i w with
  | zero => simp [fillWith, callAll]
  | succ n ih =>
    simp only [fillWith, callAll]
    cases hf : f i with
    | error m => simp [VM.panic]
    | ok x =>
      simp only [show ∀ g : Unit → VM T Unit, (logMade x >>= g) ⟨RawVec.of c l, w⟩ =
        g () ⟨RawVec.of c l, { w with made := w.made ++ [x] }⟩ from fun _ => rfl, VM.get_bind]
      rw [pushAt (c := c) (n := (RawVec.of c l).len) (l := l) x _ rfl (by omega), ih (i + 1) _ (by simp; omega)]
      simp

theorem callAll_stop (f : Nat → Except String T) (i n : Nat) :
    (callAll f i n).2 = .done ∨ ∃ m, (callAll f i n).2 = .panicked m := by
  induction n generalizing i with
  | zero => simp [callAll]
  | succ n ih =>
    simp only [callAll]
    split
    · simp
    · exact ih (i + 1)

theorem callAll_length (f : Nat → Except String T) (i n : Nat) :
    (callAll f i n).1.length ≤ n ∧ ((callAll f i n).2 = .done → (callAll f i n).1.length = n) := by
  induction n generalizing i with
  | zero => simp [callAll]
  | succ n ih =>
    simp only [callAll]
    split
    · simp
    · have := ih (i + 1)
      simpa using this

theorem tryResizeWith_spec {e : Env T} (he : e.OK) {c : Nat} {l : List T} (hc : e.CapOK c) (hl : l.length ≤ c) (n : Nat)
    (f : Nat → Except String T) (w : World T) :
    ∃ r c' a', Reserved e (n - l.length) l c w r c' a' ∧ tryResizeWith e n f ⟨RawVec.of c l, w⟩ =
      match r with
      | .ok () => (if (l.drop n).any e.dropPanics then .panic "destructor panicked" else (callAll f 0 (n - l.length)).2.out,
          ⟨RawVec.of c' (l.take n ++ (callAll f 0 (n - l.length)).1),
          { w with alloc := a', dropped := w.dropped ++ l.drop n, made := w.made ++ (callAll f 0 (n - l.length)).1 }⟩)
      | .error er => (.ok (.error er), ⟨RawVec.of c' l, { w with alloc := a' }⟩) := by
  obtain ⟨r, c', a', h1, h2⟩ := resizeReserve_spec he hc hl n w
  refine ⟨r, c', a', h2, ?_⟩
  simp only [tryResizeWith, VM.get_bind]
  rw [VM.bind_ok h1]
  cases r with
  | error er => rfl
  | ok u =>
    have hroom := (h2.ok rfl).1
    simp only []
    have : stdResizeWith e n f ⟨RawVec.of c' l, { w with alloc := a' }⟩ =
        (if (l.drop n).any e.dropPanics then .panic "destructor panicked" else match (callAll f 0 (n - l.length)).2 with
          | .panicked m => .panic m
          | _ => .ok (), ⟨RawVec.of c' (l.take n ++ (callAll f 0 (n - l.length)).1),
          { w with alloc := a', dropped := w.dropped ++ l.drop n, made := w.made ++ (callAll f 0 (n - l.length)).1 }⟩) := by
      simp only [stdResizeWith, VM.get_bind]
      by_cases h : l.length < n
      · have h' : (RawVec.of c' l).len < n := h
        rw [if_pos h']
        rw [VM.bind_ok (stdReserve_room (e := e) (n := n - (RawVec.of c' l).len) (by simpa [RawVec.of] using hroom) _)]
        rw [fillWith_spec _ _ _ _ (by simpa [RawVec.of] using hroom)]
        rw [List.take_of_length_le (by omega), List.drop_eq_nil_of_le (by omega)]
        simp [RawVec.of]
      · have h' : ¬ (RawVec.of c' l).len < n := h
        rw [if_neg h', stdCut_spec (by omega)]
        have : n - l.length = 0 := by omega
        simp [this, callAll, dropsOut]
    rw [VM.bind_eq, this]
    cases (l.drop n).any e.dropPanics <;>
    rcases callAll_stop f 0 (n - l.length) with h | ⟨m, h⟩ <;> simp [h, Stop.out]

/-! ### cloning -/

theorem cloneAll_length (cl : Cloner T) (xs : List T) (a : Alloc) :
    (cloneAll cl xs a).1.length ≤ xs.length ∧
      ((cloneAll cl xs a).2.1 = .done → (cloneAll cl xs a).1.length = xs.length) ∧
      ((cloneAll cl xs a).2.1 ≠ .done → (cloneAll cl xs a).1.length < xs.length) := by
  induction xs generalizing a with
  | nil => simp [cloneAll]
  | cons x xs ih =>
    simp only [cloneAll]
    split
    · simp
    · simp
    · rename_i c a' _
      have := ih a'
      simp only [List.length_cons]
      refine ⟨by omega, fun h => by have := this.2.1 h; omega, fun h => by have := this.2.2 h; omega⟩

theorem Faithful.cloneAll {cl : Cloner T} (h : Faithful cl) (xs : List T) (a : Alloc) :
    (cloneAll cl xs a).1 = xs.take (Vec.cloneAll cl xs a).1.length := by
  induction xs generalizing a with
  | nil => simp [Vec.cloneAll]
  | cons x xs ih =>
    simp only [Vec.cloneAll]
    split
    · simp
    · simp
    · rename_i c a' hx
      rw [h _ _ _ _ hx]
      simp only [List.length_cons, List.take_succ_cons]
      rw [← ih a']

theorem callClone_eq (cl : Cloner T) (x : T) (s : St T) : callClone cl x s =
    match cl x s.w.alloc with
    | (.error m, a) => (.panic m, { s with w := { s.w with alloc := a, cloned := s.w.cloned ++ [x] } })
    | (.ok (.error er), a) => (.ok (.error er), { s with w := { s.w with alloc := a, cloned := s.w.cloned ++ [x] } })
    | (.ok (.ok c), a) =>
      (.ok (.ok c), { s with w := { s.w with alloc := a, cloned := s.w.cloned ++ [x], made := s.w.made ++ [c] } }) := by
  simp only [callClone]
  rcases cl x s.w.alloc with ⟨_ | _ | _, a⟩ <;> rfl

theorem extendSliceLoop_spec (cl : Cloner T) (xs : List T) {c n : Nat} {l : List T} (w : World T) (hn : n = l.length)
    (hc : l.length + xs.length ≤ c) :
    extendSliceLoop cl xs n ⟨RawVec.of c l, w⟩ =
      ((cloneAll cl xs w.alloc).2.1.out,
        ⟨RawVec.of c (l ++ (cloneAll cl xs w.alloc).1),
          { w with
            alloc := (cloneAll cl xs w.alloc).2.2
            cloned := w.cloned ++ asked xs (cloneAll cl xs w.alloc).1 (cloneAll cl xs w.alloc).2.1
            made := w.made ++ (cloneAll cl xs w.alloc).1 }⟩) := by
  induction xs generalizing l n w with
  | nil => simp [extendSliceLoop, cloneAll, Stop.out, asked]
  | cons x xs ih =>
    simp only [List.length_cons] at hc
    simp only [extendSliceLoop, cloneAll]
    have hcc := callClone_eq cl x ⟨RawVec.of c l, w⟩
    rcases hx : cl x w.alloc with ⟨m | er | d, a⟩
    · simp only [hx] at hcc ⊢
      rw [VM.bind_panic hcc]
      simp [Stop.out, asked]
    · simp only [hx] at hcc ⊢
      rw [VM.bind_ok hcc]
      simp [Stop.out, asked]
    · simp only [hx] at hcc ⊢
      rw [VM.bind_ok hcc]
      simp only []
      rw [pushAt d _ hn (by omega), ih _ (by simp [hn]) (by simp; omega)]
      have : ∀ s, asked (x :: xs) (d :: (cloneAll cl xs a).1) s = x :: asked xs (cloneAll cl xs a).1 s := by
        intro s; cases s <;> simp [asked]
      simp [this]

theorem cloneAll_replicate_asked (n : Nat) (x : T) (made : List T) (s : Stop) :
    asked (List.replicate n x) made s = List.replicate (asked (List.replicate n x) made s).length x := by
  cases s <;> simp [asked, List.take_replicate]

theorem extendWithLoop_eq (cl : Cloner T) (val : T) (n len : Nat) (s : St T) :
    extendWithLoop cl val n len s = extendSliceLoop cl (List.replicate n val) len s := by
  induction n generalizing len s with
  | zero => rfl
  | succ n ih =>
    simp only [extendWithLoop, extendSliceLoop, List.replicate_succ]
    rw [VM.bind_eq, VM.bind_eq]
    rcases callClone cl val s with ⟨r | _ | _, s⟩ <;> simp only []
    cases r with
    | error e => rfl
    | ok c =>
      simp only [VM.bind_eq]
      rcases writeSlot len c s with ⟨_ | _ | _, s'⟩ <;> simp only []
      rcases setLen (len + 1) s' with ⟨_ | _ | _, s''⟩ <;> simp only []
      exact ih _ _

/-- How cloning a slice onto the end of a vector went, with everything it did to the world. -/
def clonedOnto (cl : Cloner T) (xs : List T) (c : Nat) (l : List T) (w : World T) : St T :=
  ⟨RawVec.of c (l ++ (cloneAll cl xs w.alloc).1),
    { w with
      alloc := (cloneAll cl xs w.alloc).2.2
      cloned := w.cloned ++ asked xs (cloneAll cl xs w.alloc).1 (cloneAll cl xs w.alloc).2.1
      made := w.made ++ (cloneAll cl xs w.alloc).1 }⟩

theorem tryExtendFromSliceNoCopy_spec {e : Env T} (he : e.OK) (cl : Cloner T) {c : Nat} {l : List T} (hc : e.CapOK c) (hl : l.length ≤ c) (xs : List T)
    (w : World T) :
    ∃ r c' a', Reserved e xs.length l c w r c' a' ∧ tryExtendFromSliceNoCopy e cl xs ⟨RawVec.of c l, w⟩ =
      match r with
      | .ok () => ((cloneAll cl xs a').2.1.out, clonedOnto cl xs c' l { w with alloc := a' })
      | .error er => (.ok (.error er), ⟨RawVec.of c' l, { w with alloc := a' }⟩) := by
  obtain ⟨r, c', a', h1, h2⟩ := needsToGrow_spec he hc hl xs.length w
  refine ⟨r, c', a', h2, ?_⟩
  simp only [tryExtendFromSliceNoCopy, VM.get_bind]
  rw [VM.bind_ok h1]
  cases r with
  | error er => rfl
  | ok u =>
    simp only [VM.get_bind]
    rw [extendSliceLoop_spec (n := (RawVec.of c' l).len) cl xs _ rfl (h2.ok rfl).1]
    rfl

theorem tryExtendFromSlice_spec {e : Env T} (he : e.OK) {c : Nat} {l : List T} (hc : e.CapOK c) (hl : l.length ≤ c) (xs : List T)
    (w : World T) :
    ∃ r c' a', Reserved e xs.length l c w r c' a' ∧ tryExtendFromSlice e xs ⟨RawVec.of c l, w⟩ =
      match r with
      | .ok () => (.ok (.ok ()), ⟨RawVec.of c' (l ++ xs), { w with alloc := a' }⟩)
      | .error er => (.ok (.error er), ⟨RawVec.of c' l, { w with alloc := a' }⟩) := by
  obtain ⟨r, c', a', h1, h2⟩ := needsToGrow_spec he hc hl xs.length w
  refine ⟨r, c', a', h2, ?_⟩
  simp only [tryExtendFromSlice, VM.get_bind]
  rw [VM.bind_ok h1]
  cases r with
  | error er => rfl
  | ok u =>
    have : stdExtendFromSlice e xs ⟨RawVec.of c' l, { w with alloc := a' }⟩ =
        (.ok (), ⟨RawVec.of c' (l ++ xs), { w with alloc := a' }⟩) := by
      simp only [stdExtendFromSlice]
      rw [VM.bind_ok (stdReserve_room (e := e) (n := xs.length) (h2.ok rfl).1 _), writeAll_spec _ _ (h2.ok rfl).1]
    simp only []
    rw [VM.bind_ok this]
    rfl

/-! ### dropping -/

theorem drop_mem (l : List T) {n : Nat} (hn : n < l.length) (hl : n + 1 = l.length) :
    (fun j => if j = n then none else l[j]?) = fun j => (l.take n)[j]? := by
  funext j
  rw [List.getElem?_take]
  by_cases h : j = n
  · subst h; simp
  · by_cases h' : j < n
    · simp [h, h']
    · simp [h, h']; omega

theorem truncateLoop_spec {e : Env T} {c : Nat} (n : Nat) {l : List T} (w : World T) (hl : n ≤ l.length) (hc : l.length ≤ c)
    (hp : (l.drop (l.length - n)).all (fun x => !e.dropPanics x) = true) :
    truncateLoop e n l.length ⟨RawVec.of c l, w⟩ =
      (.ok (), ⟨RawVec.of c (l.take (l.length - n)), { w with dropped := w.dropped ++ (l.drop (l.length - n)).reverse }⟩) := by
  induction n generalizing l w with
  | zero => simp [truncateLoop]
  | succ n ih =>
    rcases List.eq_nil_or_concat l with rfl | ⟨l, x, rfl⟩
    · simp at hl
    · have hx : e.dropPanics x = false := by
        simp only [List.all_eq_true] at hp
        have := hp x (by simp; rw [List.drop_append_of_le_length (by omega)]; simp)
        simpa using this
      have h1 : dropSlot e ((l ++ [x]).length - 1) ⟨RawVec.of c (l ++ [x]), w⟩ =
          (.ok (), ⟨⟨c, l.length + 1, fun j => l[j]?⟩, { w with dropped := w.dropped ++ [x] }⟩) := by
        have hm := drop_mem (l ++ [x]) (n := l.length) (by simp) (by simp)
        simp at hm
        simp [dropSlot, RawVec.of, hx]
        exact hm
      simp only [List.concat_eq_append] at *
      simp only [truncateLoop]
      rw [VM.bind_ok h1, VM.bind_ok (setLen_all _ (by simp) (by simp at hc ⊢; omega) _)]
      have h2 : (l ++ [x]).length - (n + 1) = l.length - n := by simp
      rw [show (l ++ [x]).length - 1 = l.length by simp, ih _ (by simp at hl; omega) (by simp at hc; omega) ?_]
      · rw [h2, List.take_append_of_le_length (by omega), List.drop_append_of_le_length (by omega)]
        simp
      · rw [h2, List.drop_append_of_le_length (by omega)] at hp
        simp at hp ⊢
        exact hp.1

/-- If a destructor panics, the element is gone but the length still counts it. -/
theorem truncateLoop_panic {e : Env T} {c : Nat} (n : Nat) {l : List T} (w : World T) (hl : n ≤ l.length) (hc : l.length ≤ c)
    (hp : (l.drop (l.length - n)).any e.dropPanics = true) :
    ∃ k x, l.length - n ≤ k ∧ l[k]? = some x ∧ e.dropPanics x = true ∧ (∀ y ∈ l.drop (k + 1), e.dropPanics y = false) ∧
      truncateLoop e n l.length ⟨RawVec.of c l, w⟩ =
        (.panic "destructor panicked",
          ⟨⟨c, k + 1, fun j => (l.take k)[j]?⟩, { w with dropped := w.dropped ++ (l.drop k).reverse }⟩) := by
  induction n generalizing l w with
  | zero => simp at hp
  | succ n ih =>
    rcases List.eq_nil_or_concat l with rfl | ⟨l, x, rfl⟩
    · simp at hl
    · simp only [List.concat_eq_append] at *
      have hm : (fun j => if j = l.length then none else (l ++ [x])[j]?) = fun j => l[j]? := by
        have hm := drop_mem (l ++ [x]) (n := l.length) (by simp) (by simp)
        simpa using hm
      cases hx : e.dropPanics x with
      | true =>
        refine ⟨l.length, x, by simp, by simp, hx, by simp, ?_⟩
        have h1 : dropSlot e ((l ++ [x]).length - 1) ⟨RawVec.of c (l ++ [x]), w⟩ =
            (.panic "destructor panicked", ⟨⟨c, l.length + 1, fun j => l[j]?⟩, { w with dropped := w.dropped ++ [x] }⟩) := by
          simp [dropSlot, RawVec.of, hx]
          exact hm
        simp only [truncateLoop]
        rw [VM.bind_panic h1]
        simp
      | false =>
        have h1 : dropSlot e ((l ++ [x]).length - 1) ⟨RawVec.of c (l ++ [x]), w⟩ =
            (.ok (), ⟨⟨c, l.length + 1, fun j => l[j]?⟩, { w with dropped := w.dropped ++ [x] }⟩) := by
          simp [dropSlot, RawVec.of, hx]
          exact hm
        have h2 : (l ++ [x]).length - (n + 1) = l.length - n := by simp
        have hl' : n ≤ l.length := by simp at hl; omega
        have hc' : l.length ≤ c := by simp at hc; omega
        rw [h2, List.drop_append_of_le_length (by omega)] at hp
        obtain ⟨k, y, g1, g2, g3, g5, g4⟩ := ih { w with dropped := w.dropped ++ [x] } hl' hc' (by simpa [hx] using hp)
        have hk : k < l.length := by
          apply Classical.byContradiction
          intro h
          rw [List.getElem?_eq_none (by omega)] at g2
          simp at g2
        refine ⟨k, y, by omega, by rw [List.getElem?_append_left hk]; exact g2, g3, ?_, ?_⟩
        · rw [List.drop_append_of_le_length (by omega)]
          intro z hz
          rcases List.mem_append.1 hz with hz | hz
          · exact g5 z hz
          · rw [List.mem_singleton.1 hz]; exact hx
        simp only [truncateLoop]
        rw [VM.bind_ok h1, VM.bind_ok (setLen_all _ (by simp) (by simp at hc ⊢; omega) _)]
        rw [show (l ++ [x]).length - 1 = l.length by simp, g4]
        rw [List.take_append_of_le_length (by omega), List.drop_append_of_le_length (by omega)]
        simp

theorem dropFrom_ub {e : Env T} (xs : List T) (i N : Nat) (s : St T) (h : ∀ k (hk : k < xs.length), s.v.mem (i + k) = some xs[k])
    (hn : s.v.mem (i + xs.length) = none) (hN : xs.length < N) : (dropFrom e i N s).1 = .ub := by
  induction xs generalizing i N s with
  | nil =>
    obtain ⟨N, rfl⟩ : ∃ M, N = M + 1 := ⟨N - 1, by simp at hN; omega⟩
    simp at hn
    simp [dropFrom, dropSlot, hn]
  | cons x xs ih =>
    obtain ⟨N, rfl⟩ : ∃ M, N = M + 1 := ⟨N - 1, by omega⟩
    have h0 : s.v.mem i = some x := h 0 (Nat.zero_lt_succ _)
    have h1 := ih (i + 1) N ⟨{ s.v with mem := fun j => if j = i then none else s.v.mem j },
      { s.w with dropped := s.w.dropped ++ [x] }⟩ (by
        intro k hk
        have := h (k + 1) (by simp; omega)
        simp only [List.getElem_cons_succ] at this
        simp only []
        rw [if_neg (by omega), ← this]
        congr 1; omega) (by
        simp only [List.length_cons] at hn
        simp only []
        rw [if_neg (by omega), ← hn]
        congr 1; omega) (by simp at hN; omega)
    simp only [dropFrom, dropSlot, h0]
    cases hx : e.dropPanics x with
    | false => simp; exact h1
    | true =>
      simp only [if_true]
      rcases hr : dropFrom e (i + 1) N ⟨{ s.v with mem := fun j => if j = i then none else s.v.mem j },
        { s.w with dropped := s.w.dropped ++ [x] }⟩ with ⟨r, s'⟩
      rw [hr] at h1
      simp only at h1
      subst h1
      rfl

/-- Dropping a vector that holds `l` runs every destructor once. -/
theorem dropVec_spec {e : Env T} {c : Nat} {l : List T} (w : World T) :
    (dropVec e ⟨RawVec.of c l, w⟩).1 = (if l.any e.dropPanics then .panic "destructor panicked" else .ok ()) ∧
    (dropVec e ⟨RawVec.of c l, w⟩).2.w = { w with dropped := w.dropped ++ l } :=
  dropFrom_ok l 0 ⟨RawVec.of c l, w⟩ (by intro k hk; simp [RawVec.of, hk])

end Verif.Vec
