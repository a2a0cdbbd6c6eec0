import Verif.Vec.Spec
/-
Facts about the vector model: what each operation does to a vector that holds a list.
-/
namespace Verif.Vec
open Verif

variable {T α β : Type}

/-! ### the monad -/

theorem VM.bind_eq (x : VM T α) (f : α → VM T β) (s : St T) : (x >>= f) s =
    match x s with
    | (.ok a, s) => f a s
    | (.ub, s) => (.ub, s)
    | (.panic m, s) => (.panic m, s) := rfl

theorem VM.bind_ok {x : VM T α} {f : α → VM T β} {s s' : St T} {a : α} (h : x s = (.ok a, s')) :
    (x >>= f) s = f a s' := by simp [VM.bind_eq, h]

theorem VM.bind_panic {x : VM T α} {f : α → VM T β} {s s' : St T} {m} (h : x s = (.panic m, s')) :
    (x >>= f) s = (.panic m, s') := by simp [VM.bind_eq, h]

@[simp] theorem VM.pure_eq (a : α) (s : St T) : (pure a : VM T α) s = (.ok a, s) := rfl
@[simp] theorem VM.get_bind (f : St T → VM T β) (s : St T) : (VM.get >>= f) s = f s s := rfl
@[simp] theorem VM.pure_bind' (a : α) (f : α → VM T β) : ((pure a : VM T α) >>= f) = f a := rfl

theorem VM.ite_apply {c : Prop} [Decidable c] (x y : VM T α) (s : St T) : (if c then x else y) s = if c then x s else y s := by
  split <;> rfl

/-! ### vectors that hold a list -/

/-- The vector with capacity `c` holding `l`: everything beyond is uninitialised. -/
def RawVec.of (c : Nat) (l : List T) : RawVec T := ⟨c, l.length, fun i => l[i]?⟩

theorem Holds.eq_of {e : Env T} {v : RawVec T} {l} (h : Holds e v l) : v = RawVec.of v.cap l := by
  obtain ⟨c, n, m⟩ := v
  have h1 := h.len
  have h2 : m = fun i => l[i]? := funext h.mem
  simp at h1
  simp [RawVec.of, h1, h2]

theorem Holds.of {e : Env T} {c : Nat} {l : List T} (hl : l.length ≤ c) (hc : e.CapOK c) : Holds e (RawVec.of c l) l :=
  ⟨rfl, fun _ => rfl, hl, hc⟩

/-- A vector holds at most one list. -/
theorem Holds.unique {e : Env T} {v : RawVec T} {l l' : List T} (h : Holds e v l) (h' : Holds e v l') : l = l' :=
  List.ext_getElem? fun i => by rw [← h.mem, h'.mem]

theorem items_of (c : Nat) (l : List T) : (RawVec.of c l).items = l := by
  simp only [RawVec.items, RawVec.of]
  induction l with
  | nil => rfl
  | cons x l ih => simp [List.range_succ_eq_map, List.filterMap_map, Function.comp_def, ih]

theorem Holds.items {e : Env T} {v : RawVec T} {l} (h : Holds e v l) : v.items = l := by
  rw [h.eq_of]; exact items_of _ _

theorem Env.CapOK.new (e : Env T) : e.CapOK (if e.size = 0 then e.usizeMax else 0) := by
  constructor <;> split <;> simp_all

theorem new_eq (e : Env T) : RawVec.new e = RawVec.of (if e.size = 0 then e.usizeMax else 0) [] := rfl

theorem Holds.new (e : Env T) : Holds e (RawVec.new e) [] := by
  rw [new_eq]; exact Holds.of (l := []) (Nat.zero_le _) (.new e)

/-! ### raw steps -/

theorem snoc_mem (l : List T) (x : T) :
    (fun j => if j = l.length then some x else l[j]?) = fun j => (l ++ [x])[j]? := by
  funext j
  by_cases h : j = l.length
  · simp [h]
  · by_cases h' : j < l.length
    · simp [h, List.getElem?_append_left h']
    · have : l.length < j := by omega
      simp [h]
      rw [List.getElem?_eq_none (by omega), List.getElem?_eq_none (by simp; omega)]

theorem setLen_all {c n : Nat} {l : List T} (w : World T) (hn : n = l.length) (hc : n ≤ c) (len : Nat) :
    setLen n ⟨⟨c, len, fun i => l[i]?⟩, w⟩ = (.ok (), ⟨RawVec.of c l, w⟩) := by
  subst hn
  have : (List.range l.length).all (fun i => (l[i]?).isSome) = true := by
    simp
  simp [setLen, hc, this, RawVec.of]

/-- Write the slot after the last, then raise the length. -/
theorem pushAt {c n : Nat} {l : List T} (x : T) (w : World T) (hn : n = l.length) (hc : l.length < c) (k : Unit → VM T β) :
    (writeSlot n x >>= fun _ => setLen (n + 1) >>= k) ⟨RawVec.of c l, w⟩ = k () ⟨RawVec.of c (l ++ [x]), w⟩ := by
  subst hn
  rw [VM.bind_ok (show writeSlot l.length x ⟨RawVec.of c l, w⟩ =
    (.ok (), ⟨⟨c, l.length, fun j => (l ++ [x])[j]?⟩, w⟩) from ?_)]
  · rw [VM.bind_ok (setLen_all w (by simp) (by omega) _)]
  · simp [writeSlot, RawVec.of, hc, snoc_mem]

theorem pushAt' {c n : Nat} {l : List T} (x : T) (w : World T) (hn : n = l.length) (hc : l.length < c) :
    (writeSlot n x >>= fun _ => setLen (n + 1)) ⟨RawVec.of c l, w⟩ = (.ok (), ⟨RawVec.of c (l ++ [x]), w⟩) := by
  subst hn
  rw [VM.bind_ok (show writeSlot l.length x ⟨RawVec.of c l, w⟩ =
    (.ok (), ⟨⟨c, l.length, fun j => (l ++ [x])[j]?⟩, w⟩) from ?_)]
  · rw [setLen_all w (by simp) (by omega) _]
  · simp [writeSlot, RawVec.of, hc, snoc_mem]

theorem writeAll_spec {c : Nat} (xs : List T) {l : List T} (w : World T) (hc : l.length + xs.length ≤ c) :
    writeAll xs ⟨RawVec.of c l, w⟩ = (.ok (), ⟨RawVec.of c (l ++ xs), w⟩) := by
  induction xs generalizing l with
  | nil => simp [writeAll]
  | cons x xs ih =>
    simp only [List.length_cons] at hc
    simp only [writeAll, VM.get_bind]
    rw [pushAt (c := c) (n := (RawVec.of c l).len) (l := l) x w rfl (by omega), ih (by simp; omega)]
    simp

/-! ### allocation -/

/-- What reserving does: it fails without a trace (except for the request made), or there is room. -/
structure Grown (e : Env T) (n : Nat) (l : List T) (c : Nat) (w : World T) (r : Res Unit) (c' : Nat) (a' : Alloc) : Prop where
  ok : r = .ok () → l.length + n ≤ c' ∧ e.CapOK c' ∧ c ≤ max c c'
  err : ∀ er, r = .error er → c' = c
  /-- no growth when there is room already -/
  room : l.length + n ≤ c → r = .ok () ∧ c' = c ∧ a' = w.alloc
  /-- requests beyond the address space fail -/
  over : e.usizeMax < l.length + n → r = .error .capacityOverflow
  overBytes : e.isizeMax < (l.length + n) * e.size → r = .error .capacityOverflow
  /-- an allocation failure is reported only if the allocator refused -/
  refused : r = .error .allocError → w.alloc 0 = false

/-- What `try_reserve(n)` did on the vector with capacity `c` holding `l`: it returned `r`, leaving capacity `c'` and
allocator `a'`. -/
structure Reserved (e : Env T) (n : Nat) (l : List T) (c : Nat) (w : World T) (r : Res Unit) (c' : Nat) (a' : Alloc) : Prop
    extends Grown e n l c w r c' a' where
  run : tryReserve e n ⟨RawVec.of c l, w⟩ = (.ok r, ⟨RawVec.of c' l, { w with alloc := a' }⟩)

theorem growFor_spec {e : Env T} {policy : Nat → Nat → Nat} (hp : ∀ c r, r ≤ policy c r) {c : Nat} {l : List T}
    (n : Nat) (w : World T) (hn : ¬ n ≤ c - l.length) (hl : l.length ≤ c) :
    ∃ r c' a', growFor e policy n ⟨RawVec.of c l, w⟩ = (.ok r, ⟨RawVec.of c' l, { w with alloc := a' }⟩) ∧
      Grown e n l c w r c' a' := by
  have hroom : ¬ l.length + n ≤ c := by omega
  by_cases h0 : e.size = 0
  · refine ⟨.error .capacityOverflow, c, w.alloc, by simp [growFor, h0], ?_, ?_, ?_, ?_, ?_, ?_⟩ <;> simp [hroom]
  by_cases h1 : e.usizeMax < l.length + n
  · refine ⟨.error .capacityOverflow, c, w.alloc, by simp [growFor, h0, RawVec.of, h1], ?_, ?_, ?_, ?_, ?_, ?_⟩ <;> simp [hroom]
  have hge := hp c (l.length + n)
  by_cases h2 : e.isizeMax < policy c (l.length + n) * e.size
  · refine ⟨.error .capacityOverflow, c, w.alloc, by simp [growFor, h0, RawVec.of, h1, growTo, h2], ?_, ?_, ?_, ?_, ?_, ?_⟩ <;>
      simp [hroom]
  have hb : (l.length + n) * e.size ≤ policy c (l.length + n) * e.size := Nat.mul_le_mul_right _ hge
  have hw : policy c (l.length + n) ≤ e.usizeMax := by
    have h3 : policy c (l.length + n) * 1 ≤ policy c (l.length + n) * e.size := Nat.mul_le_mul_left _ (by omega)
    have h4 : e.isizeMax ≤ e.usizeMax := Nat.div_le_self _ _
    omega
  cases ha : w.alloc 0 with
  | false =>
    refine ⟨.error .allocError, c, w.alloc.request.2, by simp [growFor, h0, RawVec.of, h1, growTo, h2, Alloc.request, ha],
      ?_, ?_, ?_, ?_, ?_, ?_⟩ <;> simp [hroom, h1, ha]
    omega
  | true =>
    refine ⟨.ok (), policy c (l.length + n), w.alloc.request.2,
      by simp [growFor, h0, RawVec.of, h1, growTo, h2, Alloc.request, ha], ?_, ?_, ?_, ?_, ?_, ?_⟩ <;> simp [hroom, h1, ha]
    · exact ⟨hge, ⟨hw, by omega, by simp [h0]⟩, by omega⟩
    · omega

theorem tryReserve_grown {e : Env T} (he : e.OK) {c : Nat} {l : List T} (hc : e.CapOK c) (hl : l.length ≤ c) (n : Nat)
    (w : World T) :
    ∃ r c' a', tryReserve e n ⟨RawVec.of c l, w⟩ = (.ok r, ⟨RawVec.of c' l, { w with alloc := a' }⟩) ∧
      Grown e n l c w r c' a' := by
  by_cases hn : n ≤ c - l.length
  · refine ⟨.ok (), c, w.alloc, by simp [tryReserve, stdTryReserve, RawVec.of, hn], ?_, ?_, ?_, ?_, ?_, ?_⟩ <;> simp
    · exact ⟨by omega, hc⟩
    · have := hc.word; omega
    · have h1 := hc.bytes
      have : (l.length + n) * e.size ≤ c * e.size := Nat.mul_le_mul_right _ (by omega)
      omega
  · obtain ⟨r, c', a', h1, h2⟩ := growFor_spec he.grow n w hn hl
    refine ⟨r, c', a', ?_, h2⟩
    simpa [tryReserve, stdTryReserve, RawVec.of, hn] using h1

theorem tryReserve_spec {e : Env T} (he : e.OK) {c : Nat} {l : List T} (hc : e.CapOK c) (hl : l.length ≤ c) (n : Nat)
    (w : World T) :
    ∃ r c' a', tryReserve e n ⟨RawVec.of c l, w⟩ = (.ok r, ⟨RawVec.of c' l, { w with alloc := a' }⟩) ∧
      Reserved e n l c w r c' a' := by
  obtain ⟨r, c', a', h1, h2⟩ := tryReserve_grown he hc hl n w
  exact ⟨r, c', a', h1, h2, h1⟩

/-- With room, reserving does nothing. -/
theorem reserved_room {e : Env T} (he : e.OK) {c : Nat} {l : List T} (hc : e.CapOK c) {n : Nat} (hn : l.length + n ≤ c)
    (w : World T) : Reserved e n l c w (.ok ()) c w.alloc := by
  obtain ⟨r, c', a', h1, h2⟩ := tryReserve_spec he hc (l := l) (by omega) n w
  obtain ⟨rfl, rfl, rfl⟩ := h2.room hn
  exact h2

theorem stdTryReserve_spec {e : Env T} (he : e.OK) {c : Nat} {l : List T} (hc : e.CapOK c) (hl : l.length ≤ c) (n : Nat)
    (w : World T) :
    ∃ r c' a', stdTryReserve e n ⟨RawVec.of c l, w⟩ = (.ok r, ⟨RawVec.of c' l, { w with alloc := a' }⟩) ∧
      Reserved e n l c w r c' a' := tryReserve_spec he hc hl n w

theorem tryReserveExact_spec {e : Env T} (he : e.OK) {c : Nat} {l : List T} (hc : e.CapOK c) (hl : l.length ≤ c) (n : Nat)
    (w : World T) :
    ∃ r c' a', stdTryReserveExact e n ⟨RawVec.of c l, w⟩ = (.ok r, ⟨RawVec.of c' l, { w with alloc := a' }⟩) ∧
      Grown e n l c w r c' a' := by
  by_cases hn : n ≤ c - l.length
  · refine ⟨.ok (), c, w.alloc, by simp [stdTryReserveExact, RawVec.of, hn], ?_, ?_, ?_, ?_, ?_, ?_⟩ <;> simp
    · exact ⟨by omega, hc⟩
    · have := hc.word; omega
    · have h1 := hc.bytes
      have : (l.length + n) * e.size ≤ c * e.size := Nat.mul_le_mul_right _ (by omega)
      omega
  · obtain ⟨r, c', a', h1, h2⟩ := growFor_spec he.exact n w hn hl
    refine ⟨r, c', a', ?_, h2⟩
    simpa [stdTryReserveExact, RawVec.of, hn] using h1

/-- The infallible reserve does nothing when there is room. -/
theorem stdReserve_room {e : Env T} {c : Nat} {l : List T} {n : Nat} (h : l.length + n ≤ c) (w : World T) :
    stdReserve e n ⟨RawVec.of c l, w⟩ = (.ok (), ⟨RawVec.of c l, w⟩) := by
  have : n ≤ c - l.length := by omega
  simp [stdReserve, RawVec.of, this]

/-! ### push, insert, append -/

theorem stdPush_room {e : Env T} {c : Nat} {l : List T} (h : l.length < c) (x : T) (w : World T) :
    stdPush e x ⟨RawVec.of c l, w⟩ = (.ok (), ⟨RawVec.of c (l ++ [x]), w⟩) := by
  have : ¬ (RawVec.of c l).len = (RawVec.of c l).cap := by simp [RawVec.of]; omega
  simp only [stdPush, VM.get_bind, this, if_false]
  exact pushAt' (l := l) x w rfl h

/-- What the `if self.len() == self.capacity() { self.try_reserve(1)? }` of push and insert does. -/
theorem reserveOne_spec {e : Env T} (he : e.OK) {c : Nat} {l : List T} (hc : e.CapOK c) (hl : l.length ≤ c) (w : World T) :
    ∃ r c' a', (if (RawVec.of c l).len = (RawVec.of c l).cap then stdTryReserve e 1 else pure (.ok ()))
        ⟨RawVec.of c l, w⟩ = (.ok r, ⟨RawVec.of c' l, { w with alloc := a' }⟩) ∧ Reserved e 1 l c w r c' a' := by
  by_cases h : (RawVec.of c l).len = (RawVec.of c l).cap
  · rw [if_pos h]; exact stdTryReserve_spec he hc hl 1 w
  · rw [if_neg h]
    have hlt : l.length + 1 ≤ c := by simp [RawVec.of] at h; omega
    exact ⟨.ok (), c, w.alloc, rfl, reserved_room he hc (by omega) w⟩

theorem needsToGrow_spec {e : Env T} (he : e.OK) {c : Nat} {l : List T} (hc : e.CapOK c) (hl : l.length ≤ c) (n : Nat)
    (w : World T) :
    ∃ r c' a', (if needsToGrow e (RawVec.of c l) n then stdTryReserve e n else pure (.ok ()))
        ⟨RawVec.of c l, w⟩ = (.ok r, ⟨RawVec.of c' l, { w with alloc := a' }⟩) ∧ Reserved e n l c w r c' a' := by
  by_cases h : needsToGrow e (RawVec.of c l) n = true
  · rw [if_pos h]; exact stdTryReserve_spec he hc hl n w
  · rw [if_neg h]
    have hlt : l.length + n ≤ c ∧ l.length + n ≤ e.usizeMax := by
      simp only [needsToGrow, RawVec.of] at h
      by_cases h' : e.usizeMax < l.length + n
      · simp [h'] at h
      · simp only [h', if_false] at h
        have := of_decide_eq_false (Bool.eq_false_iff.2 h)
        omega
    exact ⟨.ok (), c, w.alloc, rfl, reserved_room he hc (by omega) w⟩

theorem tryPush_spec {e : Env T} (he : e.OK) {c : Nat} {l : List T} (hc : e.CapOK c) (hl : l.length ≤ c) (x : T) (w : World T) :
    ∃ r c' a', Reserved e 1 l c w r c' a' ∧ tryPush e x ⟨RawVec.of c l, w⟩ =
      match r with
      | .ok () => (.ok (.ok ()), ⟨RawVec.of c' (l ++ [x]), { w with alloc := a' }⟩)
      | .error er => (if e.dropPanics x then .panic "destructor panicked" else .ok (.error er),
          ⟨RawVec.of c' l, { w with alloc := a', dropped := w.dropped ++ [x] }⟩) := by
  obtain ⟨r, c', a', h1, h2⟩ := reserveOne_spec he hc hl w
  refine ⟨r, c', a', h2, ?_⟩
  simp only [tryPush, VM.get_bind]
  rw [VM.bind_ok h1]
  cases r with
  | error er =>
    by_cases hd : e.dropPanics x = true <;> simp [VM.bind_eq, dropVal, hd]
  | ok u =>
    simp only []
    rw [VM.bind_ok (stdPush_room (by have := (h2.ok rfl).1; omega) x _)]
    rfl

theorem tryPushGiveBack_spec {e : Env T} (he : e.OK) {c : Nat} {l : List T} (hc : e.CapOK c) (hl : l.length ≤ c) (x : T)
    (w : World T) :
    ∃ r c' a', Reserved e 1 l c w r c' a' ∧ tryPushGiveBack e x ⟨RawVec.of c l, w⟩ =
      match r with
      | .ok () => (.ok (.ok ()), ⟨RawVec.of c' (l ++ [x]), { w with alloc := a' }⟩)
      | .error er => (.ok (.error (x, er)), ⟨RawVec.of c' l, { w with alloc := a' }⟩) := by
  obtain ⟨r, c', a', h1, h2⟩ := reserveOne_spec he hc hl w
  refine ⟨r, c', a', h2, ?_⟩
  simp only [tryPushGiveBack, VM.get_bind]
  rw [VM.bind_ok h1]
  cases r with
  | error er => rfl
  | ok u =>
    simp only []
    rw [VM.bind_ok (stdPush_room (by have := (h2.ok rfl).1; omega) x _)]
    rfl

theorem insert_mem {l : List T} {i : Nat} (hi : i ≤ l.length) (x : T) :
    (fun j => if j = i then some x else shiftUp i l.length (fun i => l[i]?) j) =
      fun j => (l.take i ++ x :: l.drop i)[j]? := by
  funext j
  have hlen : (l.take i).length = i := by simp; omega
  by_cases h : j = i
  · subst h; simp [hlen]
  · by_cases h' : j < i
    · simp [h, shiftUp, h', List.getElem?_append, hlen]
    · have : i < j := by omega
      have hj : j - i = (j - i - 1) + 1 := by omega
      simp only [h, shiftUp, h', if_false, List.getElem?_append, hlen]
      rw [hj, List.getElem?_cons_succ, List.getElem?_drop]
      have : i + (j - i - 1) = j - 1 := by omega
      rw [this]
      split
      · rfl
      · rw [List.getElem?_eq_none (by omega), List.getElem?_eq_none (by omega)]

theorem stdInsert_room {e : Env T} {c : Nat} {l : List T} (h : l.length < c) (i : Nat) (x : T) (w : World T) :
    stdInsert e i x ⟨RawVec.of c l, w⟩ =
      if l.length < i then (.panic "insertion index should be <= len", ⟨RawVec.of c l, { w with dropped := w.dropped ++ [x] }⟩)
      else (.ok (), ⟨RawVec.of c (l.take i ++ x :: l.drop i), w⟩) := by
  simp only [stdInsert, VM.get_bind]
  by_cases hi : l.length < i
  · have : (RawVec.of c l).len < i := hi
    simp [this, hi, dropVal]
  · have h1 : ¬ (RawVec.of c l).len < i := hi
    have h2 : ¬ (RawVec.of c l).len = (RawVec.of c l).cap := by simp [RawVec.of]; omega
    simp only [h1, hi, if_false, h2, VM.get_bind]
    rw [VM.bind_ok (a := ()) (s' := ⟨RawVec.of c l, w⟩) (by simp [VM.require, RawVec.of, h])]
    rw [VM.bind_ok (x := shiftTail i) (a := ()) (s' := ⟨⟨c, l.length, shiftUp i l.length (fun i => l[i]?)⟩, w⟩) rfl]
    rw [VM.bind_ok (a := ()) (s' := ⟨⟨c, l.length, fun j => (l.take i ++ x :: l.drop i)[j]?⟩, w⟩)
      (by simp only [writeSlot, show i < c by omega, if_true, insert_mem (show i ≤ l.length by omega)])]
    exact setLen_all w (by simp [RawVec.of]; omega) (by simp [RawVec.of]; omega) _

theorem tryInsert_spec {e : Env T} (he : e.OK) {c : Nat} {l : List T} (hc : e.CapOK c) (hl : l.length ≤ c) (i : Nat) (x : T)
    (w : World T) :
    ∃ r c' a', Reserved e 1 l c w r c' a' ∧ tryInsert e i x ⟨RawVec.of c l, w⟩ =
      match r with
      | .ok () =>
        if l.length < i then (.panic "insertion index should be <= len", ⟨RawVec.of c' l, { w with alloc := a', dropped := w.dropped ++ [x] }⟩)
        else (.ok (.ok ()), ⟨RawVec.of c' (l.take i ++ x :: l.drop i), { w with alloc := a' }⟩)
      | .error er => (.ok (.error (x, er)), ⟨RawVec.of c' l, { w with alloc := a' }⟩) := by
  obtain ⟨r, c', a', h1, h2⟩ := reserveOne_spec he hc hl w
  refine ⟨r, c', a', h2, ?_⟩
  simp only [tryInsert, VM.get_bind]
  rw [VM.bind_ok h1]
  cases r with
  | error er => rfl
  | ok u =>
    have hr := stdInsert_room (e := e) (show l.length < c' by have := (h2.ok rfl).1; omega) i x { w with alloc := a' }
    simp only []
    by_cases hi : l.length < i
    · simp only [hi, if_true] at hr ⊢
      rw [VM.bind_panic hr]
    · simp only [hi, if_false] at hr ⊢
      rw [VM.bind_ok hr]
      rfl

theorem tryAppend_spec {e : Env T} (he : e.OK) {c : Nat} {l : List T} (hc : e.CapOK c) (hl : l.length ≤ c) (c₂ : Nat) (l₂ : List T)
    (w : World T) :
    ∃ r c' a', Reserved e l₂.length l c w r c' a' ∧ tryAppend e (RawVec.of c₂ l₂) ⟨RawVec.of c l, w⟩ =
      match r with
      | .ok () => (.ok (.ok (), RawVec.of c₂ []), ⟨RawVec.of c' (l ++ l₂), { w with alloc := a' }⟩)
      | .error er => (.ok (.error er, RawVec.of c₂ l₂), ⟨RawVec.of c' l, { w with alloc := a' }⟩) := by
  obtain ⟨r, c', a', h1, h2⟩ := tryReserve_spec he hc hl l₂.length w
  refine ⟨r, c', a', h2, ?_⟩
  simp only [tryAppend]
  rw [VM.bind_ok (a := r) (s' := ⟨RawVec.of c' l, { w with alloc := a' }⟩) (by simpa [RawVec.of] using h1)]
  cases r with
  | error er => rfl
  | ok u =>
    have hroom := (h2.ok rfl).1
    have : stdAppend e (RawVec.of c₂ l₂) ⟨RawVec.of c' l, { w with alloc := a' }⟩ =
        (.ok (RawVec.of c₂ []), ⟨RawVec.of c' (l ++ l₂), { w with alloc := a' }⟩) := by
      simp only [stdAppend]
      rw [VM.bind_ok (stdReserve_room (e := e) (n := (RawVec.of c₂ l₂).len) (by simpa [RawVec.of] using hroom) _),
        VM.bind_ok (writeAll_spec _ _ (by rw [items_of]; exact hroom)), items_of]
      simp only [RawVec.of, VM.pure_eq, List.length_nil, List.getElem?_nil]
      have : (fun i => if i < l₂.length then none else l₂[i]?) = fun _ => none := by
        funext i
        by_cases h : i < l₂.length <;> simp [h]
      simp
      exact this
    simp only []
    rw [VM.bind_ok this]
    rfl

end Verif.Vec
