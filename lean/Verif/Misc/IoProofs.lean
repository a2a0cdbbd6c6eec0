import Verif.Misc.Io
import Verif.Vec.Proofs3
/-
Facts about the reading model.
-/
namespace Verif.Misc
open Verif Verif.Vec

theorem RM.bind_eq {α β : Type} (x : RM α) (f : α → RM β) (s : RSt) : (x >>= f) s =
    match x s with
    | (.ok a, s) => f a s
    | (.ub, s) => (.ub, s)
    | (.panic m, s) => (.panic m, s) := rfl
theorem RM.bind_ok {α β : Type} {x : RM α} {f : α → RM β} {s s' : RSt} {a : α} (h : x s = (.ok a, s')) : (x >>= f) s = f a s' := by
  simp [RM.bind_eq, h]
@[simp] theorem RM.pure_eq {α : Type} (a : α) (s : RSt) : (pure a : RM α) s = (.ok a, s) := rfl
@[simp] theorem RM.get_bind {β : Type} (f : RSt → RM β) (s : RSt) : (RM.get >>= f) s = f s s := rfl
@[simp] theorem RM.pure_bind' {α β : Type} (a : α) (f : α → RM β) : ((pure a : RM α) >>= f) = f a := rfl
theorem RM.vec_ok {α : Type} {x : VM UInt8 α} {t : Take} {s s' : St UInt8} {a : α} (h : x s = (.ok a, s')) :
    RM.vec x ⟨t, s⟩ = (.ok a, ⟨t, s'⟩) := by simp [RM.vec, h]

/-- From the stack `t` the bytes `bs` were read, leaving `t'`. -/
structure Pulled (t : Take) (bs : List UInt8) (t' : Take) : Prop where
  pulled : t'.src.pulled = t.src.pulled ++ bs
  limits : t'.limits = t.limits.map (· - bs.length)
  le : ∀ lim ∈ t.limits, bs.length ≤ lim
  script : ∃ k, t'.src.script = t.src.script.drop k
  eof : t.src.eof = true → t'.src.eof = true

theorem Pulled.refl (t : Take) : Pulled t [] t := ⟨by simp, by simp, by simp, ⟨0, by simp⟩, id⟩

theorem Pulled.trans {t t' t'' : Take} {bs cs} (h : Pulled t bs t') (h' : Pulled t' cs t'') : Pulled t (bs ++ cs) t'' := by
  refine ⟨by rw [h'.pulled, h.pulled]; simp, ?_, ?_, ?_, fun g => h'.eof (h.eof g)⟩
  · rw [h'.limits, h.limits]
    simp only [List.map_map, List.length_append]
    apply List.map_congr_left
    intro lim _
    simp only [Function.comp_apply]; omega
  · intro lim hl
    have h1 := h.le lim hl
    have h2 := h'.le (lim - bs.length) (by rw [h.limits]; exact List.mem_map.2 ⟨lim, hl, rfl⟩)
    rw [List.length_append]; omega
  · obtain ⟨k, hk⟩ := h.script
    obtain ⟨k', hk'⟩ := h'.script
    exact ⟨k + k', by rw [hk', hk, List.drop_drop]⟩

theorem Pulled.ok {t t' : Take} {bs} (h : Pulled t bs t') (hs : t.src.OK) : t'.src.OK := by
  obtain ⟨k, hk⟩ := h.script
  intro ev hev
  rw [hk] at hev
  exact hs ev (List.mem_of_mem_drop hev)

theorem foldr_min_le (limits : List Nat) (m : Nat) : limits.foldr min m ≤ m ∧ ∀ lim ∈ limits, limits.foldr min m ≤ lim := by
  induction limits with
  | nil => simp
  | cons x xs ih =>
    simp only [List.foldr_cons, List.mem_cons]
    refine ⟨by omega, ?_⟩
    rintro lim (rfl | h)
    · omega
    · have := ih.2 lim h; omega

theorem foldr_min_pos {limits : List Nat} {m : Nat} (hm : 0 < m) (h : limits.any (· == 0) = false) : limits.foldr min m ≠ 0 := by
  induction limits with
  | nil => simp; omega
  | cons x xs ih =>
    simp only [List.any_cons, Bool.or_eq_false_iff, beq_eq_false_iff_ne] at h
    have := ih h.2
    simp only [List.foldr_cons]
    omega

/-- The error is one the source reported. -/
def Reported (t : Take) (er : IoError) : Prop := ∃ msg, er = .source msg ∧ ∃ ev ∈ t.src.script, ∃ m, ev m = .fail msg

theorem Pulled.reported {t t' : Take} {bs er} (h : Pulled t bs t') (hr : Reported t' er) : Reported t er := by
  obtain ⟨msg, h1, ev, h2, h3⟩ := hr
  obtain ⟨k, hk⟩ := h.script
  rw [hk] at h2
  exact ⟨msg, h1, ev, List.mem_of_mem_drop h2, h3⟩

/-- One (retried) read. -/
theorem read_spec (t : Take) (ht : t.src.OK) {m : Nat} (hm : 0 < m) (s : St UInt8) :
    ∃ r t', RM.read m ⟨t, s⟩ = (.ok r, ⟨t', s⟩) ∧
      match r with
      | .ok bs => Pulled t bs t' ∧ bs.length ≤ m ∧ (bs = [] → t'.src.eof = true ∨ 0 ∈ t'.limits) ∧
          (bs ≠ [] → t'.src.script.length < t.src.script.length)
      | .error er => Pulled t [] t' ∧ Reported t er := by
  obtain ⟨limits, script, pulled, eof⟩ := t
  suffices H : ∃ r t', Take.readRetry limits m pulled eof script = (r, t') ∧
      match r with
      | .ok bs => Pulled ⟨limits, script, pulled, eof⟩ bs t' ∧ bs.length ≤ m ∧ (bs = [] → t'.src.eof = true ∨ 0 ∈ t'.limits) ∧
          (bs ≠ [] → t'.src.script.length < script.length)
      | .error er => Pulled ⟨limits, script, pulled, eof⟩ [] t' ∧ Reported ⟨limits, script, pulled, eof⟩ er by
    obtain ⟨r, t', h1, h2⟩ := H
    exact ⟨r, t', by simp [RM.read, h1], h2⟩
  induction script with
  | nil =>
    simp only [Take.readRetry]
    cases h0 : limits.any (· == 0) with
    | true =>
      have h0' : (0 : Nat) ∈ limits := by simpa using h0
      exact ⟨_, _, rfl, .refl _, by simp, fun _ => .inr (by simpa using h0'), by simp⟩
    | false =>
      refine ⟨_, _, rfl, ?_, by simp, fun _ => .inl (by simp), by simp⟩
      exact ⟨by simp, by simp, by simp, ⟨0, by simp⟩, by simp⟩
  | cons ev script ih =>
    simp only [Take.readRetry]
    cases h0 : limits.any (· == 0) with
    | true =>
      have h0' : (0 : Nat) ∈ limits := by simpa using h0
      exact ⟨_, _, rfl, .refl _, by simp, fun _ => .inr (by simpa using h0'), by simp⟩
    | false =>
      simp only [Bool.false_eq_true, if_false]
      have hpos := foldr_min_pos hm h0
      have hle := foldr_min_le limits m
      cases hev : ev (limits.foldr min m) with
      | data bs =>
        have hb := ht ev (by simp) _ _ hev
        refine ⟨_, _, rfl, ⟨rfl, rfl, ?_, ⟨1, by simp⟩, by simp +contextual⟩, by omega, ?_, by simp⟩
        · intro lim hl
          have := hle.2 lim hl
          omega
        · rintro rfl
          left
          simp [hpos]
      | interrupted =>
        obtain ⟨r, t', h1, h2⟩ := ih (fun ev' h => ht ev' (List.mem_cons_of_mem _ h))
        refine ⟨r, t', h1, ?_⟩
        have hp : ∀ bs, Pulled ⟨limits, script, pulled, eof⟩ bs t' → Pulled ⟨limits, ev :: script, pulled, eof⟩ bs t' := by
          intro bs h
          obtain ⟨k, hk⟩ := h.script
          exact ⟨h.pulled, h.limits, h.le, ⟨k + 1, by simpa using hk⟩, h.eof⟩
        cases r with
        | ok bs => exact ⟨hp _ h2.1, h2.2.1, h2.2.2.1, fun h => by have := h2.2.2.2 h; simp; omega⟩
        | error er =>
          obtain ⟨msg, h3, ev', h4, h5⟩ := h2.2
          exact ⟨hp _ h2.1, msg, h3, ev', List.mem_cons_of_mem _ h4, h5⟩
      | fail msg => exact ⟨_, _, rfl, ⟨by simp, by simp, by simp, ⟨1, by simp⟩, by simp⟩, msg, rfl, ev, by simp, _, hev⟩

theorem stdExtendFromSlice_room {e : Env UInt8} {c : Nat} {l bs : List UInt8} (h : l.length + bs.length ≤ c) (w : World UInt8) :
    stdExtendFromSlice e bs ⟨RawVec.of c l, w⟩ = (.ok (), ⟨RawVec.of c (l ++ bs), w⟩) := by
  simp only [stdExtendFromSlice]
  rw [VM.bind_ok (stdReserve_room h w), writeAll_spec bs w h]

/-- The probe, when the outermost limit fits into the spare capacity. -/
theorem probe_spec {e : Env UInt8} {lim : Nat} {t : Take} (ht : t.src.OK) (hl : lim ∈ t.limits) {c : Nat} {l : List UInt8}
    (hc : l.length + lim ≤ c) (w : World UInt8) :
    ∃ r t' bs, probe e ⟨t, ⟨RawVec.of c l, w⟩⟩ = (.ok r, ⟨t', ⟨RawVec.of c (l ++ bs), w⟩⟩) ∧ Pulled t bs t' ∧
      match r with
      | .ok n => n = bs.length ∧ (n = 0 → t'.src.eof = true ∨ 0 ∈ t'.limits) ∧ (n ≠ 0 → t'.src.script.length < t.src.script.length)
      | .error er => bs = [] ∧ Reported t er := by
  obtain ⟨r, t', h1, h2⟩ := read_spec t ht (m := 32) (by decide) ⟨RawVec.of c l, w⟩
  simp only [probe, RM.bind_ok h1]
  cases r with
  | error er => exact ⟨.error er, t', [], by simp, h2.1, rfl, h2.2⟩
  | ok bs =>
    have h3 := h2.1.le lim hl
    simp only []
    rw [RM.bind_ok (RM.vec_ok (stdExtendFromSlice_room (by omega) w))]
    exact ⟨.ok bs.length, t', bs, rfl, h2.1, rfl, fun h => h2.2.2.1 (List.length_eq_zero_iff.1 h),
      fun h => h2.2.2.2 (fun h' => h (by simp [h']))⟩

/-- Reading into the spare capacity. -/
theorem readInto_spec {t : Take} (ht : t.src.OK) {c : Nat} {l : List UInt8} (hc : l.length < c) {chunk : Nat} (hk : 0 < chunk)
    (w : World UInt8) :
    ∃ r t' bs, readInto chunk ⟨t, ⟨RawVec.of c l, w⟩⟩ = (.ok r, ⟨t', ⟨RawVec.of c (l ++ bs), w⟩⟩) ∧ Pulled t bs t' ∧
      match r with
      | .ok n => n = bs.length ∧ (n = 0 → t'.src.eof = true ∨ 0 ∈ t'.limits) ∧ (n ≠ 0 → t'.src.script.length < t.src.script.length)
      | .error er => bs = [] ∧ Reported t er := by
  simp only [readInto, RM.get_bind]
  have hm : 0 < min ((RawVec.of c l).cap - (RawVec.of c l).len) chunk := by simp [RawVec.of]; omega
  obtain ⟨r, t', h1, h2⟩ := read_spec t ht hm ⟨RawVec.of c l, w⟩
  rw [RM.bind_ok h1]
  cases r with
  | error er => exact ⟨.error er, t', [], by simp, h2.1, rfl, h2.2⟩
  | ok bs =>
    have h3 := h2.2.1
    have h4 : l.length + bs.length ≤ c := by simp only [RawVec.of] at h3; omega
    simp only []
    rw [RM.bind_ok (RM.vec_ok (writeAll_spec bs w h4))]
    exact ⟨.ok bs.length, t', bs, rfl, h2.1, rfl, fun h => h2.2.2.1 (List.length_eq_zero_iff.1 h),
      fun h => h2.2.2.2 (fun h' => h (by simp [h']))⟩

/-- How a reading function ends: `bs` was read into the buffer and the result is its length with nothing left to read, or the
source failed. -/
def Ended (t t' : Take) (n : Nat) : Except IoError Nat → Prop
  | .ok k => k = n ∧ (t'.src.eof = true ∨ 0 ∈ t'.limits)
  | .error er => Reported t er

theorem Pulled.ended {t t' t'' : Take} {bs n r} (h : Pulled t bs t') (hr : Ended t' t'' n r) : Ended t t'' n r := by
  cases r with
  | ok k => exact hr
  | error er => exact h.reported hr

theorem readLoop_spec {e : Env UInt8} {chunk : Nat → Nat} (hk : ∀ i, 0 < chunk i) (fuel : Nat) {t : Take} (ht : t.src.OK) {lim : Nat} {ls : List Nat}
    (hl : t.limits = lim :: ls) {c : Nat} {l : List UInt8} (hc : l.length + lim ≤ c) (hf : t.src.script.length < fuel) (startLen : Nat)
    (hs : startLen ≤ l.length) (w : World UInt8) :
    ∃ r t' bs, readLoop e chunk startLen c fuel ⟨t, ⟨RawVec.of c l, w⟩⟩ = (.ok r, ⟨t', ⟨RawVec.of c (l ++ bs), w⟩⟩) ∧ Pulled t bs t' ∧
      Ended t t' (l.length + bs.length - startLen) r := by
  induction fuel generalizing t lim ls l with
  | zero => omega
  | succ fuel ih =>
    have hlm : lim ∈ t.limits := by rw [hl]; simp
    simp only [readLoop, RM.get_bind]
    by_cases hfull : l.length = c
    · -- full: the limit is used up, so the probe reads nothing
      have h1 : (RawVec.of c l).len = (RawVec.of c l).cap ∧ (RawVec.of c l).cap = c := ⟨hfull, rfl⟩
      rw [if_pos h1]
      obtain ⟨r, t', bs, h2, h3, h4⟩ := probe_spec (e := e) ht hlm hc w
      have hz : bs = [] := by
        have := h3.le lim hlm
        exact List.length_eq_zero_iff.1 (by omega)
      subst hz
      rw [RM.bind_ok h2]
      cases r with
      | error er => exact ⟨.error er, t', [], by simp, h3, h4.2⟩
      | ok n =>
        obtain ⟨rfl, h5, _⟩ := h4
        exact ⟨.ok (l.length - startLen), t', [], by simp [RawVec.of], h3, by simp, by simpa using h5⟩
    · have hlt : l.length < c := by omega
      have h1 : ¬ ((RawVec.of c l).len = (RawVec.of c l).cap ∧ (RawVec.of c l).cap = c) := fun h => hfull h.1
      rw [if_neg h1]
      simp only [RM.pure_bind', RM.get_bind]
      have h1' : ¬ (RawVec.of c l).len = (RawVec.of c l).cap := hfull
      rw [if_neg h1']
      simp only [RM.pure_bind']
      obtain ⟨r, t', bs, h2, h3, h4⟩ := readInto_spec ht hlt (hk fuel) w
      rw [RM.bind_ok h2]
      cases r with
      | error er =>
        obtain ⟨rfl, h5⟩ := h4
        exact ⟨.error er, t', [], by simp, h3, h5⟩
      | ok n =>
        obtain ⟨rfl, h5, h6⟩ := h4
        cases bs with
        | nil => exact ⟨.ok (l.length - startLen), t', [], by simp [RawVec.of], h3, by simp, h5 rfl⟩
        | cons b bs =>
          simp only [List.length_cons]
          have h7 := h6 (by simp)
          have h8 := h3.le lim hlm
          have hl' : t'.limits = (lim - (b :: bs).length) :: ls.map (· - (b :: bs).length) := by rw [h3.limits, hl]; rfl
          obtain ⟨r', t'', bs', g1, g2, g3⟩ := ih (t := t') (lim := lim - (b :: bs).length) (l := l ++ b :: bs) (h3.ok ht) hl'
            (by rw [List.length_append]; omega) (by omega) (by rw [List.length_append]; omega)
          refine ⟨r', t'', (b :: bs) ++ bs', ?_, h3.trans g2, ?_⟩
          · rw [g1, List.append_assoc]
          · have he : l.length + ((b :: bs) ++ bs').length - startLen = (l ++ b :: bs).length + bs'.length - startLen := by
              simp only [List.length_append]; omega
            rw [he]; exact h3.ended g3

theorem readToEnd_spec {e : Env UInt8} {chunk : Nat → Nat} (hk : ∀ i, 0 < chunk i) {t : Take} (ht : t.src.OK) {lim : Nat} {ls : List Nat}
    (hl : t.limits = lim :: ls) {c : Nat} {l : List UInt8} (hc : l.length + lim ≤ c) (w : World UInt8) :
    ∃ r t' bs, readToEnd e chunk ⟨t, ⟨RawVec.of c l, w⟩⟩ = (.ok r, ⟨t', ⟨RawVec.of c (l ++ bs), w⟩⟩) ∧ Pulled t bs t' ∧
      Ended t t' bs.length r := by
  have hlm : lim ∈ t.limits := by rw [hl]; simp
  simp only [readToEnd, RM.get_bind]
  by_cases hsmall : (RawVec.of c l).cap - (RawVec.of c l).len < 32
  · rw [if_pos hsmall]
    obtain ⟨r, t', bs, h2, h3, h4⟩ := probe_spec (e := e) ht hlm hc w
    rw [RM.bind_ok h2]
    cases r with
    | error er =>
      obtain ⟨rfl, h5⟩ := h4
      exact ⟨.error er, t', [], by simp, h3, h5⟩
    | ok n =>
      obtain ⟨rfl, h5, h6⟩ := h4
      cases bs with
      | nil => exact ⟨.ok 0, t', [], by simp, h3, by simp, h5 rfl⟩
      | cons b bs =>
        simp only [List.length_cons]
        have h7 := h6 (by simp)
        have h8 := h3.le lim hlm
        have hl' : t'.limits = (lim - (b :: bs).length) :: ls.map (· - (b :: bs).length) := by rw [h3.limits, hl]; rfl
        obtain ⟨r', t'', bs', g1, g2, g3⟩ := readLoop_spec (e := e) hk (t.src.script.length + 1) (t := t')
          (lim := lim - (b :: bs).length) (l := l ++ b :: bs) (c := c) (h3.ok ht) hl'
          (by rw [List.length_append]; omega) (by omega) l.length (by rw [List.length_append]; omega) w
        refine ⟨r', t'', (b :: bs) ++ bs', ?_, h3.trans g2, ?_⟩
        · rw [← List.append_assoc]; exact g1
        · have he : ((b :: bs) ++ bs').length = (l ++ b :: bs).length + bs'.length - l.length := by
            simp only [List.length_append]; omega
          rw [he]; exact h3.ended g3
  · rw [if_neg hsmall]
    simp only [RM.pure_bind']
    obtain ⟨r', t'', bs', g1, g2, g3⟩ := readLoop_spec (e := e) hk (t.src.script.length + 1) ht hl hc (by omega) l.length (by omega) w
    exact ⟨r', t'', bs', g1, g2, by rwa [Nat.add_sub_cancel_left] at g3⟩

end Verif.Misc
