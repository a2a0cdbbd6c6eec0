import Verif.Misc.IoProofs
import Verif.Props.Vec
/-
Reading into and writing to a `TryVec<u8>` (C43, C44).

Reading guide: a source (`Src`) is a script: what its successive `read` calls answer (bytes, "interrupted", an error), as a
function of the buffer size they are offered; after the script it is at end of file.  It logs the bytes it handed out
(`pulled`) and whether it has reported end of file.  `Take` is a stack of `Take` adaptors around a source, possibly empty.
-/
namespace Verif.Props
open Verif Verif.Vec Verif.Misc

variable {e : Env UInt8} {v v₁ : RawVec UInt8} {l : List UInt8} {w w₁ : World UInt8} {t : Take} {chunk : Nat → Nat}

/-- **C43** `try_read_up_to(src, limit, buf)`, for every behaviour of the source and of the allocator and every adaptive
chunk size of std's reading loop: it never panics, makes no allocation request whose failure would abort, and what the source
handed out is exactly what was appended to `buf`, at most `limit` bytes, whether it succeeds or fails.  `Ok(n)`: `n` bytes
were appended, and if `n < limit` the source is at end of file (or an inner `Take` is used up).  `Err`: the limit exceeds
the address space, or the reservation failed (in both cases `buf` is unchanged and the source was not touched), or the
source reported that very error. -/
theorem C43_read_up_to (he : e.OK) (hv : Holds e v l) (ht : t.src.OK) (hk : ∀ i, 0 < chunk i) (limit : Nat) (w : World UInt8) :
    ∃ r t' v' a' bs, tryReadUpTo e chunk limit ⟨t, ⟨v, w⟩⟩ = (.ok r, ⟨t', ⟨v', { w with alloc := a' }⟩⟩) ∧
      Holds e v' (l ++ bs) ∧ t'.src.pulled = t.src.pulled ++ bs ∧ t'.limits = t.limits.map (· - bs.length) ∧
      bs.length ≤ limit ∧
      (∀ n, r = .ok n → n = bs.length ∧ (n < limit → t'.src.eof = true ∨ 0 ∈ t'.limits)) ∧
      (∀ er, r = .error er →
        (er = .limitTooLarge ∧ e.usizeMax < limit ∧ v' = v ∧ t' = t) ∨
        (er = .reserveFailed ∧ (∃ er' s, tryReserve e limit ⟨v, w⟩ = (.ok (.error er'), s)) ∧ v' = v ∧ t' = t) ∨
        (∃ msg, er = .source msg ∧ ∃ ev ∈ t.src.script, ∃ m, ev m = .fail msg)) := by
  by_cases hlim : e.usizeMax < limit
  · refine ⟨.error .limitTooLarge, t, v, w.alloc, [], by simp [tryReadUpTo, hlim], by simpa using hv, by simp, by simp, by simp, by simp, ?_⟩
    rintro er h
    obtain rfl : IoError.limitTooLarge = er := by simpa using h
    exact .inl ⟨rfl, hlim, rfl, rfl⟩
  · obtain ⟨r, c', a', h1, h2⟩ := tryReserve_spec he hv.cap hv.fits limit w
    rw [← hv.eq_of] at h1
    simp only [tryReadUpTo, if_neg hlim, RM.bind_ok (RM.vec_ok h1)]
    cases r with
    | error er' =>
      have hb := Reserved.back hv h2
      refine ⟨.error .reserveFailed, t, v, a', [], by simp [hb], by simpa using hv, by simp, by simp, by simp, by simp, ?_⟩
      rintro er h
      obtain rfl : IoError.reserveFailed = er := by simpa using h
      exact .inr (.inl ⟨rfl, ⟨er', _, h1⟩, rfl, rfl⟩)
    | ok u =>
      obtain ⟨g1, g2, -⟩ := h2.ok rfl
      obtain ⟨r, t', bs, h3, h4, h5⟩ := readToEnd_spec (e := e) hk (t := { t with limits := limit :: t.limits }) ht rfl g1 { w with alloc := a' }
      have h6 := h4.le limit (by simp)
      have h7 := h4.limits
      simp only [List.map_cons] at h7
      refine ⟨r, { t' with limits := t'.limits.tail }, RawVec.of c' (l ++ bs), a', bs, ?_, .of (by simp; omega) g2, h4.pulled, ?_, h6, ?_, ?_⟩
      · simp only [h3]
      · simp [h7]
      · rintro n rfl
        obtain ⟨rfl, h8⟩ := h5
        refine ⟨rfl, fun h9 => ?_⟩
        rcases h8 with h8 | h8
        · exact .inl h8
        · rw [h7] at h8
          right
          simp only [h7, List.tail_cons]
          rcases List.mem_cons.1 h8 with h8 | h8
          · omega
          · exact h8
      · rintro er rfl
        obtain ⟨msg, h8, h9⟩ := h5
        exact .inr (.inr ⟨msg, h8, h9⟩)

/-- **C43** `try_read_to_end` on a `Take` reads up to what is left of its limit. -/
theorem C43_read_to_end {limit : Nat} {ls : List Nat} (hl : t.limits = limit :: ls) (s : St UInt8) :
    tryReadToEnd e chunk ⟨t, s⟩ = tryReadUpTo e chunk limit ⟨t, s⟩ := by
  simp [tryReadToEnd, hl]

/-- **C43** `read_into_try_vec` on a `Take` gives a vector of exactly the bytes the source handed out. -/
theorem C43_read_into_try_vec (he : e.OK) (ht : t.src.OK) (hk : ∀ i, 0 < chunk i) {limit : Nat} {ls : List Nat}
    (hl : t.limits = limit :: ls) {v' : RawVec UInt8} {t' : Take} {w' : World UInt8}
    (h : readIntoTryVec e chunk t w = (.ok (.ok v'), t', w')) :
    ∃ bs, Holds e v' bs ∧ t'.src.pulled = t.src.pulled ++ bs ∧ bs.length ≤ limit ∧
      (bs.length < limit → t'.src.eof = true ∨ 0 ∈ t'.limits) ∧ w'.aborting = w.aborting := by
  obtain ⟨r, t'', v'', a', bs, h1, h2, h3, h4, h5, h6, h7⟩ := C43_read_up_to he (.new e) ht hk limit w
  simp only [readIntoTryVec, C43_read_to_end hl, h1] at h
  cases r with
  | error er => simp at h
  | ok n =>
    simp only [Prod.mk.injEq, Exec.ok.injEq, Except.ok.injEq] at h
    obtain ⟨rfl, rfl, rfl⟩ := h
    obtain ⟨rfl, h8⟩ := h6 n rfl
    exact ⟨bs, by simpa using h2, h3, h5, h8, rfl⟩

theorem cloneU8_all (xs : List UInt8) (a : Alloc) : cloneAll cloneU8 xs a = (xs, .done, a) := by
  induction xs with
  | nil => rfl
  | cons x xs ih => simp [cloneAll, cloneU8] at ih ⊢; simp [ih]

/-- **C44** `write(bs)` on a `TryVec<u8>` is all or nothing: it appends all of `bs` and says so, or it changes nothing and
fails, and that only if the memory for all of `bs` cannot be reserved.  It never panics or aborts. -/
theorem C44_write (he : e.OK) (hv : Holds e v l) (bs : List UInt8) (w : World UInt8) :
    ∃ r v' a' cl mk, write e bs ⟨v, w⟩ = (.ok r, ⟨v', { w with alloc := a', cloned := cl, made := mk }⟩) ∧
      ((r = .ok bs.length ∧ Holds e v' (l ++ bs)) ∨
       (r = .error .extendFailed ∧ v' = v ∧ ∃ er s, tryReserve e bs.length ⟨v, w⟩ = (.ok (.error er), s))) := by
  obtain ⟨r, c', a', h1, h2⟩ := tryExtendFromSliceNoCopy_spec he cloneU8 hv.cap hv.fits bs w
  rw [← hv.eq_of] at h2
  have h3 := h1.run
  rw [← hv.eq_of] at h3
  cases r with
  | error er =>
    simp only [Reserved.back hv h1] at h2
    simp only [write, VM.bind_ok h2]
    exact ⟨_, v, a', w.cloned, w.made, rfl, .inr ⟨rfl, rfl, er, _, h3⟩⟩
  | ok u =>
    obtain ⟨g1, g2, -⟩ := h1.ok rfl
    simp only [clonedOnto, cloneU8_all, Stop.out] at h2
    simp only [write, VM.bind_ok h2]
    exact ⟨_, _, _, _, _, rfl, .inl ⟨rfl, .of (by simp; omega) g2⟩⟩

/-- **C44** With room for the bytes `write` succeeds whatever the allocator does, so `write_all` into a reserved vector does. -/
theorem C44_write_room (he : e.OK) (hv : Holds e v l) (bs : List UInt8) (w : World UInt8) (h : l.length + bs.length ≤ v.cap) :
    ∃ v' a' cl mk, write e bs ⟨v, w⟩ = (.ok (.ok bs.length), ⟨v', { w with alloc := a', cloned := cl, made := mk }⟩) ∧ Holds e v' (l ++ bs) := by
  obtain ⟨r, v', a', cl, mk, h1, h2 | h2⟩ := C44_write he hv bs w
  · obtain ⟨rfl, h3⟩ := h2
    exact ⟨v', a', cl, mk, h1, h3⟩
  · obtain ⟨-, -, er, s, h3⟩ := h2
    have h4 := (reserved_room he hv.cap h w).run
    rw [← hv.eq_of, h3] at h4
    simp at h4

/-! ### concrete cases -/

/-- Bytes on a 64-bit target. -/
def byteEnv : Env UInt8 := ⟨2 ^ 64 - 1, 1, fun c r => max (2 * c) r, fun _ r => r, fun _ => false, true⟩

theorem byteEnv_ok : byteEnv.OK := ⟨fun _ _ => Nat.le_max_right _ _, fun _ _ => Nat.le_refl _⟩

theorem byteHolds {c : Nat} {l : List UInt8} (hl : l.length ≤ c) (hc : c ≤ 2 ^ 32) : Holds byteEnv (RawVec.of c l) l :=
  .of hl ⟨Nat.le_trans hc (by decide), Nat.le_trans (Nat.mul_le_mul_right 1 hc) (by decide), fun h => absurd h (by decide)⟩

/-- A source that delivers short reads, is interrupted, and then fails. -/
def badSource : Src := ⟨[fun m => .data ([1, 2, 3].take m), fun _ => .interrupted, fun m => .data ([4, 5].take m), fun _ => .fail "broken"], [], false⟩

theorem badSource_ok : badSource.OK := by
  intro ev hev m bs h
  simp only [badSource, List.mem_cons, List.not_mem_nil, or_false] at hev
  rcases hev with rfl | rfl | rfl | rfl <;> simp at h <;> subst h <;> simp <;> omega

/-- A limit of 4 is met before the source fails; the inner vector had one byte. -/
example : (let r := tryReadUpTo byteEnv (fun _ => 100) 4 ⟨⟨[], badSource⟩, ⟨RawVec.of 1 [9], ⟨fun _ => true, 0, [], [], []⟩⟩⟩
    (r.1, r.2.s.v.items, r.2.take.src.pulled, r.2.s.w.aborting)) = (.ok (.ok 4), [9, 1, 2, 3, 4], [1, 2, 3, 4], 0) := by decide +kernel

/-- A limit of 9 is not: the error comes out, the bytes delivered stay. -/
example : (let r := tryReadUpTo byteEnv (fun _ => 100) 9 ⟨⟨[], badSource⟩, ⟨RawVec.of 1 [9], ⟨fun _ => true, 0, [], [], []⟩⟩⟩
    (r.1, r.2.s.v.items, r.2.take.src.pulled, r.2.s.w.aborting)) = (.ok (.error (.source "broken")), [9, 1, 2, 3, 4, 5], [1, 2, 3, 4, 5], 0) := by
  decide +kernel

/-- Without memory nothing is read. -/
example : (let r := tryReadUpTo byteEnv (fun _ => 100) 9 ⟨⟨[], badSource⟩, ⟨RawVec.of 1 [9], ⟨fun _ => false, 0, [], [], []⟩⟩⟩
    (r.1, r.2.s.v.items, r.2.take.src.pulled)) = (.ok (.error .reserveFailed), [9], []) := by decide +kernel

example := C43_read_up_to byteEnv_ok (byteHolds (c := 1) (l := [9]) (by decide) (by decide)) badSource_ok (t := ⟨[], badSource⟩)
  (chunk := fun _ => 100) (fun _ => by decide) 9 ⟨fun _ => true, 0, [], [], []⟩

example := C43_read_into_try_vec (t := ⟨[4], badSource⟩) (w := ⟨fun _ => true, 0, [], [], []⟩) byteEnv_ok badSource_ok
  (chunk := fun _ => 100) (fun _ => by decide) rfl rfl

example := C44_write byteEnv_ok (byteHolds (c := 2) (l := [9]) (by decide) (by decide)) [1, 2, 3] ⟨fun _ => false, 0, [], [], []⟩

end Verif.Props
