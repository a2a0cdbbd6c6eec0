import Verif.Misc.Format
import Verif.Props.Io
/-
`try_format` (C45).
-/
namespace Verif.Props
open Verif Verif.Vec Verif.Misc

variable {e : Env UInt8}

/-! ### specification -/

/-- The text a formatting run produces before it ends. -/
def textOf : List Piece → List UInt8
  | .text bs :: ps => bs ++ textOf ps
  | _ => []

/-- The panic a formatting run ends with, if it does not complete. -/
def faultOf : List Piece → Option String
  | [] => none
  | .text _ :: ps => faultOf ps
  | .fail :: _ => some "a formatting trait implementation returned an error"
  | .panics m :: _ => some m

/-! ### proofs -/

theorem writeFmt_fits {c : Nat} (ps : List Piece) {l : List UInt8} (w : World UInt8) (h : l.length + (textOf ps).length ≤ c) :
    (do let ok ← writeFmt e ps
        if ok then pure (.ok ()) else VM.panic "a formatting trait implementation returned an error" : VM UInt8 (Res Unit)) ⟨RawVec.of c l, w⟩
      = (match faultOf ps with | none => .ok (.ok ()) | some m => .panic m, ⟨RawVec.of c (l ++ textOf ps), w⟩) := by
  induction ps generalizing l with
  | nil => simp [writeFmt, faultOf, textOf]
  | cons p ps ih =>
    cases p with
    | text bs =>
      simp only [textOf, List.length_append] at h
      have h1 := ih (l := l ++ bs) (by rw [List.length_append]; omega)
      simp only [writeFmt, faultOf, textOf, ← List.append_assoc, ← h1]
      simp only [VM.bind_eq]
      rw [stdExtendFromSlice_room (by omega)]
    | fail => simp [writeFmt, faultOf, textOf, VM.panic]
    | panics m => simp [writeFmt, faultOf, textOf, VM.panic, VM.bind_eq]

/-- `extend_from_slice` when there is no room: an infallible request. -/
theorem stdExtendFromSlice_grow (he : e.OK) {c : Nat} {l bs : List UInt8} (hl : l.length ≤ c) (w : World UInt8) (h : c < l.length + bs.length) :
    (∃ c' a', stdExtendFromSlice e bs ⟨RawVec.of c l, w⟩ =
        (.ok (), ⟨RawVec.of c' (l ++ bs), { w with alloc := a', aborting := w.aborting + 1 }⟩) ∧ l.length + bs.length ≤ c' ∧ e.CapOK c' ∧ w.alloc 0 = true) ∨
    (∃ m a', stdExtendFromSlice e bs ⟨RawVec.of c l, w⟩ = (.panic m, ⟨RawVec.of c l, { w with alloc := a', aborting := w.aborting + 1 }⟩)) := by
  obtain ⟨r, c', a', h1, h2⟩ := growFor_spec (e := e) (policy := e.grow) he.grow bs.length (l := l) (c := c)
    { w with aborting := w.aborting + 1 } (by omega) hl
  have hn : ¬ bs.length ≤ (RawVec.of c l).cap - (RawVec.of c l).len := by simp [RawVec.of]; omega
  simp only [stdExtendFromSlice]
  rcases r with er | u
  · right
    have hc := h2.err er rfl
    cases er
    · exact ⟨"capacity overflow", a', by simp [VM.bind_eq, stdReserve, hn, h1, hc]⟩
    · exact ⟨"memory allocation failed", a', by simp [VM.bind_eq, stdReserve, hn, h1, hc]⟩
  · left
    obtain ⟨g1, g2, -⟩ := h2.ok rfl
    refine ⟨c', a', ?_, g1, g2, ?_⟩
    · rw [VM.bind_ok (s' := ⟨RawVec.of c' l, { w with alloc := a', aborting := w.aborting + 1 }⟩) (a := ())]
      · exact writeAll_spec bs _ g1
      · simp [stdReserve, hn, h1]
    · simp only [growFor, growTo, Alloc.request] at h1
      split at h1
      · simp at h1
      · split at h1
        · simp at h1
        · split at h1
          · simp at h1
          · cases ha : w.alloc 0 with
            | true => rfl
            | false => simp [ha] at h1

/-- Whatever happens, a completed run has written the text, and one that needed more room asked for it infallibly. -/
theorem writeFmt_any (he : e.OK) (ps : List Piece) {c : Nat} {l : List UInt8} (hl : l.length ≤ c) (hc : e.CapOK c) (w : World UInt8) :
    ∃ r c' l' a' n, writeFmt e ps ⟨RawVec.of c l, w⟩ = (r, ⟨RawVec.of c' l', { w with alloc := a', aborting := w.aborting + n }⟩) ∧
      l'.length ≤ c' ∧ e.CapOK c' ∧ r ≠ .ub ∧
      (r = .ok true → l' = l ++ textOf ps ∧ faultOf ps = none) ∧
      (r = .ok false → faultOf ps ≠ none) ∧
      (c < l.length + (textOf ps).length → 0 < n ∧ (w.alloc 0 = false → ∃ m, r = .panic m)) := by
  induction ps generalizing c l w with
  | nil => exact ⟨.ok true, c, l, w.alloc, 0, by simp [writeFmt], hl, hc, by simp, by simp [textOf, faultOf], by simp, by simp [textOf]; omega⟩
  | cons p ps ih =>
    cases p with
    | fail => exact ⟨.ok false, c, l, w.alloc, 0, by simp [writeFmt], hl, hc, by simp, by simp, by simp [faultOf], by simp [textOf]; omega⟩
    | panics m => exact ⟨.panic m, c, l, w.alloc, 0, by simp [writeFmt, VM.panic], hl, hc, by simp, by simp, by simp, by simp [textOf]; omega⟩
    | text bs =>
      simp only [writeFmt]
      by_cases hr : l.length + bs.length ≤ c
      · obtain ⟨r, c', l', a', n, h1, h2, h3, h4, h5, h6, h7⟩ := ih (c := c) (l := l ++ bs) (by simpa using hr) hc w
        refine ⟨r, c', l', a', n, ?_, h2, h3, h4, ?_, h6, ?_⟩
        · rw [VM.bind_ok (stdExtendFromSlice_room hr w)]; exact h1
        · intro h; have := h5 h; simp [textOf, faultOf, this.1, this.2]
        · intro h; apply h7; simp [textOf] at h ⊢; omega
      · rcases stdExtendFromSlice_grow he (bs := bs) hl w (by omega) with ⟨c₁, a₁, g1, g2, g3, g4⟩ | ⟨m, a₁, g1⟩
        · obtain ⟨r, c', l', a', n, h1, h2, h3, h4, h5, h6, h7⟩ := ih (c := c₁) (l := l ++ bs) (by simpa using g2) g3
            { w with alloc := a₁, aborting := w.aborting + 1 }
          refine ⟨r, c', l', a', n + 1, ?_, h2, h3, h4, ?_, h6, ?_⟩
          · rw [VM.bind_ok g1, h1]; simp [Nat.add_comm n 1, Nat.add_assoc]
          · intro h; have := h5 h; simp [textOf, faultOf, this.1, this.2]
          · intro h; exact ⟨by omega, fun h' => by simp [g4] at h'⟩
        · refine ⟨.panic m, c, l, a₁, 1, by rw [VM.bind_panic g1], hl, hc, by simp, by simp, by simp, fun _ => ⟨by decide, fun _ => ⟨m, rfl⟩⟩⟩

/-- **C45** If the whole text fits into the requested capacity, `try_format` makes exactly the one fallible request: `Err` iff
it is refused (and then nothing was formatted); otherwise, with no further request of any kind, the text, or the panic of
the formatting run. -/
theorem C45_fits (he : e.OK) (cap : Nat) (ps : List Piece) (w : World UInt8) (hfit : (textOf ps).length ≤ cap) {r w₁}
    (hr : tryWithCapacity e cap w = (.ok r, w₁)) :
    (∀ er, r = .error er → tryFormat e cap ps w = (.ok (.error er), w₁)) ∧
    (∀ v, r = .ok v → faultOf ps = none → ∃ v', Holds e v' (textOf ps) ∧ tryFormat e cap ps w = (.ok (.ok v'), w₁)) ∧
    (∀ v m, r = .ok v → faultOf ps = some m → tryFormat e cap ps w = (.panic m, w₁.dropMany (textOf ps))) ∧
    w₁.aborting = w.aborting := by
  obtain ⟨r', c', a', h1, h2⟩ := tryWithCapacity_spec he cap w
  rw [hr] at h2
  rcases r' with er | u
  · simp only [Prod.mk.injEq, Exec.ok.injEq] at h2
    obtain ⟨rfl, rfl⟩ := h2
    refine ⟨?_, by simp, by simp, rfl⟩
    rintro er' h
    obtain rfl : er = er' := by simpa using h
    simp [tryFormat, hr]
  · simp only [Prod.mk.injEq, Exec.ok.injEq] at h2
    obtain ⟨rfl, rfl⟩ := h2
    obtain ⟨g1, g2, -⟩ := h1.ok rfl
    have h3 := writeFmt_fits (e := e) (c := c') ps (l := []) { w with alloc := a' } (by simp at g1 ⊢; omega)
    have h4 := building_spec (e := e) h3
    have h5 : tryFormat e cap ps w = buildOut e c' ([] ++ textOf ps) { w with alloc := a' }
        (match faultOf ps with | none => .ok (.ok ()) | some m => .panic m) := by
      rw [← h4]; simp only [tryFormat, hr]
    refine ⟨by simp, ?_, ?_, rfl⟩
    · intro v hv hf
      refine ⟨RawVec.of c' (textOf ps), .of (by simp at g1; omega) g2, ?_⟩
      rw [h5]; simp [hf, buildOut]
    · intro v m hv hf
      rw [h5]; simp [hf, buildOut, World.dropMany]

/-- **C45** Whatever the capacity: if `try_format` returns `Ok(s)`, then `s` is exactly the formatted text and no `Display`
implementation failed; and it never commits undefined behaviour. -/
theorem C45_correct (he : e.OK) (cap : Nat) (ps : List Piece) (w : World UInt8) :
    (tryFormat e cap ps w).1 ≠ .ub ∧
    ∀ v w', tryFormat e cap ps w = (.ok (.ok v), w') → Holds e v (textOf ps) ∧ faultOf ps = none := by
  obtain ⟨r', c', a', h1, h2⟩ := tryWithCapacity_spec he cap w
  rcases r' with er | u
  · simp only [] at h2
    simp [tryFormat, h2]
  · simp only [] at h2
    obtain ⟨g1, g2, -⟩ := h1.ok rfl
    obtain ⟨r, c₂, l₂, a₂, n, h3, h4, h5, h6, h7, h8, -⟩ := writeFmt_any he ps (l := []) (c := c') (Nat.zero_le _) g2 { w with alloc := a' }
    simp only [tryFormat, h2]
    rcases r with ok | _ | m
    · cases ok
      · rw [building_spec (show _ = (Exec.panic "a formatting trait implementation returned an error", _) from by
          rw [VM.bind_ok h3]; rfl)]
        simp [buildOut]
      · rw [building_spec (show _ = (Exec.ok (.ok ()), _) from by rw [VM.bind_ok h3]; rfl)]
        simp only [buildOut]
        refine ⟨by simp, ?_⟩
        intro v w' h
        simp only [Prod.mk.injEq, Exec.ok.injEq, Except.ok.injEq] at h
        obtain ⟨rfl, rfl⟩ := h
        have := h7 rfl
        exact ⟨by rw [← List.nil_append (textOf ps), ← this.1]; exact .of h4 h5, this.2⟩
    · simp at h6
    · rw [building_spec (show _ = (Exec.panic m, _) from by rw [VM.bind_panic h3])]
      simp [buildOut]

/-- **C45** If the text does not fit into the capacity that was obtained, `try_format` makes an allocation request whose
failure it cannot report: with an allocator that refuses it, it panics (aborts). -/
theorem C45_exceeds (he : e.OK) (cap : Nat) (ps : List Piece) (w : World UInt8) {v w₁} (hr : tryWithCapacity e cap w = (.ok (.ok v), w₁))
    (hx : v.cap < (textOf ps).length) :
    w.aborting < (tryFormat e cap ps w).2.aborting ∧ (w₁.alloc 0 = false → ∃ m, (tryFormat e cap ps w).1 = .panic m) := by
  obtain ⟨r', c', a', h1, h2⟩ := tryWithCapacity_spec he cap w
  rw [hr] at h2
  rcases r' with er | u
  · simp at h2
  · simp only [Prod.mk.injEq, Exec.ok.injEq, Except.ok.injEq] at h2
    obtain ⟨rfl, rfl⟩ := h2
    obtain ⟨g1, g2, -⟩ := h1.ok rfl
    obtain ⟨r, c₂, l₂, a₂, n, h3, h4, h5, h6, h7, h8, h9⟩ := writeFmt_any he ps (l := []) (c := c') (Nat.zero_le _) g2 { w with alloc := a' }
    have h10 := h9 (by simpa [RawVec.of] using hx)
    simp only [tryFormat, hr]
    rcases r with ok | _ | m
    · cases ok
      · rw [building_spec (show _ = (Exec.panic "a formatting trait implementation returned an error", _) from by
          rw [VM.bind_ok h3]; rfl)]
        exact ⟨by simp only [buildOut, World.dropMany]; omega, fun h => by obtain ⟨m, hm⟩ := h10.2 h; simp at hm⟩
      · rw [building_spec (show _ = (Exec.ok (.ok ()), _) from by rw [VM.bind_ok h3]; rfl)]
        exact ⟨by simp only [buildOut, World.dropMany]; omega, fun h => by obtain ⟨m, hm⟩ := h10.2 h; simp at hm⟩
    · simp at h6
    · rw [building_spec (show _ = (Exec.panic m, _) from by rw [VM.bind_panic h3])]
      exact ⟨by simp only [buildOut, World.dropMany]; omega, fun h => ⟨m, rfl⟩⟩

/-! ### concrete cases: `tryformat!(3, "{}", 123)`, too small a capacity, a failing `Display` -/

example : (let r := tryFormat byteEnv 3 [.text [49], .text [50, 51]] ⟨fun n => n == 0, 0, [], [], []⟩
    ((match r.1 with | .ok (.ok v) => v.items | _ => []), r.2.aborting)) = ([49, 50, 51], 0) := by decide +kernel
example : (let r := tryFormat byteEnv 2 [.text [49], .text [50, 51]] ⟨fun n => n == 0, 0, [], [], []⟩
    ((match r.1 with | .panic m => m | _ => ""), r.2.aborting)) = ("memory allocation failed", 1) := by decide +kernel
example := (C45_fits byteEnv_ok 3 [.text [49], .text [50, 51]] ⟨fun _ => true, 0, [], [], []⟩ (by decide) rfl).2.1 _ rfl rfl
example := (C45_fits byteEnv_ok 3 [.text [49], .fail] ⟨fun _ => true, 0, [], [], []⟩ (by decide) rfl).2.2.1 _ _ rfl rfl
example := C45_exceeds byteEnv_ok 2 [.text [49], .text [50, 51]] ⟨fun n => n == 0, 0, [], [], []⟩ rfl (by decide)

end Verif.Props
