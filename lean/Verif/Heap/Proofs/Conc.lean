import Verif.Heap.Proofs.StepsAll
import Verif.Heap.Proofs.Program
/-
Threads: what one thread may do to its part of the memory while the others do what they like to theirs.
-/
namespace Verif.Heap
open Verif
open Verif.BTree (Map)
open Verif.Spec (Op Out)

variable {K V Q α β : Type}

/-- A part of the memory. -/
abbrev Cells (K V : Type) := Addr → Option (Node K V)

/-- With the nodes `w` of its own and the nodes `ro` to look at, `t` ends as described by `F` or is unwound as described by `E`, wherever new nodes are put (somewhere where
it sees nothing), and whatever the allocator answers (it never refuses if `mem`). -/
def Prog.Fine (ro : Cells K V) (mem : Prop) (E : String → Prop) (F : α → Cells K V → Prop) : Prog K V α → Cells K V → Prop
  | .done a, w => F a w
  | .ub, _ => False
  | .panic msg, _ => E msg
  | .read a k, w => a ≠ SHARED ∧ ∃ nd, (w a = some nd ∨ ro a = some nd) ∧ (k nd).Fine ro mem E F w
  | .write a nd k, w => a ≠ SHARED ∧ (∃ nd', w a = some nd') ∧ k.Fine ro mem E F (upd w a (some nd))
  | .alloc lay k, w => (∀ a, a ≠ SHARED → w a = none → ro a = none → (k (some a)).Fine ro mem E F (upd w a (some (Node.new lay)))) ∧ (¬ mem → (k none).Fine ro mem E F w)
  | .free a lay k, w => a ≠ SHARED ∧ (∃ nd, w a = some nd ∧ nd.lay = lay) ∧ k.Fine ro mem E F (upd w a none)

variable {ro : Cells K V} {mem : Prop} {E : String → Prop}

theorem Prog.Fine.bind {F : α → Cells K V → Prop} {G : β → Cells K V → Prop} {f : α → Prog K V β} {t : Prog K V α} :
    ∀ {w : Cells K V}, t.Fine ro mem E F w → (∀ a w, F a w → (f a).Fine ro mem E G w) → (t.bind f).Fine ro mem E G w := by
  induction t with
  | done a => exact fun h hf => hf _ _ h
  | ub => exact fun h _ => h
  | panic msg => exact fun h _ => h
  | read a k ih => exact fun ⟨h1, nd, h2, h3⟩ hf => ⟨h1, nd, h2, ih nd h3 hf⟩
  | write a nd k ih => exact fun ⟨h1, h2, h3⟩ hf => ⟨h1, h2, ih h3 hf⟩
  | alloc lay k ih => exact fun ⟨h1, h2⟩ hf => ⟨fun a ha hw hr => ih _ (h1 a ha hw hr) hf, fun hm => ih _ (h2 hm) hf⟩
  | free a lay k ih => exact fun ⟨h1, h2, h3⟩ hf => ⟨h1, h2, ih h3 hf⟩

theorem Prog.Fine.weaken {F F' : α → Cells K V → Prop} {E' : String → Prop} {t : Prog K V α} (hE : ∀ msg, E msg → E' msg) (hF : ∀ a w, F a w → F' a w) :
    ∀ {w : Cells K V}, t.Fine ro mem E F w → t.Fine ro mem E' F' w := by
  induction t with
  | done a => exact fun h => hF _ _ h
  | ub => exact fun h => h
  | panic msg => exact fun h => hE _ h
  | read a k ih => exact fun ⟨h1, nd, h2, h3⟩ => ⟨h1, nd, h2, ih nd h3⟩
  | write a nd k ih => exact fun ⟨h1, h2, h3⟩ => ⟨h1, h2, ih h3⟩
  | alloc lay k ih => exact fun ⟨h1, h2⟩ => ⟨fun a ha hw hr => ih _ (h1 a ha hw hr), fun hm => ih _ (h2 hm)⟩
  | free a lay k ih => exact fun ⟨h1, h2, h3⟩ => ⟨h1, h2, ih h3⟩

/-! ### the accesses in a row -/

theorem whole_read {a : Addr} {k : Node K V → Prog K V α} {s : Heap K V} : (Prog.read a k).whole s = if a = SHARED then .ub else match s.cells a with
    | some n => (k n).whole s
    | none => .ub := getNode_bind ..

theorem whole_write {a : Addr} {nd : Node K V} {k : Prog K V α} {s : Heap K V} : (Prog.write a nd k).whole s = if a = SHARED then .ub else match s.cells a with
    | some _ => k.whole { s with cells := upd s.cells a (some nd) }
    | none => .ub := by
  show HM.bind (atNode a _) _ s = _
  unfold HM.bind atNode
  by_cases h : a = SHARED
  · simp [h]
  · rw [if_neg h, if_neg h]; cases s.cells a <;> rfl

theorem whole_alloc {lay : Layout} {k : Option Addr → Prog K V α} {s : Heap K V} : (Prog.alloc lay k).whole s = if s.alloc.request.1 then
    (k (some s.spot)).whole ⟨upd s.cells s.spot (some (Node.new lay)), s.nextAfter, s.alloc.request.2, fun n => s.place (n + 1)⟩
    else (k none).whole { s with alloc := s.alloc.request.2 } := by
  show HM.bind (allocNode lay) _ s = _
  unfold HM.bind allocNode
  by_cases h : s.alloc.request.1 = true
  · simp only [h, if_true]; rfl
  · simp only [h]; rfl

theorem whole_free {a : Addr} {lay : Layout} {k : Prog K V α} {s : Heap K V} : (Prog.free a lay k).whole s = if a = SHARED then .ub else match s.cells a with
    | some n => if n.lay = lay then k.whole { s with cells := upd s.cells a none } else .ub
    | none => .ub := by
  show HM.bind (freeNode a lay) _ s = _
  unfold HM.bind freeNode
  by_cases h : a = SHARED
  · simp [h]
  · rw [if_neg h, if_neg h]
    cases s.cells a with
    | none => rfl
    | some n => dsimp only; by_cases h2 : n.lay = lay <;> simp [h2] <;> rfl

/-- One more answer in front. -/
def first (b : Bool) (al : Alloc) : Alloc
  | 0 => b
  | n + 1 => al n

theorem first_request {b : Bool} {al : Alloc} : (first b al).request = (b, al) := rfl

theorem first_good {al : Alloc} (h : al.Good) : (first true al).Good
  | 0 => rfl
  | n + 1 => h n

/-- One more address in front. -/
def firstPlace (a : Addr) (pl : Nat → Addr) : Nat → Addr
  | 0 => a
  | n + 1 => pl n

/-- The allocator puts the node where it likes. -/
theorem spot_first {w : Cells K V} {next : Nat} {al : Alloc} {a : Addr} {pl : Nat → Addr} (ha : a ≠ SHARED) (hw : w a = none) : (⟨w, next, al, firstPlace a pl⟩ : Heap K V).spot = a := by
  unfold Heap.spot
  rw [if_pos]
  · rfl
  · exact ⟨ha, by show (w a).isNone = true; rw [hw]; rfl⟩

theorem nextAfter_first {w : Cells K V} {next : Nat} {al : Alloc} {a : Addr} {pl : Nat → Addr} (ha : a ≠ SHARED) (hw : w a = none) (hn : a < next) :
    (⟨w, next, al, firstPlace a pl⟩ : Heap K V).nextAfter = next := by
  unfold Heap.nextAfter
  rw [spot_first ha hw]
  exact Nat.max_eq_left hn

/-- Allocating at `a`. -/
theorem whole_first {w : Cells K V} {next : Nat} {al : Alloc} {a : Addr} {pl : Nat → Addr} {lay : Layout} {k : Option Addr → Prog K V α} (ha : a ≠ SHARED) (hw : w a = none) (hn : a < next) :
    (Prog.alloc lay k).whole ⟨w, next, first true al, firstPlace a pl⟩ = (k (some a)).whole ⟨upd w a (some (Node.new lay)), next, al, pl⟩ := by
  rw [whole_alloc, if_pos (show (first true al).request.1 = true from rfl), spot_first ha hw, nextAfter_first ha hw hn]
  rfl

theorem step_first {w : Cells K V} {next : Nat} {al : Alloc} {a : Addr} {pl : Nat → Addr} {lay : Layout} {k : Option Addr → Prog K V α} (ha : a ≠ SHARED) (hw : w a = none) (hn : a < next) :
    (Prog.alloc lay k).step ⟨w, next, first true al, firstPlace a pl⟩ = some (k (some a), ⟨upd w a (some (Node.new lay)), next, al, pl⟩) := by
  simp only [Prog.step]
  rw [if_pos (show (first true al).request.1 = true from rfl), spot_first ha hw, nextAfter_first ha hw hn]
  rfl

/-- Nothing is allocated from `n` on, and nothing at the shared root's address. -/
def Below (w : Cells K V) (n : Nat) : Prop := (∀ x, n ≤ x → w x = none) ∧ w SHARED = none ∧ 0 < n

theorem Below.upd_old {w : Cells K V} {n : Nat} (h : Below w n) {a : Addr} (ha : a ≠ SHARED) {nd nd'} (hw : w a = some nd) : Below (upd w a nd') n := by
  refine ⟨fun x hx => ?_, ?_, h.2.2⟩
  · unfold upd
    by_cases hxa : x = a
    · subst hxa; rw [h.1 x hx] at hw; cases hw
    · rw [if_neg hxa]; exact h.1 x hx
  · unfold upd; rw [if_neg fun e => ha e.symm]; exact h.2.1

theorem Below.upd_new {w : Cells K V} {n : Nat} (h : Below w n) {a : Addr} (ha : a ≠ SHARED) {nd} : Below (upd w a nd) (max n (a + 1)) := by
  refine ⟨fun x hx => ?_, ?_, by have := h.2.2; omega⟩
  · have hx' : max n (a + 1) ≤ x := hx
    unfold upd; rw [if_neg fun e => by subst e; exact absurd (Nat.le_trans (Nat.le_max_right ..) hx') (Nat.not_succ_le_self _)]; exact h.1 x (by omega)
  · unfold upd
    rw [if_neg fun e => ha e.symm]; exact h.2.1

/-- The bound of the memory before an allocation at `a`. -/
theorem Below.before {w : Cells K V} {n : Nat} {a : Addr} (ha : a ≠ SHARED) (hw : w a = none) {nd} (h : Below (upd w a (some nd)) n) : Below w n ∧ a < n := by
  have hlt : a < n := by
    refine Nat.lt_of_not_le fun hle => ?_
    have := h.1 a hle
    unfold upd at this; rw [if_pos rfl] at this; cases this
  refine ⟨⟨fun x hx => ?_, ?_, h.2.2⟩, hlt⟩
  · have := h.1 x hx
    unfold upd at this
    by_cases hxa : x = a
    · subst hxa; exact hw
    · rwa [if_neg hxa] at this
  · have := h.2.1
    unfold upd at this
    rwa [if_neg fun e => ha e.symm] at this

theorem below_good {w : Cells K V} {next : Nat} {al : Alloc} {pl : Nat → Addr} (h : Below w next) : Heap.Good (⟨w, next, al, pl⟩ : Heap K V) := h

/-- There are only so many nodes. -/
def Low (w : Cells K V) : Prop := ∃ n, Below w n

theorem Low.old {w : Cells K V} (h : Low w) {a : Addr} (ha : a ≠ SHARED) {nd nd'} (hw : w a = some nd) : Low (upd w a nd') := let ⟨n, h⟩ := h; ⟨n, h.upd_old ha hw⟩
theorem Low.new {w : Cells K V} (h : Low w) {a : Addr} (ha : a ≠ SHARED) {nd} : Low (upd w a nd) := let ⟨_, h⟩ := h; ⟨_, h.upd_new ha⟩

/-- The result of a run is as it should be. -/
def EndsWell (E : String → Prop) (F : α → Cells K V → Prop) : Exec (α × Heap K V) → Prop
  | .ok (a, s) => F a s.cells
  | .ub => False
  | .panic msg => E msg

/-- A computation that goes well in a row, from a bound on and whatever the allocator answers, is fine when it is interleaved. -/
theorem fine_of_whole {F : α → Cells K V → Prop} {t : Prog K V α} : ∀ {w : Cells K V} {n : Nat}, Below w n →
    (∀ next al pl, n ≤ next → (mem → al.Good) → EndsWell E F (t.whole ⟨w, next, al, pl⟩)) → t.Fine ro mem E F w := by
  induction t with
  | done a => exact fun _ h => h _ (fun _ => true) (fun _ => 0) (Nat.le_refl _) (fun _ _ => rfl)
  | ub => exact fun _ h => h _ (fun _ => true) (fun _ => 0) (Nat.le_refl _) (fun _ _ => rfl)
  | panic msg => exact fun _ h => h _ (fun _ => true) (fun _ => 0) (Nat.le_refl _) (fun _ _ => rfl)
  | read a k ih =>
    intro w n hb h
    simp only [whole_read] at h
    have h0 := h _ (fun _ => true) (fun _ => 0) (Nat.le_refl n) (fun _ _ => rfl)
    by_cases ha : a = SHARED
    · rw [if_pos ha] at h0; exact h0.elim
    cases hc : w a with
    | none => rw [if_neg ha, hc] at h0; exact h0.elim
    | some nd =>
      refine ⟨ha, nd, .inl hc, ih nd hb fun next al pl hn hm => ?_⟩
      have := h next al pl hn hm
      rw [if_neg ha] at this
      simpa only [hc] using this
  | write a nd k ih =>
    intro w n hb h
    simp only [whole_write] at h
    have h0 := h _ (fun _ => true) (fun _ => 0) (Nat.le_refl n) (fun _ _ => rfl)
    by_cases ha : a = SHARED
    · rw [if_pos ha] at h0; exact h0.elim
    cases hc : w a with
    | none => rw [if_neg ha, hc] at h0; exact h0.elim
    | some nd' =>
      refine ⟨ha, ⟨nd', hc⟩, ih (hb.upd_old ha hc) fun next al pl hn hm => ?_⟩
      have := h next al pl hn hm
      rw [if_neg ha] at this
      simpa only [hc] using this
  | alloc lay k ih =>
    intro w n hb h
    refine ⟨fun a ha hw _ => ih _ (hb.upd_new ha) fun next al pl hn hm => ?_, fun hm => ih _ hb fun next al pl hn hm' => ?_⟩
    · have := h next (first true al) (firstPlace a pl) (Nat.le_trans (Nat.le_max_left ..) hn) fun hh => first_good (hm hh)
      rwa [whole_first ha hw (Nat.le_trans (Nat.le_max_right ..) hn)] at this
    · have := h next (first false al) pl hn fun hh => absurd hh hm
      simpa only [whole_alloc, first_request, Bool.false_eq_true, if_false] using this
  | free a lay k ih =>
    intro w n hb h
    simp only [whole_free] at h
    have h0 := h _ (fun _ => true) (fun _ => 0) (Nat.le_refl n) (fun _ _ => rfl)
    by_cases ha : a = SHARED
    · rw [if_pos ha] at h0; exact h0.elim
    cases hc : w a with
    | none => rw [if_neg ha, hc] at h0; exact h0.elim
    | some nd =>
      by_cases hl : nd.lay = lay
      · refine ⟨ha, ⟨nd, hc, hl⟩, ih (hb.upd_old ha hc) fun next al pl hn hm => ?_⟩
        have := h next al pl hn hm
        rw [if_neg ha] at this
        simpa only [hc, hl, if_true] using this
      · rw [if_neg ha, hc] at h0; simp only [hl, if_false] at h0; exact h0.elim

/-- A computation that only looks, and goes well on the shared nodes, is fine for a thread that may look at them. -/
theorem fine_of_looks {F : α → Prop} {t : Prog K V α} (ht : t.OnlyReads) {s : Heap K V} (hs : s.cells = ro) (h : EndsWell E (fun a _ => F a) (t.whole s)) :
    ∀ {w : Cells K V}, t.Fine ro mem E (fun a w' => F a ∧ w' = w) w := by
  induction t with
  | done a => exact ⟨h, rfl⟩
  | ub => exact h.elim
  | panic msg => exact h
  | read a k ih =>
    intro w
    rw [whole_read] at h
    by_cases ha : a = SHARED
    · rw [if_pos ha] at h; exact h.elim
    rw [if_neg ha] at h
    cases hc : s.cells a with
    | none => rw [hc] at h; exact h.elim
    | some nd =>
      rw [hc] at h
      exact ⟨ha, nd, .inr (hs ▸ hc), ih nd (ht nd) h⟩
  | write a nd k => exact ht.elim
  | alloc lay k => exact ht.elim
  | free a lay k => exact ht.elim

theorem Prog.Fine.low {F : α → Cells K V → Prop} {t : Prog K V α} :
    ∀ {w : Cells K V}, t.Fine ro mem E F w → Low w → t.Fine ro mem E (fun a w => F a w ∧ Low w) w := by
  induction t with
  | done a => exact fun h hb => ⟨h, hb⟩
  | ub => exact fun h _ => h
  | panic msg => exact fun h _ => h
  | read a k ih => exact fun ⟨h1, nd, h2, h3⟩ hb => ⟨h1, nd, h2, ih nd h3 hb⟩
  | write a nd k ih => exact fun ⟨h1, ⟨nd', h2⟩, h3⟩ hb => ⟨h1, ⟨nd', h2⟩, ih h3 (hb.old h1 h2)⟩
  | alloc lay k ih => exact fun ⟨h1, h2⟩ hb => ⟨fun a ha hw hr => ih _ (h1 a ha hw hr) (hb.new ha), fun hm => ih _ (h2 hm) hb⟩
  | free a lay k ih => exact fun ⟨h1, ⟨nd, h2, h4⟩, h3⟩ hb => ⟨h1, ⟨nd, h2, h4⟩, ih h3 (hb.old h1 h2)⟩

end Verif.Heap
