import Verif.Heap.Proofs.Conc
/-
Threads: interleaving.
-/
namespace Verif.Heap
open Verif
open Verif.BTree (Map)
open Verif.Spec (Op Out)

variable {K V Q α β : Type} {ro : Cells K V} {mem : Prop} {E : String → Prop}

/-- What is left after one access. -/
inductive Next : Prog K V α → Prog K V α → Prop
  | read {a k} (n) : Next (k n) (.read a k)
  | write {a n k} : Next k (.write a n k)
  | alloc {lay k} (r) : Next (k r) (.alloc lay k)
  | free {a lay k} : Next k (.free a lay k)

/-- Two parts of the memory put together. -/
def both (w f : Cells K V) : Cells K V := fun x => (w x).or (f x)

/-- What one access of a thread does. -/
structure Stepped (ro : Cells K V) (mem : Prop) (E : String → Prop) (F : α → Cells K V → Prop) (t : Prog K V α) (s : Heap K V) (w : Cells K V) (t' : Prog K V α) (s' : Heap K V) (w' : Cells K V) : Prop where
  step : t.step s = some (t', s')
  good : s'.Good
  granted : mem → s'.alloc.Good
  next : s.next ≤ s'.next
  fine : t'.Fine ro mem E F w'
  mine : ∀ x nd, w' x = some nd → s'.cells x = some nd
  new : ∀ x, w x = none → w' x = none ∨ s.cells x = none
  else_ : ∀ x, w x = none → w' x = none → s'.cells x = s.cells x
  gone : ∀ x, w x ≠ none → w' x = none → s'.cells x = none
  down : (t' = t ∧ s' = s ∧ t.Ended) ∨ Next t' t
  solo : (∀ x, w x = none ∨ ro x = none) → ∀ next' al' pl', s'.next ≤ next' → (mem → al'.Good) →
    ∃ next al pl, s.next ≤ next ∧ (mem → al.Good) ∧ t.whole ⟨both w ro, next, al, pl⟩ = t'.whole ⟨both w' ro, next', al', pl'⟩

theorem upd_same {c : Cells K V} {a : Addr} {n} : upd c a n a = n := if_pos rfl
theorem upd_other {c : Cells K V} {a x : Addr} {n} (h : x ≠ a) : upd c a n x = c x := if_neg h

theorem both_upd {w f : Cells K V} {a : Addr} {n : Option (Node K V)} (h : f a = none) : both (upd w a n) f = upd (both w f) a n := by
  funext x
  unfold both
  by_cases hx : x = a
  · subst hx; rw [upd_same, upd_same, h]; cases n <;> rfl
  · rw [upd_other hx, upd_other hx]

theorem upd_good {s : Heap K V} (hs : s.Good) {a : Addr} (ha : a ≠ SHARED) {nd nd'} (hc : s.cells a = some nd) : Heap.Good { s with cells := upd s.cells a nd' } :=
  Below.upd_old (w := s.cells) (n := s.next) hs ha hc

theorem step_fine {F : α → Cells K V → Prop} {t : Prog K V α} {s : Heap K V} {w : Cells K V} (hs : s.Good) (hm : mem → s.alloc.Good)
    (hf : t.Fine ro mem E F w) (hw : ∀ x nd, w x = some nd → s.cells x = some nd) (hr : ∀ x nd, ro x = some nd → s.cells x = some nd) :
    ∃ t' s' w', Stepped ro mem E F t s w t' s' w' := by
  cases t with
  | done a =>
    exact ⟨.done a, s, w, rfl, hs, hm, Nat.le_refl _, hf, hw, fun x h => .inl h, fun _ _ _ => rfl, fun x h h' => absurd h' h, .inl ⟨rfl, rfl, trivial⟩,
      fun _ next' al' pl' h1 h2 => ⟨next', al', pl', h1, h2, rfl⟩⟩
  | ub => exact hf.elim
  | panic msg =>
    exact ⟨.panic msg, s, w, rfl, hs, hm, Nat.le_refl _, hf, hw, fun x h => .inl h, fun _ _ _ => rfl, fun x h h' => absurd h' h, .inl ⟨rfl, rfl, trivial⟩,
      fun _ next' al' pl' h1 h2 => ⟨next', al', pl', h1, h2, rfl⟩⟩
  | read a k =>
    obtain ⟨h1, nd, h2, h3⟩ := hf
    have hc : s.cells a = some nd := h2.elim (hw a nd) (hr a nd)
    refine ⟨k nd, s, w, by simp [Prog.step, h1, hc], hs, hm, Nat.le_refl _, h3, hw, fun x h => .inl h, fun _ _ _ => rfl, fun x h h' => absurd h' h, .inr (.read nd),
      fun h next' al' pl' h4 h5 => ⟨next', al', pl', h4, h5, ?_⟩⟩
    rw [whole_read, if_neg h1]
    have : both w ro a = some nd := by
      unfold both
      rcases h2 with h2 | h2
      · rw [h2]; rfl
      · rcases h a with h7 | h7
        · rw [h7, h2]; rfl
        · rw [h7] at h2; cases h2
    simp only [this]
  | write a nd k =>
    obtain ⟨h1, ⟨nd', h2⟩, h3⟩ := hf
    have hc := hw a nd' h2
    refine ⟨k, { s with cells := upd s.cells a (some nd) }, upd w a (some nd), by simp [Prog.step, h1, hc], upd_good hs h1 hc, hm, Nat.le_refl _, h3, ?_, ?_, ?_, ?_, .inr .write, ?_⟩
    · intro x n hx
      show upd s.cells a (some nd) x = _
      by_cases hxa : x = a
      · subst hxa; rw [upd_same] at hx ⊢; exact hx
      · rw [upd_other hxa] at hx ⊢; exact hw x n hx
    · intro x hx
      refine .inl ?_
      rw [upd_other fun e => by rw [e, h2] at hx; cases hx]; exact hx
    · intro x hx _
      exact upd_other fun e => by rw [e, h2] at hx; cases hx
    · intro x hx hx'
      by_cases hxa : x = a
      · subst hxa; rw [upd_same] at hx'; cases hx'
      · rw [upd_other hxa] at hx'; exact absurd hx' hx
    · intro h next' al' pl' h4 h5
      have hfa : ro a = none := (h a).resolve_left (by rw [h2]; simp)
      refine ⟨next', al', pl', h4, h5, ?_⟩
      rw [whole_write, if_neg h1]
      have : both w ro a = some nd' := by unfold both; rw [h2]; rfl
      simp only [this, both_upd hfa]
  | free a lay k =>
    obtain ⟨h1, ⟨nd', h2, h6⟩, h3⟩ := hf
    have hc := hw a nd' h2
    refine ⟨k, { s with cells := upd s.cells a none }, upd w a none, by simp [Prog.step, h1, hc, h6], upd_good hs h1 hc, hm, Nat.le_refl _, h3, ?_, ?_, ?_, ?_, .inr .free, ?_⟩
    · intro x n hx
      show upd s.cells a none x = _
      by_cases hxa : x = a
      · subst hxa; rw [upd_same] at hx; cases hx
      · rw [upd_other hxa] at hx ⊢; exact hw x n hx
    · intro x hx
      refine .inl ?_
      rw [upd_other fun e => by rw [e, h2] at hx; cases hx]; exact hx
    · intro x hx _
      exact upd_other fun e => by rw [e, h2] at hx; cases hx
    · intro x hx hx'
      show upd s.cells a none x = _
      by_cases hxa : x = a
      · subst hxa; exact upd_same
      · rw [upd_other hxa] at hx'; exact absurd hx' hx
    · intro h next' al' pl' h4 h5
      have hfa : ro a = none := (h a).resolve_left (by rw [h2]; simp)
      refine ⟨next', al', pl', h4, h5, ?_⟩
      rw [whole_free, if_neg h1]
      have : both w ro a = some nd' := by unfold both; rw [h2]; rfl
      simp only [this, h6, if_true, both_upd hfa]
  | alloc lay k =>
    obtain ⟨h1, h2⟩ := hf
    have hfree : s.cells s.spot = none := spot_free hs
    have hne : s.spot ≠ SHARED := spot_ne hs
    have hwn : w s.spot = none := by
      cases h : w s.spot with
      | none => rfl
      | some nd => rw [hw _ _ h] at hfree; cases hfree
    have hrn : ro s.spot = none := by
      cases h : ro s.spot with
      | none => rfl
      | some nd => rw [hr _ _ h] at hfree; cases hfree
    by_cases hb : s.alloc.request.1 = true
    · refine ⟨k (some s.spot), ⟨upd s.cells s.spot (some (Node.new lay)), s.nextAfter, s.alloc.request.2, fun n => s.place (n + 1)⟩, upd w s.spot (some (Node.new lay)),
        by simp [Prog.step, hb], Below.upd_new (w := s.cells) (n := s.next) hs hne, fun h => (hm h).tail, Nat.le_max_left .., h1 s.spot hne hwn hrn, ?_, ?_, ?_, ?_, .inr (.alloc _), ?_⟩
      · intro x n hx
        show upd s.cells s.spot _ x = _
        by_cases hxa : x = s.spot
        · subst hxa; rw [upd_same] at hx ⊢; exact hx
        · rw [upd_other hxa] at hx ⊢; exact hw x n hx
      · intro x hx
        by_cases hxa : x = s.spot
        · subst hxa; exact .inr hfree
        · rw [upd_other hxa]; exact .inl hx
      · intro x hx hx'
        by_cases hxa : x = s.spot
        · subst hxa; rw [upd_same] at hx'; cases hx'
        · exact upd_other hxa
      · intro x hx hx'
        by_cases hxa : x = s.spot
        · subst hxa; exact absurd hwn hx
        · rw [upd_other hxa] at hx'; exact absurd hx' hx
      · intro _ next' al' pl' h4 h5
        have h6 : s.next ≤ next' ∧ s.spot < next' := Nat.max_le.1 h4
        refine ⟨next', first true al', firstPlace s.spot pl', h6.1, fun hh => first_good (h5 hh), ?_⟩
        rw [whole_first hne (by unfold both; rw [hwn, hrn]; rfl) h6.2, both_upd hrn]
    · have hnm : ¬ mem := fun h => hb (hm h).head
      refine ⟨k none, { s with alloc := s.alloc.request.2 }, w, by simp [Prog.step, hb], hs, fun h => absurd h hnm, Nat.le_refl _, h2 hnm, hw, fun x h => .inl h, fun _ _ _ => rfl,
        fun x h h' => absurd h' h, .inr (.alloc _), fun _ next' al' pl' h4 h5 => ⟨next', first false al', pl', h4, fun hh => absurd hh hnm, ?_⟩⟩
      rw [whole_alloc]
      simp only [first_request, Bool.false_eq_true, if_false]

/-- Several threads under way: each has its own part of the memory, nobody writes to the common part, and each has done what it would have done alone with the part
`fs` that it had at the start. -/
structure Going (ro : Cells K V) (mem : Prop) (E : String → Prop) (F : Nat → α → Cells K V → Prop) (s₀ : Heap K V) (ts₀ : List (Prog K V α)) (fs : Nat → Cells K V)
    (ts : List (Prog K V α)) (s : Heap K V) (w : Nat → Cells K V) : Prop where
  len : ts.length = ts₀.length
  good : s.Good
  granted : mem → s.alloc.Good
  next : s₀.next ≤ s.next
  fine : ∀ (j : Nat) (t : Prog K V α), ts[j]? = some t → t.Fine ro mem E (F j) (w j)
  mine : ∀ j x nd, w j x = some nd → s.cells x = some nd
  look : ∀ x nd, ro x = some nd → s.cells x = some nd
  apart : ∀ i j x, i ≠ j → w i x = none ∨ w j x = none
  aside : ∀ j x, w j x = none ∨ ro x = none
  all : ∀ x nd, s.cells x = some nd → ro x ≠ none ∨ ∃ j, w j x ≠ none
  out : ∀ j x, ts₀.length ≤ j → w j x = none
  solo : ∀ (j : Nat) (t t₀ : Prog K V α), ts[j]? = some t → ts₀[j]? = some t₀ → ∀ (next' : Nat) (al' : Alloc) (pl' : Nat → Addr), s.next ≤ next' → (mem → al'.Good) →
    ∃ (next : Nat) (al : Alloc) (pl : Nat → Addr), s₀.next ≤ next ∧ (mem → al.Good) ∧ t₀.whole ⟨both (fs j) ro, next, al, pl⟩ = t.whole ⟨both (w j) ro, next', al', pl'⟩

variable {F : Nat → α → Cells K V → Prop} {s₀ : Heap K V} {ts₀ : List (Prog K V α)} {fs : Nat → Cells K V} {ts : List (Prog K V α)} {s : Heap K V} {w : Nat → Cells K V}

theorem some_of_ne {α : Type} {x : Option α} (h : x ≠ none) : ∃ a, x = some a := by
  cases x with
  | none => exact absurd rfl h
  | some a => exact ⟨a, rfl⟩

/-- A turn of one thread. -/
theorem Going.turn (h : Going ro mem E F s₀ ts₀ fs ts s w) (j : Nat) : ∃ ts' s' w', stepAt ts j s = some (ts', s') ∧ Going ro mem E F s₀ ts₀ fs ts' s' w' ∧
    (∀ i, i ≠ j → ts'[i]? = ts[i]?) ∧ ∀ t, ts[j]? = some t → ∃ t', ts'[j]? = some t' ∧ ((t' = t ∧ t.Ended) ∨ Next t' t) := by
  unfold stepAt
  cases ht : ts[j]? with
  | none => exact ⟨ts, s, w, rfl, h, fun _ _ => rfl, by simp⟩
  | some t =>
    have hj : j < ts.length := (List.getElem?_eq_some_iff.1 ht).1
    have hj0 : j < ts₀.length := h.len ▸ hj
    obtain ⟨t', s', wj, hst⟩ := step_fine (w := w j) h.good h.granted (h.fine j t ht) (h.mine j) h.look
    have hset : (ts.set j t')[j]? = some t' := by simp [hj]
    have hwj : ∀ i, i ≠ j → (if i = j then wj else w i) = w i := fun i hi => if_neg hi
    have hro : ∀ x, wj x = none ∨ ro x = none := fun x => by
      cases hx : w j x with
      | some nd => exact .inr ((h.aside j x).resolve_left (by rw [hx]; simp))
      | none =>
        rcases hst.new x hx with h1 | h1
        · exact .inl h1
        · refine .inr ?_
          cases hr : ro x with
          | none => rfl
          | some nd => rw [h.look x nd hr] at h1; cases h1
    have hoth : ∀ i x, i ≠ j → wj x = none ∨ w i x = none := fun i x hi => by
      cases hx : w j x with
      | some nd => exact .inr ((h.apart i j x hi).resolve_right (by rw [hx]; simp))
      | none =>
        rcases hst.new x hx with h1 | h1
        · exact .inl h1
        · refine .inr ?_
          cases hr : w i x with
          | none => rfl
          | some nd => rw [h.mine i x nd hr] at h1; cases h1
    -- what others have is not touched
    have hkeep : ∀ x nd, s.cells x = some nd → w j x = none → s'.cells x = some nd := fun x nd hc hx => by
      rcases hst.new x hx with h1 | h1
      · rw [hst.else_ x hx h1]; exact hc
      · rw [hc] at h1; cases h1
    refine ⟨ts.set j t', s', fun i => if i = j then wj else w i, by dsimp only; rw [hst.step], ?_, fun i hi => ?_, ?_⟩
    · constructor
      · simp [h.len]
      · exact hst.good
      · exact hst.granted
      · exact Nat.le_trans h.next hst.next
      · intro i ti hti
        by_cases hi : i = j
        · subst hi
          rw [hset] at hti
          cases hti
          rw [if_pos rfl]; exact hst.fine
        · rw [List.getElem?_set_ne (fun e => hi e.symm)] at hti
          rw [if_neg hi]
          exact h.fine i ti hti
      · intro i x nd hx
        by_cases hi : i = j
        · rw [if_pos hi] at hx; exact hst.mine x nd hx
        · rw [if_neg hi] at hx
          exact hkeep x nd (h.mine i x nd hx) ((h.apart i j x hi).resolve_left (by rw [hx]; simp))
      · intro x nd hx
        exact hkeep x nd (h.look x nd hx) ((h.aside j x).resolve_right (by rw [hx]; simp))
      · intro i i' x hii
        by_cases hi : i = j
        · have hi' : i' ≠ j := fun e => hii (hi.trans e.symm)
          rw [if_pos hi, if_neg hi']; exact hoth i' x hi'
        · rw [if_neg hi]
          by_cases hi' : i' = j
          · rw [if_pos hi']; exact (hoth i x hi).symm
          · rw [if_neg hi']; exact h.apart i i' x hii
      · intro i x
        by_cases hi : i = j
        · rw [if_pos hi]; exact hro x
        · rw [if_neg hi]; exact h.aside i x
      · intro x nd hx
        cases hwx : wj x with
        | some nd' => exact .inr ⟨j, by simp [hwx]⟩
        | none =>
          cases hx' : w j x with
          | some nd' =>
            rw [hst.gone x (by rw [hx']; simp) hwx] at hx; cases hx
          | none =>
            rw [hst.else_ x hx' hwx] at hx
            rcases h.all x nd hx with h1 | ⟨i, h1⟩
            · exact .inl h1
            · have hi : i ≠ j := fun e => h1 (e ▸ hx')
              exact .inr ⟨i, by rw [if_neg hi]; exact h1⟩
      · intro i x hi
        rw [if_neg (by omega)]; exact h.out i x hi
      · intro i ti t₀ hti ht0 next' al' pl' hn ha
        by_cases hij : i = j
        · subst hij
          rw [hset] at hti
          cases hti
          rw [if_pos rfl]
          obtain ⟨next, al, pl, h1, h2, h3⟩ := hst.solo (h.aside i) next' al' pl' hn ha
          obtain ⟨next2, al2, pl2, h4, h5, h6⟩ := h.solo i t t₀ ht ht0 next al pl h1 h2
          exact ⟨next2, al2, pl2, h4, h5, h6.trans h3⟩
        · rw [List.getElem?_set_ne (fun e => hij e.symm)] at hti
          rw [if_neg hij]
          exact h.solo i ti t₀ hti ht0 next' al' pl' (Nat.le_trans hst.next hn) ha
    · exact List.getElem?_set_ne fun e => hi e.symm
    · intro t2 ht2
      cases ht2
      refine ⟨t', hset, ?_⟩
      rcases hst.down with ⟨h1, _, h2⟩ | h1
      · exact .inl ⟨h1, h2⟩
      · exact .inr h1

/-- Any number of turns. -/
theorem Going.run : ∀ (js : List Nat) {ts : List (Prog K V α)} {s : Heap K V} {w : Nat → Cells K V}, Going ro mem E F s₀ ts₀ fs ts s w →
    ∃ ts' s' w', interleave js ts s = some (ts', s') ∧ Going ro mem E F s₀ ts₀ fs ts' s' w'
  | [], ts, s, w, h => ⟨ts, s, w, rfl, h⟩
  | j :: js, ts, s, w, h => by
    obtain ⟨ts1, s1, w1, h1, h2, _⟩ := h.turn j
    obtain ⟨ts2, s2, w2, h3, h4⟩ := Going.run js h2
    exact ⟨ts2, s2, w2, by unfold interleave; rw [h1]; exact h3, h4⟩

theorem interleave_append (is js : List Nat) : ∀ (ts : List (Prog K V α)) (s : Heap K V), interleave (is ++ js) ts s = (interleave is ts s).bind fun r => interleave js r.1 r.2 := by
  induction is with
  | nil => intro ts s; rfl
  | cons i is ih =>
    intro ts s
    show (match stepAt ts i s with | none => none | some (ts', s') => interleave (is ++ js) ts' s') = _
    show _ = (match stepAt ts i s with | none => none | some (ts', s') => interleave is ts' s').bind _
    cases stepAt ts i s with
    | none => rfl
    | some r => exact ih _ _

/-- While others take turns, a thread stays where it is. -/
theorem Going.wait : ∀ (js : List Nat) {ts : List (Prog K V α)} {s : Heap K V} {w : Nat → Cells K V} {j : Nat}, j ∉ js → Going ro mem E F s₀ ts₀ fs ts s w →
    ∃ ts' s' w', interleave js ts s = some (ts', s') ∧ Going ro mem E F s₀ ts₀ fs ts' s' w' ∧ ts'[j]? = ts[j]?
  | [], ts, s, w, j, _, h => ⟨ts, s, w, rfl, h, rfl⟩
  | i :: js, ts, s, w, j, hj, h => by
    obtain ⟨ts1, s1, w1, h1, h2, h5, _⟩ := h.turn i
    obtain ⟨ts2, s2, w2, h3, h4, h6⟩ := Going.wait js (j := j) (fun hh => hj (by simp [hh])) h2
    exact ⟨ts2, s2, w2, by unfold interleave; rw [h1]; exact h3, h4, h6.trans (h5 j fun e => hj (by simp [e]))⟩

theorem next_wf : WellFounded (Next : Prog K V α → Prog K V α → Prop) := by
  constructor
  intro t
  induction t with
  | done a => exact ⟨_, fun _ h => nomatch h⟩
  | ub => exact ⟨_, fun _ h => nomatch h⟩
  | panic msg => exact ⟨_, fun _ h => nomatch h⟩
  | read a k ih => exact ⟨_, fun _ h => by cases h with | read n => exact ih n⟩
  | write a n k ih => exact ⟨_, fun _ h => by cases h; exact ih⟩
  | alloc lay k ih => exact ⟨_, fun _ h => by cases h with | alloc r => exact ih r⟩
  | free a lay k ih => exact ⟨_, fun _ h => by cases h; exact ih⟩

theorem turns_add (f : Nat → Nat) (m n : Nat) : turns f (m + n) = turns f m ++ turns (fun i => f (m + i)) n := by
  unfold turns
  rw [List.range_add, List.map_append, List.map_map]
  rfl

theorem first_turn {f : Nat → Nat} {j : Nat} : ∀ {m : Nat}, f m = j → ∃ m', f m' = j ∧ j ∉ turns f m' := by
  intro m
  induction m using Nat.strongRecOn with
  | _ m ih =>
    intro h
    by_cases hm : j ∈ turns f m
    · obtain ⟨i, hi, h2⟩ := List.mem_map.1 hm
      exact ih i (List.mem_range.1 hi) h2
    · exact ⟨m, h, hm⟩

/-- A thread that gets its turn again and again ends. -/
theorem Going.ends {j : Nat} (t : Prog K V α) : ∀ {f : Nat → Nat}, (∀ m, ∃ m', m ≤ m' ∧ f m' = j) → ∀ {ts : List (Prog K V α)} {s : Heap K V} {w : Nat → Cells K V},
    Going ro mem E F s₀ ts₀ fs ts s w → ts[j]? = some t → ∃ m ts' s', interleave (turns f m) ts s = some (ts', s') ∧ ∃ t', ts'[j]? = some t' ∧ t'.Ended := by
  induction t using next_wf.induction with
  | _ t ih =>
    intro f hf ts s w h ht
    obtain ⟨m0, _, hm0⟩ := hf 0
    obtain ⟨m1, hm1, hnot⟩ := first_turn hm0
    obtain ⟨ts1, s1, w1, h1, h2, h3⟩ := h.wait _ hnot
    obtain ⟨ts2, s2, w2, h4, h5, _, h6⟩ := h2.turn j
    obtain ⟨t', h7, h8⟩ := h6 t (h3.trans ht)
    have hone : interleave (turns f (m1 + 1)) ts s = some (ts2, s2) := by
      have : turns f (m1 + 1) = turns f m1 ++ [j] := by
        rw [turns_add]
        have : turns (fun i => f (m1 + i)) 1 = [j] := by simp [turns, hm1]
        rw [this]
      rw [this, interleave_append, h1]
      show interleave [j] ts1 s1 = _
      unfold interleave
      rw [h4]; rfl
    rcases h8 with ⟨rfl, h8⟩ | h8
    · exact ⟨m1 + 1, ts2, s2, hone, t', h7, h8⟩
    · obtain ⟨m, ts3, s3, g1, g2⟩ := ih t' h8 (f := fun i => f (m1 + 1 + i)) (fun m => by
        obtain ⟨m', e1, e2⟩ := hf (m1 + 1 + m)
        exact ⟨m' - (m1 + 1), by omega, by rw [← e2]; congr 1; omega⟩) h5 h7
      refine ⟨m1 + 1 + m, ts3, s3, ?_, g2⟩
      rw [turns_add, interleave_append, hone]
      exact g1

end Verif.Heap
