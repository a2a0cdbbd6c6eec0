import Verif.Heap.Proofs.Threads
/-
Computations that look at some nodes without ever changing them, and may do what they like with others.
-/
namespace Verif.Heap
open Verif

variable {K V Q α β σ ρ : Type} {ro : Cells K V} {E : String → Prop}

/-- Run in a row from `s`, `t` ends as described by `F`, or is unwound as described by `E`, and it neither stores into a node of `ro` nor frees one. -/
def Prog.Safe (ro : Cells K V) (E : String → Prop) (F : α → Heap K V → Prop) : Prog K V α → Heap K V → Prop
  | .done a, s => F a s
  | .ub, _ => False
  | .panic msg, _ => E msg
  | .read a k, s => a ≠ SHARED ∧ ∃ nd, s.cells a = some nd ∧ (k nd).Safe ro E F s
  | .write a nd k, s => a ≠ SHARED ∧ ro a = none ∧ (∃ nd', s.cells a = some nd') ∧ k.Safe ro E F { s with cells := upd s.cells a (some nd) }
  | .alloc lay k, s =>
    if s.alloc.request.1 then (k (some s.spot)).Safe ro E F ⟨upd s.cells s.spot (some (Node.new lay)), s.nextAfter, s.alloc.request.2, fun n => s.place (n + 1)⟩
    else (k none).Safe ro E F { s with alloc := s.alloc.request.2 }
  | .free a lay k, s => a ≠ SHARED ∧ ro a = none ∧ (∃ nd, s.cells a = some nd ∧ nd.lay = lay) ∧ k.Safe ro E F { s with cells := upd s.cells a none }

theorem Prog.Safe.bind {F : α → Heap K V → Prop} {G : β → Heap K V → Prop} {f : α → Prog K V β} {t : Prog K V α} :
    ∀ {s : Heap K V}, t.Safe ro E F s → (∀ a s, F a s → (f a).Safe ro E G s) → (t.bind f).Safe ro E G s := by
  induction t with
  | done a => exact fun h hf => hf _ _ h
  | ub => exact fun h _ => h
  | panic msg => exact fun h _ => h
  | read a k ih => exact fun ⟨h1, nd, h2, h3⟩ hf => ⟨h1, nd, h2, ih nd h3 hf⟩
  | write a nd k ih => exact fun ⟨h1, h2, h3, h4⟩ hf => ⟨h1, h2, h3, ih h4 hf⟩
  | alloc lay k ih =>
    intro s h hf
    simp only [Prog.bind, Prog.Safe] at h ⊢
    split
    · rename_i hc; rw [if_pos hc] at h; exact ih _ h hf
    · rename_i hc; rw [if_neg hc] at h; exact ih _ h hf
  | free a lay k ih => exact fun ⟨h1, h2, h3, h4⟩ hf => ⟨h1, h2, h3, ih h4 hf⟩

theorem Prog.Safe.weaken {F G : α → Heap K V → Prop} (hF : ∀ a s, F a s → G a s) {t : Prog K V α} : ∀ {s : Heap K V}, t.Safe ro E F s → t.Safe ro E G s := by
  induction t with
  | done a => exact fun h => hF _ _ h
  | ub => exact fun h => h
  | panic msg => exact fun h => h
  | read a k ih => exact fun ⟨h1, nd, h2, h3⟩ => ⟨h1, nd, h2, ih nd h3⟩
  | write a nd k ih => exact fun ⟨h1, h2, h3, h4⟩ => ⟨h1, h2, h3, ih h4⟩
  | alloc lay k ih =>
    intro s h
    simp only [Prog.Safe] at h ⊢
    split
    · rename_i hc; rw [if_pos hc] at h; exact ih _ h
    · rename_i hc; rw [if_neg hc] at h; exact ih _ h
  | free a lay k ih => exact fun ⟨h1, h2, h3, h4⟩ => ⟨h1, h2, h3, ih h4⟩

/-- The result of a run is as it should be. -/
def EndsRight (E : String → Prop) (F : α → Heap K V → Prop) : Exec (α × Heap K V) → Prop
  | .ok (a, s) => F a s
  | .ub => False
  | .panic msg => E msg

/-- The accesses in a row, then, end as described. -/
theorem Prog.Safe.whole {F : α → Heap K V → Prop} {t : Prog K V α} : ∀ {s : Heap K V}, t.Safe ro E F s → EndsRight E F (t.whole s) := by
  induction t with
  | done a => exact fun h => h
  | ub => exact fun h => h
  | panic msg => exact fun h => h
  | read a k ih =>
    rintro s ⟨h1, nd, h2, h3⟩
    rw [whole_read, if_neg h1, h2]; exact ih nd h3
  | write a nd k ih =>
    rintro s ⟨h1, h2, ⟨nd', h3⟩, h4⟩
    rw [whole_write, if_neg h1, h3]; exact ih h4
  | alloc lay k ih =>
    intro s h
    simp only [Prog.Safe] at h
    rw [whole_alloc]
    split
    · rename_i hc; rw [if_pos hc] at h; exact ih _ h
    · rename_i hc; rw [if_neg hc] at h; exact ih _ h
  | free a lay k ih =>
    rintro s ⟨h1, h2, ⟨nd, h3, h5⟩, h4⟩
    rw [whole_free, if_neg h1, h3]
    dsimp only
    rw [if_pos h5]; exact ih h4

/-- Apart. -/
def Apart (w c : Cells K V) : Prop := ∀ x, w x = none ∨ c x = none

theorem Apart.upd {w : Cells K V} (h : Apart w ro) {a : Addr} (ha : ro a = none) {n} : Apart (upd w a n) ro := fun x => by
  by_cases hx : x = a
  · subst hx; exact .inr ha
  · rw [upd_other hx]; exact h x

/-- What goes well without the nodes `ro`, wherever new nodes are put, does not touch them when they are there. -/
theorem safe_of_whole {F : α → Cells K V → Alloc → Prop} {t : Prog K V α} : ∀ {w : Cells K V} {s : Heap K V}, s.Good → s.cells = both w ro → Apart w ro →
    (∀ next pl, s.next ≤ next → EndsRight E (fun a s1 => F a s1.cells s1.alloc) (t.whole ⟨w, next, s.alloc, pl⟩)) →
    t.Safe ro E (fun a s' => s'.Good ∧ ∃ w1, F a w1 s'.alloc ∧ Apart w1 ro ∧ s'.cells = both w1 ro) s := by
  have own : ∀ {w : Cells K V} {s : Heap K V} {a : Addr} {nd : Node K V}, s.cells = both w ro → w a = some nd → s.cells a = some nd := by
    intro w s a nd h1 h2
    rw [h1]; unfold both; rw [h2]; rfl
  induction t with
  | done a => exact fun {w s} hg h1 h2 h => ⟨hg, w, h s.next s.place (Nat.le_refl _), h2, h1⟩
  | ub => exact fun {w s} _ _ _ h => h s.next s.place (Nat.le_refl _)
  | panic msg => exact fun {w s} _ _ _ h => h s.next s.place (Nat.le_refl _)
  | read a k ih =>
    intro w s hg h1 h2 h
    simp only [whole_read] at h
    have h0 := h s.next s.place (Nat.le_refl _)
    by_cases ha : a = SHARED
    · rw [if_pos ha] at h0; exact h0.elim
    cases hc : w a with
    | none => rw [if_neg ha, hc] at h0; exact h0.elim
    | some nd =>
      refine ⟨ha, nd, own h1 hc, ih nd hg h1 h2 fun next pl hn => ?_⟩
      have := h next pl hn
      rw [if_neg ha] at this
      simpa only [hc] using this
  | write a nd k ih =>
    intro w s hg h1 h2 h
    simp only [whole_write] at h
    have h0 := h s.next s.place (Nat.le_refl _)
    by_cases ha : a = SHARED
    · rw [if_pos ha] at h0; exact h0.elim
    cases hc : w a with
    | none => rw [if_neg ha, hc] at h0; exact h0.elim
    | some nd' =>
      have hr : ro a = none := (h2 a).resolve_left (by rw [hc]; simp)
      refine ⟨ha, hr, ⟨nd', own h1 hc⟩, ih (upd_good hg ha (own h1 hc)) (by show upd s.cells a _ = _; rw [h1, both_upd hr]) (h2.upd hr) fun next pl hn => ?_⟩
      have := h next pl hn
      rw [if_neg ha] at this
      simpa only [hc] using this
  | alloc lay k ih =>
    intro w s hg h1 h2 h
    simp only [Prog.Safe]
    have hfree := spot_free hg
    have hne := spot_ne hg
    have hwr : w s.spot = none ∧ ro s.spot = none := by
      rw [h1] at hfree; unfold both at hfree
      cases hw : w s.spot with
      | none => rw [hw] at hfree; exact ⟨rfl, by simpa using hfree⟩
      | some n => rw [hw] at hfree; cases hfree
    by_cases hb : s.alloc.request.1 = true
    · rw [if_pos hb]
      refine ih (some s.spot) (w := upd w s.spot (some (Node.new lay))) (Below.upd_new (w := s.cells) (n := s.next) hg hne) (by show upd s.cells s.spot _ = _; rw [h1, both_upd hwr.2]) (h2.upd hwr.2)
        fun next pl hn => ?_
      have hn' : s.next ≤ next ∧ s.spot < next := Nat.max_le.1 hn
      have := h next (firstPlace s.spot pl) hn'.1
      rw [whole_alloc, if_pos (show (⟨w, next, s.alloc, firstPlace s.spot pl⟩ : Heap K V).alloc.request.1 = true from hb), spot_first hne hwr.1, nextAfter_first hne hwr.1 hn'.2] at this
      exact this
    · rw [if_neg hb]
      refine ih none (w := w) (s := { s with alloc := s.alloc.request.2 }) hg h1 h2 fun next pl hn => ?_
      have := h next pl hn
      rw [whole_alloc, if_neg (show ¬ (⟨w, next, s.alloc, pl⟩ : Heap K V).alloc.request.1 = true from hb)] at this
      exact this
  | free a lay k ih =>
    intro w s hg h1 h2 h
    simp only [whole_free] at h
    have h0 := h s.next s.place (Nat.le_refl _)
    by_cases ha : a = SHARED
    · rw [if_pos ha] at h0; exact h0.elim
    cases hc : w a with
    | none => rw [if_neg ha, hc] at h0; exact h0.elim
    | some nd' =>
      rw [if_neg ha, hc] at h0
      dsimp only at h0
      by_cases hl : nd'.lay = lay
      · have hr : ro a = none := (h2 a).resolve_left (by rw [hc]; simp)
        refine ⟨ha, hr, ⟨nd', own h1 hc, hl⟩, ih (upd_good hg ha (own h1 hc)) (by show upd s.cells a _ = _; rw [h1, both_upd hr]) (h2.upd hr) fun next pl hn => ?_⟩
        have := h next pl hn
        rw [if_neg ha] at this
        simpa only [hc, hl, if_true] using this
      · rw [if_neg hl] at h0; exact h0.elim

/-- What only looks, and goes well on a part of the memory, goes well on all of it. -/
theorem safe_of_looks {F : α → Prop} {t : Prog K V α} (ht : t.OnlyReads) {s₁ s : Heap K V} (hs : ∀ x nd, s₁.cells x = some nd → s.cells x = some nd)
    (h : EndsRight E (fun a _ => F a) (t.whole s₁)) : t.Safe ro E (fun a s' => F a ∧ s' = s) s := by
  induction t with
  | done a => exact ⟨h, rfl⟩
  | ub => exact h
  | panic msg => exact h
  | read a k ih =>
    rw [whole_read] at h
    by_cases ha : a = SHARED
    · rw [if_pos ha] at h; exact h.elim
    rw [if_neg ha] at h
    cases hc : s₁.cells a with
    | none => rw [hc] at h; exact h.elim
    | some nd =>
      rw [hc] at h
      exact ⟨ha, nd, hs a nd hc, ih nd (ht nd) h⟩
  | write a nd k => exact ht.elim
  | alloc lay k => exact ht.elim
  | free a lay k => exact ht.elim

/-! ### triples -/

/-- The memory is `ro` and a part described by `P`. -/
def Over (ro : Cells K V) (P : HProp K V) (s : Heap K V) : Prop := ∃ w, Apart w ro ∧ s.cells = both w ro ∧ P ⟨w, some s.alloc⟩

/-- Like `Triple`, for a computation taken apart: it needs the nodes `ro` to look at, and never changes them. -/
def LTriple (ro : Cells K V) (E : String → Prop) (P : HProp K V) (t : Prog K V α) (Q : α → HProp K V) : Prop :=
  ∀ (R : HProp K V) (s : Heap K V), s.Good → Over ro (P ∗ R) s → t.Safe ro E (fun a s' => s'.Good ∧ Over ro (Q a ∗ R) s') s

theorem Over.mono {P P' : HProp K V} (h : Ent P P') {s : Heap K V} : Over ro P s → Over ro P' s := fun ⟨w, h1, h2, h3⟩ => ⟨w, h1, h2, h _ h3⟩

variable {P P' R : HProp K V} {Qb : β → HProp K V}

theorem LTriple.ofPure {a : β} (h : Ent P (Qb a)) : LTriple ro E P (.done a) Qb := fun R _ hg hp => ⟨hg, hp.mono (h.frame R)⟩

theorem LTriple.ofPanic {msg : String} (h : E msg) : LTriple ro E P (.panic msg) Qb := fun _ _ _ _ => h

theorem LTriple.seq {Q₀ : α → HProp K V} {t : Prog K V α} {f : α → Prog K V β} (h : LTriple ro E P t Q₀) (h' : ∀ a, LTriple ro E (Q₀ a) (f a) Qb) : LTriple ro E P (t.bind f) Qb :=
  fun R s hg hp => (h R s hg hp).bind fun a s' ⟨hg', hp'⟩ => h' a R s' hg' hp'

theorem LTriple.pre {t : Prog K V β} (h : LTriple ro E P t Qb) (hp : Ent P' P) : LTriple ro E P' t Qb := fun R s hg hs => h R s hg (hs.mono (hp.frame R))

theorem LTriple.post {Q' : β → HProp K V} {t : Prog K V β} (h : LTriple ro E P t Qb) (hq : ∀ a, Ent (Qb a) (Q' a)) : LTriple ro E P t Q' := fun R s hg hs =>
  (h R s hg hs).weaken fun a _ ⟨h1, h2⟩ => ⟨h1, h2.mono ((hq a).frame R)⟩

theorem LTriple.frame {t : Prog K V β} (h : LTriple ro E P t Qb) (R : HProp K V) : LTriple ro E (P ∗ R) t (fun a => Qb a ∗ R) := fun R' s hg hs => by
  rw [sep_assoc] at hs
  refine (h (R ∗ R') s hg hs).weaken fun a _ ⟨h1, h2⟩ => ⟨h1, ?_⟩
  rw [sep_assoc]; exact h2

theorem LTriple.ofHex {ι : Type} {P : ι → HProp K V} {t : Prog K V β} (h : ∀ i, LTriple ro E (P i) t Qb) : LTriple ro E (hex P) t Qb := fun R s hg hs => by
  rw [hex_sep] at hs
  obtain ⟨w, h1, h2, i, h3⟩ := hs
  exact h i R s hg ⟨w, h1, h2, h3⟩

theorem LTriple.getFact {φ : Prop} {t : Prog K V β} [h : HasFact P φ R] (h' : φ → LTriple ro E R t Qb) : LTriple ro E P t Qb := fun R' s hg hs => by
  rw [h.eq, sep_assoc] at hs
  obtain ⟨w, h1, h2, h3⟩ := hs
  obtain ⟨h4, h5⟩ := fact_sep.1 h3
  exact h' h4 R' s hg ⟨w, h1, h2, h5⟩

theorem LTriple.call {P₀ : HProp K V} {Q₀ : α → HProp K V} {t : Prog K V α} {f : α → Prog K V β} [h : Has P₀ P R] (hm : LTriple ro E P₀ t Q₀)
    (h' : ∀ a, LTriple ro E (Q₀ a ∗ R) (f a) Qb) : LTriple ro E P (t.bind f) Qb := by
  rw [h.eq]
  exact LTriple.seq (hm.frame R) h'

theorem LTriple.callEq {P₀ Q₀ : HProp K V} {x : α} {t : Prog K V α} {f : α → Prog K V β} [h : Has P₀ P R] (hm : LTriple ro E P₀ t (fun r => fact (r = x) ∗ Q₀))
    (h' : LTriple ro E (Q₀ ∗ R) (f x) Qb) : LTriple ro E P (t.bind f) Qb := by
  refine LTriple.call hm fun a => ?_
  rw [sep_assoc]
  exact LTriple.getFact fun e => e ▸ h'

/-- What is proved about a computation that does not know of the nodes `ro`. -/
theorem LTriple.ofTriple {t : Prog K V β} (h : Triple E P t.whole Qb) : LTriple ro E P t Qb := by
  rintro R s hg ⟨w, h1, h2, h3⟩
  have hsmall : ∀ x, s.cells x = none → w x = none ∧ ro x = none := fun x hx => by
    rw [h2] at hx; unfold both at hx
    cases hw : w x with
    | none => rw [hw] at hx; exact ⟨rfl, by simpa using hx⟩
    | some n => rw [hw] at hx; cases hx
  refine (safe_of_whole (ro := ro) (E := E) (F := fun a c al => (Qb a ∗ R) ⟨c, some al⟩) (t := t) hg h2 h1 fun next pl hn => ?_).weaken ?_
  · have h4 := h R ⟨w, next, s.alloc, pl⟩ ⟨fun x hx => (hsmall x (hg.1 x (Nat.le_trans hn hx))).1, (hsmall _ hg.2.1).1, Nat.lt_of_lt_of_le hg.2.2 hn⟩ h3
    revert h4
    cases t.whole ⟨w, next, s.alloc, pl⟩ with
    | ok r => exact fun h => h.2
    | ub => exact id
    | panic msg => exact id
  · rintro a s' ⟨g0, w1, g1, g2, g3⟩
    exact ⟨g0, w1, g2, g3, g1⟩

/-- `P` describes a part of `ro`. -/
def Known (ro : Cells K V) (P : HProp K V) : Prop := ∃ c, (∀ x nd, c x = some nd → ro x = some nd) ∧ P ⟨c, none⟩

theorem Known.mono {P P' : HProp K V} (h : Ent P P') : Known ro P → Known ro P' := fun ⟨c, h1, h2⟩ => ⟨c, h1, h _ h2⟩

theorem Known.fact {φ : Prop} : Known ro (fact φ ∗ P) → φ ∧ Known ro P := fun ⟨c, h1, h2⟩ =>
  ⟨(fact_sep.1 h2).1, c, h1, (fact_sep.1 h2).2⟩

theorem Known.left (h : Known ro (P ∗ P')) : Known ro P := by
  obtain ⟨c, h1, ⟨c1, s1⟩, ⟨c2, s2⟩, hd, hu, h2, h3⟩ := h
  have e2 : none = s1.or s2 := congrArg World.sched hu
  obtain ⟨rfl, rfl⟩ := World.or_none_iff.1 e2.symm
  refine ⟨c1, fun x nd hx => h1 x nd ?_, h2⟩
  have : c = fun x => (c1 x).or (c2 x) := congrArg World.cells hu
  rw [this]; dsimp only; rw [hx]; rfl

/-- Looking at a part of `ro`. -/
theorem LTriple.look {P₀ : HProp K V} {Q₀ : α → HProp K V} {φ : α → Prop} {t : Prog K V α} (ht : t.OnlyReads) (hk : Known ro P₀) (hm : Triple E P₀ t.whole Q₀) (hq : ∀ a, Ent (Q₀ a) (Heap.fact (φ a) ∗ P₀)) :
    LTriple ro E emp t (fun a => Heap.fact (φ a)) := by
  rintro R s hg ⟨w, h1, h2, h3⟩
  obtain ⟨c, h4, h5⟩ := hk
  have hin : ∀ x nd, c x = some nd → s.cells x = some nd := fun x nd hx => by
    have h6 := h4 x nd hx
    rw [h2]; unfold both
    rcases h1 x with h | h
    · rw [h, h6]; rfl
    · rw [h6] at h; cases h
  have hnone : ∀ x, s.cells x = none → c x = none := fun x hx => by
    cases h : c x with
    | none => rfl
    | some nd => rw [hin x nd h] at hx; cases hx
  have h6 := hm (sched s.alloc) ⟨c, s.next, s.alloc, s.place⟩ ⟨fun x hx => hnone x (hg.1 x hx), hnone _ hg.2.1, hg.2.2⟩
    ⟨⟨c, none⟩, ⟨fun _ => none, some s.alloc⟩, ⟨fun x => .inr rfl, .inl rfl⟩, by simp [World.union, Heap.world], h5, rfl⟩
  refine (safe_of_looks (F := φ) (s₁ := ⟨c, s.next, s.alloc, s.place⟩) (s := s) ht hin ?_).weaken ?_
  · revert h6
    cases t.whole ⟨c, s.next, s.alloc, s.place⟩ with
    | ub => exact id
    | panic msg => exact id
    | ok r => exact fun h => (fact_sep.1 ((sep_assoc .. ▸ (hq r.1).frame _) _ h.2)).1
  · rintro a s' ⟨ha, rfl⟩
    refine ⟨hg, w, h1, h2, ?_⟩
    rw [emp_sep] at h3
    exact fact_sep.2 ⟨ha, h3⟩

/-! ### taking apart -/

/-- Some way to take `m` apart. -/
noncomputable def progOf (m : HM K V α) [h : Steps false m] : Prog K V α := Classical.choose h.ex
theorem progOf_whole (m : HM K V α) [h : Steps false m] : (progOf m).whole = m := (Classical.choose_spec h.ex).1

/-- … that only looks. -/
noncomputable def lookOf (m : HM K V α) [h : Steps true m] : Prog K V α := Classical.choose h.ex
theorem lookOf_whole (m : HM K V α) [h : Steps true m] : (lookOf m).whole = m := (Classical.choose_spec h.ex).1
theorem lookOf_reads (m : HM K V α) [h : Steps true m] : (lookOf m).OnlyReads := (Classical.choose_spec h.ex).2 rfl

theorem LTriple.prog {m : HM K V β} [Steps false m] (h : Triple E P m Qb) : LTriple ro E P (progOf m) Qb := LTriple.ofTriple (by rw [progOf_whole]; exact h)

/-- Looking something up in a part of `ro`. -/
theorem LTriple.lookEq {P₀ : HProp K V} {x : α} {m : HM K V α} [Steps true m] {f : α → Prog K V β} (hk : Known ro P₀) (hm : Triple E P₀ m (fun r => Heap.fact (r = x) ∗ P₀))
    (h' : LTriple ro E P (f x) Qb) : LTriple ro E P ((lookOf m).bind f) Qb := by
  have h1 : LTriple ro E emp (lookOf m) (fun a => Heap.fact (a = x)) := LTriple.look (lookOf_reads m) hk (by rw [lookOf_whole]; exact hm) fun a => Ent.refl _
  have h2 := h1.frame P
  rw [emp_sep] at h2
  exact LTriple.seq h2 fun a => LTriple.getFact fun e => e ▸ h'

/-- `loopN`, taken apart. -/
def Prog.loop (step : σ → Prog K V (σ ⊕ ρ)) : Nat → σ → Prog K V (σ ⊕ ρ)
  | 0, s => .done (.inl s)
  | n + 1, s => (step s).bind fun r => match r with
    | .inl s => Prog.loop step n s
    | .inr r => .done (.inr r)

theorem Prog.loop_whole {step : σ → Prog K V (σ ⊕ ρ)} {step' : σ → HM K V (σ ⊕ ρ)} (h : ∀ s, (step s).whole = step' s) : ∀ (n : Nat) (s : σ), (Prog.loop step n s).whole = loopN step' n s
  | 0, s => rfl
  | n + 1, s => by
    unfold Prog.loop loopN
    rw [Prog.whole_bind, h]
    congr 1; funext r
    cases r with
    | inl s => exact Prog.loop_whole h n s
    | inr r => rfl

end Verif.Heap
