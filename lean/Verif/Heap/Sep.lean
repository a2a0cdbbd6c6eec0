import Verif.Heap.Mem
/-
A small separation logic over the memory of Verif/Heap/Mem.lean: assertions on pieces of memory, and triples with the
frame property built in.  Proof infrastructure only; nothing here models code.
-/
namespace Verif.Heap
open Verif

variable {K V α β : Type}

/-- A piece of memory: some nodes, and possibly the right to know the allocator's schedule. -/
@[ext] structure World (K V : Type) where
  cells : Addr → Option (Node K V)
  sched : Option Alloc

namespace World

/-- Two pieces of memory that do not overlap. -/
def Disj (w₁ w₂ : World K V) : Prop :=
  (∀ x, w₁.cells x = none ∨ w₂.cells x = none) ∧ (w₁.sched = none ∨ w₂.sched = none)

/-- Two pieces of memory put together. -/
def union (w₁ w₂ : World K V) : World K V :=
  ⟨fun x => (w₁.cells x).or (w₂.cells x), w₁.sched.or w₂.sched⟩

/-- No memory at all. -/
def empty : World K V := ⟨fun _ => none, none⟩

theorem Disj.symm {w₁ w₂ : World K V} (h : Disj w₁ w₂) : Disj w₂ w₁ :=
  ⟨fun x => (h.1 x).symm, h.2.symm⟩

theorem or_comm_of {α : Type} {a b : Option α} (h : a = none ∨ b = none) : a.or b = b.or a := by
  rcases h with rfl | rfl <;> simp

theorem union_comm {w₁ w₂ : World K V} (h : Disj w₁ w₂) : union w₁ w₂ = union w₂ w₁ := by
  ext1
  · funext x; exact or_comm_of (h.1 x)
  · exact or_comm_of h.2

theorem union_assoc (w₁ w₂ w₃ : World K V) : union (union w₁ w₂) w₃ = union w₁ (union w₂ w₃) := by
  ext1
  · funext x; simp [union, Option.or_assoc]
  · simp [union, Option.or_assoc]

@[simp] theorem empty_union (w : World K V) : union empty w = w := by
  cases w; simp [union, empty]

@[simp] theorem union_empty (w : World K V) : union w empty = w := by
  cases w; simp [union, empty]

theorem disj_empty (w : World K V) : Disj empty w := ⟨fun _ => .inl rfl, .inl rfl⟩

theorem or_none_iff {α : Type} {a b : Option α} : a.or b = none ↔ a = none ∧ b = none := by
  cases a <;> simp

theorem disj_union {w₁ w₂ w₃ : World K V} : Disj (union w₁ w₂) w₃ ↔ Disj w₁ w₃ ∧ Disj w₂ w₃ := by
  constructor
  · rintro ⟨h, h'⟩
    refine ⟨⟨fun x => ?_, ?_⟩, ⟨fun x => ?_, ?_⟩⟩
    · rcases h x with h | h
      · exact .inl (or_none_iff.1 h).1
      · exact .inr h
    · rcases h' with h | h
      · exact .inl (or_none_iff.1 h).1
      · exact .inr h
    · rcases h x with h | h
      · exact .inl (or_none_iff.1 h).2
      · exact .inr h
    · rcases h' with h | h
      · exact .inl (or_none_iff.1 h).2
      · exact .inr h
  · rintro ⟨⟨h1, h1'⟩, ⟨h2, h2'⟩⟩
    refine ⟨fun x => ?_, ?_⟩
    · rcases h1 x with a | a
      · rcases h2 x with b | b
        · exact .inl (or_none_iff.2 ⟨a, b⟩)
        · exact .inr b
      · exact .inr a
    · rcases h1' with a | a
      · rcases h2' with b | b
        · exact .inl (or_none_iff.2 ⟨a, b⟩)
        · exact .inr b
      · exact .inr a

end World

/-- An assertion about a piece of memory. -/
abbrev HProp (K V : Type) := World K V → Prop

/-- Separating conjunction: the two assertions hold of disjoint parts. -/
def sep (P Q : HProp K V) : HProp K V := fun w =>
  ∃ w₁ w₂, World.Disj w₁ w₂ ∧ w = World.union w₁ w₂ ∧ P w₁ ∧ Q w₂

@[inherit_doc] infixr:60 " ∗ " => sep

/-- The empty piece of memory. -/
def emp : HProp K V := fun w => w = World.empty

/-- A fact that needs no memory. -/
def fact (φ : Prop) : HProp K V := fun w => φ ∧ w = World.empty

/-- Exactly the node `n`, at address `a`. -/
def pts (a : Addr) (n : Node K V) : HProp K V := fun w =>
  a ≠ SHARED ∧ w = ⟨fun x => if x = a then some n else none, none⟩

/-- The allocator's remaining schedule. -/
def sched (al : Alloc) : HProp K V := fun w => w = ⟨fun _ => none, some al⟩

/-- For some `x`. -/
def hex {ι : Type} (P : ι → HProp K V) : HProp K V := fun w => ∃ i, P i w

/-- Anything. -/
def anything : HProp K V := fun _ => True

theorem sep_comm (P Q : HProp K V) : (P ∗ Q) = (Q ∗ P) := by
  funext w; apply propext
  constructor <;>
  · rintro ⟨w₁, w₂, hd, rfl, hp, hq⟩
    exact ⟨w₂, w₁, hd.symm, World.union_comm hd, hq, hp⟩

theorem sep_assoc (P Q R : HProp K V) : ((P ∗ Q) ∗ R) = (P ∗ Q ∗ R) := by
  funext w; apply propext
  constructor
  · rintro ⟨w₁, w₂, hd, rfl, ⟨w₃, w₄, hd', rfl, hp, hq⟩, hr⟩
    have ⟨h1, h2⟩ := World.disj_union.1 hd
    refine ⟨w₃, World.union w₄ w₂, ?_, World.union_assoc .., hp, w₄, w₂, h2, rfl, hq, hr⟩
    exact (World.disj_union.2 ⟨hd'.symm, h1.symm⟩).symm
  · rintro ⟨w₁, w₂, hd, rfl, hp, ⟨w₃, w₄, hd', rfl, hq, hr⟩⟩
    have ⟨h1, h2⟩ := World.disj_union.1 hd.symm
    refine ⟨World.union w₁ w₃, w₄, ?_, (World.union_assoc ..).symm, ⟨w₁, w₃, h1.symm, rfl, hp, hq⟩, hr⟩
    exact World.disj_union.2 ⟨h2.symm, hd'⟩

theorem sep_left_comm (P Q R : HProp K V) : (P ∗ Q ∗ R) = (Q ∗ P ∗ R) := by
  rw [← sep_assoc, sep_comm P Q, sep_assoc]

instance : Std.Associative (sep : HProp K V → HProp K V → HProp K V) := ⟨sep_assoc⟩
instance : Std.Commutative (sep : HProp K V → HProp K V → HProp K V) := ⟨sep_comm⟩

@[simp] theorem emp_sep (P : HProp K V) : (emp ∗ P) = P := by
  funext w; apply propext
  constructor
  · rintro ⟨w₁, w₂, hd, rfl, rfl, hp⟩; simpa using hp
  · intro h; exact ⟨World.empty, w, World.disj_empty _, by simp, rfl, h⟩

@[simp] theorem sep_emp (P : HProp K V) : (P ∗ emp) = P := by rw [sep_comm, emp_sep]

theorem fact_sep {φ : Prop} {P : HProp K V} {w : World K V} : (fact φ ∗ P) w ↔ φ ∧ P w := by
  constructor
  · rintro ⟨w₁, w₂, hd, rfl, ⟨h, rfl⟩, hp⟩; exact ⟨h, by simpa using hp⟩
  · rintro ⟨h, hp⟩; exact ⟨World.empty, w, World.disj_empty _, by simp, ⟨h, rfl⟩, hp⟩

theorem hex_sep {ι : Type} {P : ι → HProp K V} {Q : HProp K V} : (hex P ∗ Q) = hex (fun i => P i ∗ Q) := by
  funext w; apply propext
  constructor
  · rintro ⟨w₁, w₂, hd, rfl, ⟨i, hp⟩, hq⟩; exact ⟨i, w₁, w₂, hd, rfl, hp, hq⟩
  · rintro ⟨i, w₁, w₂, hd, rfl, hp, hq⟩; exact ⟨w₁, w₂, hd, rfl, ⟨i, hp⟩, hq⟩

theorem sep_hex {ι : Type} {P : HProp K V} {Q : ι → HProp K V} : (P ∗ hex Q) = hex (fun i => P ∗ Q i) := by
  rw [sep_comm, hex_sep]; congr 1; funext i; exact sep_comm ..

theorem fact_true : (fact True : HProp K V) = emp := by
  funext w; simp [fact, emp]

theorem fact_of {φ : Prop} (h : φ) : (fact φ : HProp K V) = emp := by
  funext w; simp [fact, emp, h]

theorem fact_and {φ ψ : Prop} : (fact (φ ∧ ψ) : HProp K V) = (fact φ ∗ fact ψ) := by
  funext w; apply propext; rw [fact_sep]; simp [fact, and_assoc]

/-- Entailment. -/
def Ent (P Q : HProp K V) : Prop := ∀ w, P w → Q w

theorem Ent.refl (P : HProp K V) : Ent P P := fun _ h => h
theorem Ent.trans {P Q R : HProp K V} (h : Ent P Q) (h' : Ent Q R) : Ent P R := fun w x => h' w (h w x)
theorem Ent.of_eq {P Q : HProp K V} (h : P = Q) : Ent P Q := fun w x => h ▸ x

theorem Ent.sep {P P' Q Q' : HProp K V} (h : Ent P P') (h' : Ent Q Q') : Ent (P ∗ Q) (P' ∗ Q') := by
  rintro w ⟨w₁, w₂, hd, rfl, hp, hq⟩
  exact ⟨w₁, w₂, hd, rfl, h _ hp, h' _ hq⟩

theorem Ent.frame {P Q : HProp K V} (h : Ent P Q) (R : HProp K V) : Ent (P ∗ R) (Q ∗ R) := h.sep (Ent.refl R)

/-! ### states and triples -/

/-- Everything in a memory state. -/
def Heap.world (s : Heap K V) : World K V := ⟨s.cells, some s.alloc⟩

/-- The allocator never hands out an address in use (nor the shared root's). -/
def Heap.Good (s : Heap K V) : Prop := (∀ x, s.next ≤ x → s.cells x = none) ∧ s.cells SHARED = none ∧ 0 < s.next

/-- From a memory described by `P` (plus anything else), `m` does not go wrong: it returns a result and a memory
described by `Q` (plus the same anything else), or panics in a way allowed by `E`. -/
def Triple (E : String → Prop) (P : HProp K V) (m : HM K V α) (Q : α → HProp K V) : Prop :=
  ∀ (R : HProp K V) (s : Heap K V), s.Good → (P ∗ R) s.world →
    match m s with
    | .ok (a, s') => s'.Good ∧ (Q a ∗ R) s'.world
    | .ub => False
    | .panic msg => E msg

variable {E : String → Prop} {P P' R : HProp K V} {Q Q' : α → HProp K V} {m : HM K V α}

theorem Triple.ofPure {a : α} (h : Ent P (Q a)) : Triple E P (pure a : HM K V α) Q := by
  intro R s hg hp
  exact ⟨hg, h.frame R _ hp⟩

theorem Triple.seq {m : HM K V α} {f : α → HM K V β} {Q : α → HProp K V} {Q' : β → HProp K V}
    (h : Triple E P m Q) (h' : ∀ a, Triple E (Q a) (f a) Q') : Triple E P (m >>= f) Q' := by
  intro R s hg hp
  have h1 := h R s hg hp
  show match HM.bind m f s with
    | .ok (a, s') => s'.Good ∧ (Q' a ∗ R) s'.world
    | .ub => False
    | .panic msg => E msg
  unfold HM.bind
  cases hm : m s with
  | ok p =>
    rw [hm] at h1
    exact h' p.1 R p.2 h1.1 h1.2
  | ub => rw [hm] at h1; exact h1.elim
  | panic msg => rw [hm] at h1; exact h1

theorem Triple.conseq (h : Triple E P m Q) (hp : Ent P' P) (hq : ∀ a, Ent (Q a) (Q' a)) :
    Triple E P' m Q' := by
  intro R s hg hP
  have h1 := h R s hg (hp.frame R _ hP)
  cases hm : m s with
  | ok p => rw [hm] at h1; exact ⟨h1.1, (hq _).frame R _ h1.2⟩
  | ub => rw [hm] at h1; exact h1
  | panic msg => rw [hm] at h1; exact h1

theorem Triple.pre (h : Triple E P m Q) (hp : Ent P' P) : Triple E P' m Q := h.conseq hp fun _ => Ent.refl _
theorem Triple.post (h : Triple E P m Q) (hq : ∀ a, Ent (Q a) (Q' a)) : Triple E P m Q' :=
  h.conseq (Ent.refl _) hq

theorem Triple.frame (h : Triple E P m Q) (R : HProp K V) : Triple E (P ∗ R) m (fun a => Q a ∗ R) := by
  intro R' s hg hp
  rw [sep_assoc] at hp
  have h1 := h (R ∗ R') s hg hp
  cases hm : m s with
  | ok p => rw [hm] at h1; exact ⟨h1.1, by rw [sep_assoc]; exact h1.2⟩
  | ub => rw [hm] at h1; exact h1
  | panic msg => rw [hm] at h1; exact h1

/-- Take a fact out of the precondition. -/
theorem Triple.ofFact {φ : Prop} (h : φ → Triple E P m Q) : Triple E (fact φ ∗ P) m Q := by
  intro R s hg hp
  rw [sep_assoc] at hp
  have ⟨h1, h2⟩ := fact_sep.1 hp
  exact h h1 R s hg h2

/-- Take an existential out of the precondition. -/
theorem Triple.ofHex {ι : Type} {P : ι → HProp K V} (h : ∀ i, Triple E (P i) m Q) : Triple E (hex P) m Q := by
  intro R s hg hp
  rw [hex_sep] at hp
  obtain ⟨i, hp⟩ := hp
  exact h i R s hg hp

theorem Triple.ofLift {x : Exec α} {a : α} (hx : x = .ok a) (h : Ent P (Q a)) :
    Triple E P (HM.lift x : HM K V α) Q := by
  subst hx
  intro R s hg hp
  exact ⟨hg, h.frame R _ hp⟩

theorem Triple.ofReq {c : Bool} {Q : Unit → HProp K V} (hc : c = true) (h : Ent P (Q ())) :
    Triple E P (HM.req c : HM K V Unit) Q := by
  subst hc
  exact Triple.ofLift rfl h

theorem Triple.ofPanic {msg : String} (h : E msg) : Triple E P (HM.panic msg : HM K V α) Q := by
  intro R s _ _
  exact h

/-! ### updating one node -/

theorem pts_cells {a : Addr} {n : Node K V} {R : HProp K V} {s : Heap K V} (h : (pts a n ∗ R) s.world) :
    a ≠ SHARED ∧ s.cells a = some n := by
  obtain ⟨w₁, w₂, _, hw, ⟨h0, rfl⟩, _⟩ := h
  refine ⟨h0, ?_⟩
  have : s.cells = _ := congrArg World.cells hw
  rw [this]; simp [World.union]

theorem pts_update {a : Addr} {n n' : Node K V} {R : HProp K V} {s : Heap K V} (h : (pts a n ∗ R) s.world) :
    (pts a n' ∗ R) { s with cells := fun x => if x = a then some n' else s.cells x : Heap K V }.world := by
  obtain ⟨w₁, w₂, hd, hw, ⟨h0, rfl⟩, hr⟩ := h
  have hc : s.cells = _ := congrArg World.cells hw
  have hs : some s.alloc = _ := congrArg World.sched hw
  have ha : w₂.cells a = none := by
    have := hd.1 a; simpa using this
  refine ⟨_, w₂, ⟨fun x => ?_, .inl rfl⟩, ?_, ⟨h0, rfl⟩, hr⟩
  · by_cases hx : x = a
    · subst hx; exact .inr ha
    · simp [hx]
  · ext1
    · funext x
      show (if x = a then some n' else s.cells x) = _
      rw [hc]
      by_cases hx : x = a <;> simp [World.union, hx]
    · exact hs

theorem pts_free {a : Addr} {n : Node K V} {R : HProp K V} {s : Heap K V} (h : (pts a n ∗ R) s.world) :
    R { s with cells := fun x => if x = a then none else s.cells x : Heap K V }.world := by
  obtain ⟨w₁, w₂, hd, hw, ⟨h0, rfl⟩, hr⟩ := h
  have hc : s.cells = _ := congrArg World.cells hw
  have hs : some s.alloc = _ := congrArg World.sched hw
  have ha : w₂.cells a = none := by
    have := hd.1 a; simpa using this
  suffices h : ({ s with cells := fun x => if x = a then none else s.cells x : Heap K V }.world) = w₂ by
    rw [h]; exact hr
  ext1
  · funext x
    show (if x = a then none else s.cells x) = _
    rw [hc]
    by_cases hx : x = a
    · subst hx; simp [ha]
    · simp [World.union, hx]
  · exact hs


theorem Triple.of_ok (h : ∀ (R : HProp K V) (s : Heap K V), s.Good → (P ∗ R) s.world →
    ∃ a s', m s = .ok (a, s') ∧ s'.Good ∧ (Q a ∗ R) s'.world) : Triple E P m Q := by
  intro R s hg hp
  obtain ⟨a, s', hm, hg', hq⟩ := h R s hg hp
  rw [hm]
  exact ⟨hg', hq⟩

/-! ### finding a part of an assertion -/

/-- `P` is `X` and the rest `R`. -/
class Has (X P : HProp K V) (R : outParam (HProp K V)) : Prop where
  eq : P = (X ∗ R)

instance (priority := 900) hasSelf (X : HProp K V) : Has X X emp := ⟨(sep_emp X).symm⟩
instance (priority := 1000) hasHead (X R : HProp K V) : Has X (X ∗ R) R := ⟨rfl⟩
instance (priority := 500) hasTail (X A R R' : HProp K V) [h : Has X R R'] : Has X (A ∗ R) (A ∗ R') :=
  ⟨by rw [h.eq, sep_left_comm]⟩
instance (priority := 800) hasBoth (A B P R R' : HProp K V) [h : Has A P R] [h' : Has B R R'] : Has (A ∗ B) P R' :=
  ⟨by rw [h.eq, h'.eq, sep_assoc]⟩
instance (priority := 1100) hasEmp (P : HProp K V) : Has emp P P := ⟨(emp_sep P).symm⟩

/-- `P` is the node `n` at `a` and the rest `R`. -/
class HasPts (a : Addr) (P : HProp K V) (n : outParam (Node K V)) (R : outParam (HProp K V)) : Prop where
  eq : P = (pts a n ∗ R)

instance (priority := 900) hasPtsSelf (a : Addr) (n : Node K V) : HasPts a (pts a n) n emp := ⟨(sep_emp _).symm⟩
instance (priority := 1000) hasPtsHead (a : Addr) (n : Node K V) (R : HProp K V) : HasPts a (pts a n ∗ R) n R := ⟨rfl⟩
instance (priority := 500) hasPtsTail (a : Addr) (A R R' : HProp K V) (n : Node K V) [h : HasPts a R n R'] :
    HasPts a (A ∗ R) n (A ∗ R') := ⟨by rw [h.eq, sep_left_comm]⟩

/-- `P` is the schedule `al` and the rest `R`. -/
class HasSched (P : HProp K V) (al : outParam Alloc) (R : outParam (HProp K V)) : Prop where
  eq : P = (sched al ∗ R)

instance (priority := 900) hasSchedSelf (al : Alloc) : HasSched (sched al : HProp K V) al emp := ⟨(sep_emp _).symm⟩
instance (priority := 1000) hasSchedHead (al : Alloc) (R : HProp K V) : HasSched (sched al ∗ R) al R := ⟨rfl⟩
instance (priority := 500) hasSchedTail (al : Alloc) (A R R' : HProp K V) [h : HasSched R al R'] :
    HasSched (A ∗ R) al (A ∗ R') := ⟨by rw [h.eq, sep_left_comm]⟩

/-- Prove an entailment part by part. -/
theorem Ent.by_has {X P R Y : HProp K V} [h : Has X P R] (h' : Ent R Y) : Ent P (X ∗ Y) := by
  rw [h.eq]; exact (Ent.refl X).sep h'

/-! ### memory accesses -/

variable {a b : Addr} {n n' nb nb' : Node K V} {R' : HProp K V}

theorem Triple.getNode' : Triple E (pts a n) (getNode a) (fun r => fact (r = n) ∗ pts a n) := by
  apply Triple.of_ok
  intro R' s hg hp
  have ⟨h0, hc⟩ := pts_cells hp
  refine ⟨n, s, by simp only [Heap.getNode, h0, if_false, hc], hg, ?_⟩
  rw [sep_assoc]; exact fact_sep.2 ⟨rfl, hp⟩

theorem Triple.atNode' {f : Node K V → Exec (β × Node K V)} {b : β} (hf : f n = .ok (b, n')) :
    Triple E (pts a n) (atNode a f) (fun r => fact (r = b) ∗ pts a n') := by
  apply Triple.of_ok
  intro R' s hg hp
  have ⟨h0, hc⟩ := pts_cells hp
  refine ⟨b, { s with cells := fun x => if x = a then some n' else s.cells x },
    by simp only [Heap.atNode, h0, if_false, hc, hf], ⟨fun x hx => ?_, ?_, hg.2.2⟩, ?_⟩
  · show (if x = a then _ else s.cells x) = none
    by_cases hxa : x = a
    · subst hxa; have := hg.1 x hx; rw [hc] at this; simp at this
    · simpa [hxa] using hg.1 x hx
  · show (if SHARED = a then _ else s.cells SHARED) = none
    have h0' : ¬ SHARED = a := fun e => h0 e.symm
    rw [if_neg h0']; exact hg.2.1
  · rw [sep_assoc]; exact fact_sep.2 ⟨rfl, pts_update hp⟩

theorem Triple.freeNode' {lay : Layout} (hl : n.lay = lay) :
    Triple E (pts a n) (freeNode a lay) (fun _ => emp) := by
  apply Triple.of_ok
  intro R' s hg hp
  have ⟨h0, hc⟩ := pts_cells hp
  refine ⟨(), { s with cells := fun x => if x = a then none else s.cells x },
    by simp only [Heap.freeNode, h0, if_false, hc, hl, if_true], ⟨fun x hx => ?_, ?_, hg.2.2⟩, ?_⟩
  · show (if x = a then none else s.cells x) = none
    split
    · rfl
    · exact hg.1 x hx
  · show (if SHARED = a then none else s.cells SHARED) = none
    split
    · rfl
    · exact hg.2.1
  · rw [emp_sep]; exact pts_free hp

theorem Triple.lenOf' : Triple E (pts a n) (lenOf a) (fun r => fact (r = n.len) ∗ pts a n) := by
  apply Triple.of_ok
  intro R' s hg hp
  have ⟨h0, hc⟩ := pts_cells hp
  refine ⟨n.len, s, ?_, hg, ?_⟩
  · simp only [Heap.lenOf, h0, if_false]
    show HM.bind (Heap.getNode a) (fun n => Pure.pure n.len) s = _
    simp only [HM.bind, Heap.getNode, h0, if_false, hc]; rfl
  · rw [sep_assoc]; exact fact_sep.2 ⟨rfl, hp⟩

/-- A new node is put where nothing is. -/
theorem spot_free {s : Heap K V} (hg : s.Good) : s.cells s.spot = none := by
  unfold Heap.spot
  by_cases h : s.place 0 ≠ SHARED ∧ (s.cells (s.place 0)).isNone = true
  · rw [if_pos h]; exact Option.isNone_iff_eq_none.1 h.2
  · rw [if_neg h]; exact hg.1 _ (Nat.le_refl _)

theorem spot_ne {s : Heap K V} (hg : s.Good) : s.spot ≠ SHARED := by
  unfold Heap.spot
  by_cases h : s.place 0 ≠ SHARED ∧ (s.cells (s.place 0)).isNone = true
  · rw [if_pos h]; exact h.1
  · rw [if_neg h]; exact fun e => absurd hg.2.2 (by rw [e]; exact Nat.lt_irrefl 0)

theorem Triple.allocNode' {al : Alloc} {lay : Layout} :
    Triple E (sched al) (allocNode lay : HM K V (Option Addr)) (fun r =>
      match r with
      | none => fact (al.request.1 = false) ∗ sched al.request.2
      | some a => fact (al.request.1 = true) ∗ pts a (Node.new lay) ∗ sched al.request.2) := by
  apply Triple.of_ok
  intro R s hg hp
  obtain ⟨w₁, w₂, hd, hw, rfl, hr⟩ := hp
  have hc : s.cells = w₂.cells := by
    have : s.cells = _ := congrArg World.cells hw
    simpa [World.union] using this
  have hs : s.alloc = al := by
    have : some s.alloc = _ := congrArg World.sched hw
    simpa [World.union] using this
  have hd2 : w₂.sched = none := by
    have := hd.2; simpa using this
  have key : (sched al.request.2 ∗ R) (⟨s.cells, some al.request.2⟩ : World K V) := by
    refine ⟨⟨fun _ => none, some al.request.2⟩, w₂, ⟨fun x => .inl rfl, .inr hd2⟩, ?_, rfl, hr⟩
    ext1
    · funext x; simp [World.union, hc]
    · simp [World.union]
  unfold Heap.allocNode
  rw [hs]
  cases hreq : al.request.1
  · refine ⟨none, _, if_neg (by simp [hreq]), hg, ?_⟩
    simp only [sep_assoc]; exact fact_sep.2 ⟨by simp [hreq], key⟩
  · refine ⟨some s.spot, _, if_pos hreq, ⟨fun x hx => ?_, ?_, by show 0 < max s.next (s.spot + 1); omega⟩, ?_⟩
    · show (if x = s.spot then _ else s.cells x) = none
      have hx' : max s.next (s.spot + 1) ≤ x := hx
      rw [if_neg (by omega)]
      exact hg.1 x (by omega)
    · show (if SHARED = s.spot then _ else s.cells SHARED) = none
      rw [if_neg (fun e => spot_ne hg e.symm)]; exact hg.2.1
    · simp only [sep_assoc]; refine fact_sep.2 ⟨by simp [hreq], ?_⟩
      refine ⟨⟨fun x => if x = s.spot then some (Node.new lay) else none, none⟩, _, ⟨fun x => ?_, .inl rfl⟩, ?_,
        ⟨spot_ne hg, rfl⟩, key⟩
      · by_cases hx : x = s.spot
        · subst hx; exact .inr (spot_free hg)
        · simp [hx]
      · ext1
        · funext x
          show (if x = s.spot then _ else s.cells x) = _
          by_cases hx : x = s.spot <;> simp [World.union, hx]
        · simp [World.union, Heap.world]

/-! ### symbolic execution: one step, then the rest -/

variable {f : α → HM K V β} {Qb : β → HProp K V}

/-- Call something with a known triple on a part of the memory. -/
theorem Triple.call {P₀ : HProp K V} {Q₀ : α → HProp K V} [h : Has P₀ P R] (hm : Triple E P₀ m Q₀)
    (h' : ∀ a, Triple E (Q₀ a ∗ R) (f a) Qb) : Triple E P (m >>= f) Qb := by
  rw [h.eq]
  exact Triple.seq (hm.frame R) h'

/-- The same for the last call. -/
theorem Triple.callLast {P₀ : HProp K V} {Q₀ : α → HProp K V} [h : Has P₀ P R] (hm : Triple E P₀ m Q₀)
    (h' : ∀ a, Ent (Q₀ a ∗ R) (Q a)) : Triple E P m Q := by
  rw [h.eq]
  exact (hm.frame R).post h'

/-- A call whose result is known. -/
theorem Triple.callEq {P₀ Q₀ : HProp K V} {x : α} [h : Has P₀ P R] (hm : Triple E P₀ m (fun r => fact (r = x) ∗ Q₀))
    (h' : Triple E (Q₀ ∗ R) (f x) Qb) : Triple E P (m >>= f) Qb := by
  refine Triple.call hm fun a => ?_
  rw [sep_assoc]
  exact Triple.ofFact fun e => e ▸ h'

theorem Triple.bindReq {c : Bool} {f : Unit → HM K V β} (hc : c = true) (h : Triple E P (f ()) Qb) :
    Triple E P (HM.req c >>= f) Qb :=
  Triple.seq (Triple.ofReq (Q := fun _ => P) hc (Ent.refl _)) fun _ => h

theorem Triple.bindLift {x : Exec α} {a : α} (hx : x = .ok a) (h : Triple E P (f a) Qb) :
    Triple E P (HM.lift x >>= f) Qb := by
  subst hx
  exact Triple.seq (Q := fun r => fact (r = a) ∗ P) (Triple.ofLift rfl fun w hw => fact_sep.2 ⟨rfl, hw⟩)
    fun r => Triple.ofFact fun e => e ▸ h

theorem Triple.bindPure {a : α} (h : Triple E P (f a) Qb) : Triple E P ((Pure.pure a : HM K V α) >>= f) Qb := h

theorem Triple.bindLen {f : Nat → HM K V β} [h : HasPts a P n R] (h' : Triple E P (f n.len) Qb) :
    Triple E P (Heap.lenOf a >>= f) Qb := by
  have e := h.eq; rw [e] at h' ⊢
  exact Triple.callEq (P₀ := pts a n) Triple.lenOf' h'

theorem Triple.bindGet {f : Node K V → HM K V β} [h : HasPts a P n R] (h' : Triple E P (f n) Qb) :
    Triple E P (Heap.getNode a >>= f) Qb := by
  have e := h.eq; rw [e] at h' ⊢
  exact Triple.callEq (P₀ := pts a n) Triple.getNode' h'

theorem Triple.bindAt {g : Node K V → Exec (α × Node K V)} {x : α} [h : HasPts a P n R] (hg : g n = .ok (x, n'))
    (h' : Triple E (pts a n' ∗ R) (f x) Qb) : Triple E P (Heap.atNode a g >>= f) Qb := by
  have e := h.eq; rw [e]
  exact Triple.callEq (P₀ := pts a n) (Triple.atNode' hg) h'

theorem Triple.at {g : Node K V → Exec (α × Node K V)} {x : α} [h : HasPts a P n R] (hg : g n = .ok (x, n'))
    (h' : Ent (pts a n' ∗ R) (Q x)) : Triple E P (Heap.atNode a g) Q := by
  have e := h.eq; rw [e]
  refine Triple.callLast (P₀ := pts a n) (Triple.atNode' hg) fun r => ?_
  rw [sep_assoc]
  intro w hw
  have ⟨e, hw⟩ := fact_sep.1 hw
  exact e ▸ h' w hw

theorem Triple.bindFree {lay : Layout} {f : Unit → HM K V β} [h : HasPts a P n R] (hl : n.lay = lay)
    (h' : Triple E R (f ()) Qb) : Triple E P (Heap.freeNode a lay >>= f) Qb := by
  have e := h.eq; rw [e]
  refine Triple.call (P₀ := pts a n) (Triple.freeNode' hl) fun _ => ?_
  rw [emp_sep]; exact h'

theorem Triple.bindAlloc {lay : Layout} {al : Alloc} {f : Option Addr → HM K V β} [h : HasSched P al R]
    (hno : al.request.1 = false → Triple E (sched al.request.2 ∗ R) (f none) Qb)
    (hyes : al.request.1 = true → ∀ a, Triple E (pts a (Node.new lay) ∗ sched al.request.2 ∗ R) (f (some a)) Qb) :
    Triple E P (Heap.allocNode lay >>= f) Qb := by
  have e := h.eq; rw [e]
  refine Triple.call (P₀ := sched al) Triple.allocNode' fun r => ?_
  cases r with
  | none => rw [sep_assoc]; exact Triple.ofFact hno
  | some a =>
    simp only [sep_assoc]
    exact Triple.ofFact fun h => hyes h a

theorem pts_ne : Ent (pts a n ∗ pts b nb ∗ R) (fact (a ≠ b) ∗ pts a n ∗ pts b nb ∗ R) := by
  intro w hw
  refine fact_sep.2 ⟨?_, hw⟩
  rintro rfl
  rw [← sep_assoc] at hw
  obtain ⟨w₁, w₂, _, rfl, ⟨w₃, w₄, hd, rfl, ⟨_, rfl⟩, ⟨_, rfl⟩⟩, _⟩ := hw
  have := hd.1 a
  simp at this

theorem pts_pos : Ent (pts a n) (fact (a ≠ SHARED) ∗ pts a n) := by
  rintro w ⟨h0, rfl⟩
  exact fact_sep.2 ⟨h0, h0, rfl⟩

theorem Triple.atNodes' {g : Node K V → Node K V → Exec (Node K V × Node K V)} (hf : g n nb = .ok (n', nb')) :
    Triple E (pts a n ∗ pts b nb) (atNodes a b g) (fun _ => pts a n' ∗ pts b nb') := by
  have hne := pts_ne (a := a) (n := n) (b := b) (nb := nb) (R := emp)
  simp only [sep_emp] at hne
  refine Triple.pre ?_ hne
  refine Triple.ofFact fun hab => ?_
  unfold Heap.atNodes
  refine Triple.bindReq (by simpa using hab) ?_
  refine Triple.bindGet ?_
  refine Triple.bindGet ?_
  refine Triple.bindLift hf ?_
  refine Triple.bindAt rfl ?_
  refine Triple.at rfl ?_
  simp only [sep_emp, sep_assoc]
  exact Ent.of_eq (sep_comm ..)

theorem Triple.bindAtNodes {g : Node K V → Node K V → Exec (Node K V × Node K V)} {f : Unit → HM K V β}
    [h : HasPts a P n R] [h' : HasPts b R nb R'] (hf : g n nb = .ok (n', nb'))
    (hk : Triple E (pts a n' ∗ pts b nb' ∗ R') (f ()) Qb) : Triple E P (Heap.atNodes a b g >>= f) Qb := by
  have e := h.eq; have e' := h'.eq; rw [e, e', ← sep_assoc]
  refine Triple.seq ((Triple.atNodes' hf).frame R') fun _ => ?_
  rw [sep_assoc]; exact hk

end Verif.Heap
