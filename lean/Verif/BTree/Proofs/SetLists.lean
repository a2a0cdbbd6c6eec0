import Verif.SetSpec
import Verif.Spec
/-
The set algorithms on plain lists: what they yield for any comparison function, and that this is the right set when the
order is lawful.
-/
namespace Verif.BTree
open Verif Verif.Spec

variable {T : Type}

/-- What the stitching difference yields. -/
def diffList [Ord T] : List T → List T → List T
  | [], _ => []
  | x :: l, [] => x :: l
  | x :: l, y :: r =>
    match compare x y with
    | .lt => x :: diffList l (y :: r)
    | .eq => diffList l r
    | .gt => diffList (x :: l) r
termination_by l r => l.length + r.length

/-- What the stitching intersection yields. -/
def interList [Ord T] : List T → List T → List T
  | [], _ => []
  | _ :: _, [] => []
  | x :: l, y :: r =>
    match compare x y with
    | .lt => interList l (y :: r)
    | .eq => x :: interList l r
    | .gt => interList (x :: l) r
termination_by l r => l.length + r.length

/-- What the symmetric difference yields. -/
def symList [Ord T] : List T → List T → List T
  | [], r => r
  | x :: l, [] => x :: l
  | x :: l, y :: r =>
    match compare x y with
    | .lt => x :: symList l (y :: r)
    | .eq => symList l r
    | .gt => y :: symList (x :: l) r
termination_by l r => l.length + r.length

/-- What the union yields. -/
def unionList [Ord T] : List T → List T → List T
  | [], r => r
  | x :: l, [] => x :: l
  | x :: l, y :: r =>
    match compare x y with
    | .lt => x :: unionList l (y :: r)
    | .eq => x :: unionList l r
    | .gt => y :: unionList (x :: l) r
termination_by l r => l.length + r.length

/-- What the stitching subset test answers. -/
def subList [Ord T] : List T → List T → Bool
  | [], _ => true
  | _ :: _, [] => false
  | x :: l, y :: r =>
    match compare y x with
    | .lt => subList (x :: l) r
    | .eq => subList l r
    | .gt => false
termination_by l r => l.length + r.length

@[simp] theorem diffList_nil_left [Ord T] (r : List T) : diffList [] r = [] := by simp [diffList]
@[simp] theorem diffList_nil_right [Ord T] (l : List T) : diffList l [] = l := by cases l <;> simp [diffList]
@[simp] theorem interList_nil_left [Ord T] (r : List T) : interList [] r = [] := by simp [interList]
@[simp] theorem interList_nil_right [Ord T] (l : List T) : interList l [] = [] := by cases l <;> simp [interList]
@[simp] theorem symList_nil_left [Ord T] (r : List T) : symList [] r = r := by simp [symList]
@[simp] theorem symList_nil_right [Ord T] (l : List T) : symList l [] = l := by cases l <;> simp [symList]
@[simp] theorem unionList_nil_left [Ord T] (r : List T) : unionList [] r = r := by simp [unionList]
@[simp] theorem unionList_nil_right [Ord T] (l : List T) : unionList l [] = l := by cases l <;> simp [unionList]

/-! ### lengths, for any comparison -/

theorem length_diffList [Ord T] (l r : List T) : (diffList l r).length ≤ l.length ∧ l.length ≤ (diffList l r).length + r.length := by
  fun_induction diffList l r <;> grind

theorem length_interList [Ord T] (l r : List T) : (interList l r).length ≤ l.length := by
  fun_induction interList l r <;> grind

theorem length_symList [Ord T] (l r : List T) : (symList l r).length ≤ l.length + r.length := by
  fun_induction symList l r <;> grind

theorem length_unionList [Ord T] (l r : List T) :
    (unionList l r).length ≤ l.length + r.length ∧ l.length ≤ (unionList l r).length ∧ r.length ≤ (unionList l r).length := by
  fun_induction unionList l r <;> grind

/-! ### lawful orders -/

theorem Ascending.cons [Ord T] {x : T} {l : List T} : Ascending (x :: l) ↔ (∀ y ∈ l, compare x y = .lt) ∧ Ascending l := by
  simp [Ascending]

section lawful
variable [Ord T] [Std.TransOrd T]

theorem cmp_lt_trans {x y z : T} (h1 : compare x y = .lt) (h2 : compare y z = .lt) : compare x z = .lt :=
  Std.TransCmp.lt_trans h1 h2

theorem cmp_eq_lt {x y z : T} (h1 : compare x y = .eq) (h2 : compare y z = .lt) : compare x z = .lt := by
  rw [Std.TransCmp.congr_left h1]; exact h2

theorem cmp_lt_eq {x y z : T} (h1 : compare x y = .lt) (h2 : compare y z = .eq) : compare x z = .lt := by
  rw [← Std.TransCmp.congr_right h2]; exact h1

theorem cmp_flip {x y : T} : compare x y = .gt ↔ compare y x = .lt := Std.OrientedCmp.gt_iff_lt
theorem cmp_eq_comm {x y : T} : compare x y = .eq ↔ compare y x = .eq := Std.OrientedCmp.eq_comm

/-- Everything in an ascending list starting with `y > x` is above `x`. -/
theorem Ascending.above {x y : T} {r : List T} (h : Ascending (y :: r)) (hx : compare x y = .lt) :
    ∀ z ∈ y :: r, compare x z = .lt := by
  intro z hz
  rcases List.mem_cons.1 hz with rfl | hz
  · exact hx
  · exact cmp_lt_trans hx ((Ascending.cons.1 h).1 z hz)

omit [Std.TransOrd T] in
theorem not_has_of_lt {x : T} {r : List T} (h : ∀ z ∈ r, compare x z = .lt) : ¬ Has x r := by
  rintro ⟨y, hy, he⟩
  simp [h y hy] at he

theorem has_congr {x y : T} (h : compare x y = .eq) (l : List T) : Has x l ↔ Has y l := by
  simp only [Has, Std.TransCmp.congr_left h]

omit [Std.TransOrd T] in
theorem has_cons {x y : T} {l : List T} : Has x (y :: l) ↔ compare x y = .eq ∨ Has x l := by simp [Has]

omit [Std.TransOrd T] in
@[simp] theorem has_nil {x : T} : ¬ Has x ([] : List T) := by simp [Has]

theorem has_of_mem {x : T} {l : List T} (h : x ∈ l) : Has x l := ⟨x, h, Std.ReflCmp.compare_self⟩

theorem diffList_spec (l r : List T) (hl : Ascending l) (hr : Ascending r) : IsDifference l r (diffList l r) := by
  fun_induction diffList l r with
  | case1 => exact ⟨hl, by simp⟩
  | case2 x l => exact ⟨hl, by simp⟩
  | case3 x l y r hc ih =>
    obtain ⟨h1, h2⟩ := ih (Ascending.cons.1 hl).2 hr
    have hx := Ascending.above hr hc
    refine ⟨Ascending.cons.2 ⟨fun z hz => (Ascending.cons.1 hl).1 z ((h2 z).1 hz).1, h1⟩, fun z => ?_⟩
    simp only [List.mem_cons, h2]
    constructor
    · rintro (rfl | ⟨h, h'⟩)
      · exact ⟨.inl rfl, not_has_of_lt hx⟩
      · exact ⟨.inr h, h'⟩
    · rintro ⟨rfl | h, h'⟩
      · exact .inl rfl
      · exact .inr ⟨h, h'⟩
  | case4 x l y r hc ih =>
    obtain ⟨h1, h2⟩ := ih (Ascending.cons.1 hl).2 (Ascending.cons.1 hr).2
    refine ⟨h1, fun z => ?_⟩
    simp only [List.mem_cons, h2, has_cons]
    constructor
    · rintro ⟨h, h'⟩
      refine ⟨.inr h, fun h'' => h''.elim (fun he => ?_) h'⟩
      have := (Ascending.cons.1 hl).1 z h
      have := cmp_lt_eq this he
      simp [hc] at this
    · rintro ⟨rfl | h, h'⟩
      · exact absurd (.inl hc) h'
      · exact ⟨h, fun h'' => h' (.inr h'')⟩
  | case5 x l y r hc ih =>
    obtain ⟨h1, h2⟩ := ih hl (Ascending.cons.1 hr).2
    refine ⟨h1, fun z => ?_⟩
    simp only [h2, has_cons]
    refine ⟨fun ⟨h, h'⟩ => ⟨h, fun h'' => h''.elim (fun he => ?_) h'⟩, fun ⟨h, h'⟩ => ⟨h, fun h'' => h' (.inr h'')⟩⟩
    have := Ascending.above hl (cmp_flip.1 hc) z h
    simp [cmp_eq_comm.1 he] at this

theorem interList_spec (l r : List T) (hl : Ascending l) (hr : Ascending r) : IsIntersection l r (interList l r) := by
  fun_induction interList l r with
  | case1 => exact ⟨hl, by simp⟩
  | case2 x l => exact ⟨hr, by simp⟩
  | case3 x l y r hc ih =>
    obtain ⟨h1, h2⟩ := ih (Ascending.cons.1 hl).2 hr
    refine ⟨h1, fun z => ?_⟩
    simp only [List.mem_cons, h2]
    constructor
    · rintro ⟨h, h'⟩; exact ⟨.inr h, h'⟩
    · rintro ⟨rfl | h, h'⟩
      · exact absurd h' (not_has_of_lt (Ascending.above hr hc))
      · exact ⟨h, h'⟩
  | case4 x l y r hc ih =>
    obtain ⟨h1, h2⟩ := ih (Ascending.cons.1 hl).2 (Ascending.cons.1 hr).2
    refine ⟨Ascending.cons.2 ⟨fun z hz => (Ascending.cons.1 hl).1 z ((h2 z).1 hz).1, h1⟩, fun z => ?_⟩
    simp only [List.mem_cons, h2, has_cons]
    constructor
    · rintro (rfl | ⟨h, h'⟩)
      · exact ⟨.inl rfl, .inl hc⟩
      · exact ⟨.inr h, .inr h'⟩
    · rintro ⟨rfl | h, h'⟩
      · exact .inl rfl
      · refine .inr ⟨h, h'.elim (fun he => ?_) id⟩
        have := cmp_lt_eq ((Ascending.cons.1 hl).1 z h) he
        simp [hc] at this
  | case5 x l y r hc ih =>
    obtain ⟨h1, h2⟩ := ih hl (Ascending.cons.1 hr).2
    refine ⟨h1, fun z => ?_⟩
    simp only [h2, has_cons]
    refine ⟨fun ⟨h, h'⟩ => ⟨h, .inr h'⟩, fun ⟨h, h'⟩ => ⟨h, h'.elim (fun he => ?_) id⟩⟩
    have := Ascending.above hl (cmp_flip.1 hc) z h
    simp [cmp_eq_comm.1 he] at this

theorem symList_spec (l r : List T) (hl : Ascending l) (hr : Ascending r) : IsSymDiff l r (symList l r) := by
  fun_induction symList l r with
  | case1 => exact ⟨hr, by simp⟩
  | case2 x l => exact ⟨hl, by simp⟩
  | case3 x l y r hc ih =>
    obtain ⟨h1, h2⟩ := ih (Ascending.cons.1 hl).2 hr
    have hx := Ascending.above hr hc
    refine ⟨Ascending.cons.2 ⟨fun z hz => ?_, h1⟩, fun z => ?_⟩
    · rcases (h2 z).1 hz with ⟨h, _⟩ | ⟨h, _⟩
      · exact (Ascending.cons.1 hl).1 z h
      · exact hx z h
    · rw [List.mem_cons, h2, List.mem_cons (b := x), has_cons (y := x)]
      constructor
      · rintro (rfl | ⟨h, h'⟩ | ⟨h, h'⟩)
        · exact .inl ⟨.inl rfl, not_has_of_lt hx⟩
        · exact .inl ⟨.inr h, h'⟩
        · refine .inr ⟨h, fun h'' => h''.elim (fun he => ?_) h'⟩
          have := hx z h
          simp [cmp_eq_comm.1 he] at this
      · rintro (⟨rfl | h, h'⟩ | ⟨h, h'⟩)
        · exact .inl rfl
        · exact .inr (.inl ⟨h, h'⟩)
        · exact .inr (.inr ⟨h, fun h'' => h' (.inr h'')⟩)
  | case4 x l y r hc ih =>
    obtain ⟨h1, h2⟩ := ih (Ascending.cons.1 hl).2 (Ascending.cons.1 hr).2
    refine ⟨h1, fun z => ?_⟩
    have hxl := (Ascending.cons.1 hl).1
    have hyr := (Ascending.cons.1 hr).1
    rw [h2, List.mem_cons, List.mem_cons, has_cons, has_cons]
    have e1 : z ∈ l → compare z y ≠ .eq := fun h he => by
      have := cmp_lt_eq (hxl z h) he
      simp [hc] at this
    have e2 : z ∈ r → compare z x ≠ .eq := fun h he => by
      have := cmp_lt_eq (hyr z h) he
      simp [cmp_eq_comm.1 hc] at this
    constructor
    · rintro (⟨h, h'⟩ | ⟨h, h'⟩)
      · exact .inl ⟨.inr h, fun h'' => h''.elim (e1 h) h'⟩
      · exact .inr ⟨.inr h, fun h'' => h''.elim (e2 h) h'⟩
    · rintro (⟨rfl | h, h'⟩ | ⟨rfl | h, h'⟩)
      · exact absurd (.inl hc) h'
      · exact .inl ⟨h, fun h'' => h' (.inr h'')⟩
      · exact absurd (.inl (cmp_eq_comm.1 hc)) h'
      · exact .inr ⟨h, fun h'' => h' (.inr h'')⟩
  | case5 x l y r hc ih =>
    obtain ⟨h1, h2⟩ := ih hl (Ascending.cons.1 hr).2
    have hy := Ascending.above hl (cmp_flip.1 hc)
    refine ⟨Ascending.cons.2 ⟨fun z hz => ?_, h1⟩, fun z => ?_⟩
    · rcases (h2 z).1 hz with ⟨h, _⟩ | ⟨h, _⟩
      · exact hy z h
      · exact (Ascending.cons.1 hr).1 z h
    · rw [List.mem_cons, h2, has_cons (y := y), List.mem_cons (b := y)]
      constructor
      · rintro (rfl | ⟨h, h'⟩ | ⟨h, h'⟩)
        · exact .inr ⟨.inl rfl, not_has_of_lt hy⟩
        · refine .inl ⟨h, fun h'' => h''.elim (fun he => ?_) h'⟩
          have := hy z h
          simp [cmp_eq_comm.1 he] at this
        · exact .inr ⟨.inr h, h'⟩
      · rintro (⟨h, h'⟩ | ⟨rfl | h, h'⟩)
        · exact .inr (.inl ⟨h, fun h'' => h' (.inr h'')⟩)
        · exact .inl rfl
        · exact .inr (.inr ⟨h, h'⟩)

theorem unionList_spec (l r : List T) (hl : Ascending l) (hr : Ascending r) : IsUnion l r (unionList l r) := by
  fun_induction unionList l r with
  | case1 => exact ⟨hr, by simp⟩
  | case2 x l => exact ⟨hl, by simp⟩
  | case3 x l y r hc ih =>
    obtain ⟨h1, h2⟩ := ih (Ascending.cons.1 hl).2 hr
    have hx := Ascending.above hr hc
    refine ⟨Ascending.cons.2 ⟨fun z hz => ?_, h1⟩, fun z => ?_⟩
    · rcases (h2 z).1 hz with h | ⟨h, _⟩
      · exact (Ascending.cons.1 hl).1 z h
      · exact hx z h
    · rw [List.mem_cons, h2, List.mem_cons (b := x), has_cons]
      constructor
      · rintro (rfl | h | ⟨h, h'⟩)
        · exact .inl (.inl rfl)
        · exact .inl (.inr h)
        · refine .inr ⟨h, fun h'' => h''.elim (fun he => ?_) h'⟩
          have := hx z h
          simp [cmp_eq_comm.1 he] at this
      · rintro ((rfl | h) | ⟨h, h'⟩)
        · exact .inl rfl
        · exact .inr (.inl h)
        · exact .inr (.inr ⟨h, fun h'' => h' (.inr h'')⟩)
  | case4 x l y r hc ih =>
    obtain ⟨h1, h2⟩ := ih (Ascending.cons.1 hl).2 (Ascending.cons.1 hr).2
    have hxl := (Ascending.cons.1 hl).1
    have hyr := (Ascending.cons.1 hr).1
    refine ⟨Ascending.cons.2 ⟨fun z hz => ?_, h1⟩, fun z => ?_⟩
    · rcases (h2 z).1 hz with h | ⟨h, _⟩
      · exact hxl z h
      · exact cmp_eq_lt hc (hyr z h)
    · rw [List.mem_cons, h2, List.mem_cons (b := x), List.mem_cons (b := y), has_cons]
      have e2 : z ∈ r → compare z x ≠ .eq := fun h he => by
        have := cmp_lt_eq (hyr z h) he
        simp [cmp_eq_comm.1 hc] at this
      constructor
      · rintro (rfl | h | ⟨h, h'⟩)
        · exact .inl (.inl rfl)
        · exact .inl (.inr h)
        · exact .inr ⟨.inr h, fun h'' => h''.elim (e2 h) h'⟩
      · rintro ((rfl | h) | ⟨rfl | h, h'⟩)
        · exact .inl rfl
        · exact .inr (.inl h)
        · exact absurd (.inl (cmp_eq_comm.1 hc)) h'
        · exact .inr (.inr ⟨h, fun h'' => h' (.inr h'')⟩)
  | case5 x l y r hc ih =>
    obtain ⟨h1, h2⟩ := ih hl (Ascending.cons.1 hr).2
    have hy := Ascending.above hl (cmp_flip.1 hc)
    refine ⟨Ascending.cons.2 ⟨fun z hz => ?_, h1⟩, fun z => ?_⟩
    · rcases (h2 z).1 hz with h | ⟨h, _⟩
      · exact hy z h
      · exact (Ascending.cons.1 hr).1 z h
    · rw [List.mem_cons, h2, List.mem_cons (b := y)]
      constructor
      · rintro (rfl | h | ⟨h, h'⟩)
        · exact .inr ⟨.inl rfl, not_has_of_lt hy⟩
        · exact .inl h
        · exact .inr ⟨.inr h, h'⟩
      · rintro (h | ⟨rfl | h, h'⟩)
        · exact .inr (.inl h)
        · exact .inl rfl
        · exact .inr (.inr ⟨h, h'⟩)

theorem subList_spec (l r : List T) (hl : Ascending l) (hr : Ascending r) :
    subList l r = true ↔ ∀ x ∈ l, Has x r := by
  fun_induction subList l r with
  | case1 => simp
  | case2 x l => exact ⟨by simp, fun h => absurd (h x (by simp)) has_nil⟩
  | case3 x l y r hc ih =>
    rw [ih hl (Ascending.cons.1 hr).2]
    have : ∀ z ∈ x :: l, (Has z r ↔ Has z (y :: r)) := fun z hz => by
      have := Ascending.above hl hc z hz
      rw [has_cons]
      refine ⟨.inr, fun h => h.elim (fun he => ?_) id⟩
      simp [cmp_eq_comm.1 he] at this
    exact ⟨fun h z hz => (this z hz).1 (h z hz), fun h z hz => (this z hz).2 (h z hz)⟩
  | case4 x l y r hc ih =>
    rw [ih (Ascending.cons.1 hl).2 (Ascending.cons.1 hr).2]
    have hc' := cmp_eq_comm.1 hc
    constructor
    · intro h z hz
      rcases List.mem_cons.1 hz with rfl | hz
      · exact has_cons.2 (.inl hc')
      · exact has_cons.2 (.inr (h z hz))
    · intro h z hz
      refine (has_cons.1 (h z (List.mem_cons_of_mem _ hz))).elim (fun he => ?_) id
      have := cmp_lt_eq ((Ascending.cons.1 hl).1 z hz) he
      simp [hc'] at this
  | case5 x l y r hc =>
    simp only [Bool.false_eq_true, false_iff]
    intro h
    exact not_has_of_lt (Ascending.above hr (cmp_flip.1 hc)) (h x (by simp))

/-- Pigeonhole: ascending elements that all occur in `r` are at most as many as `r`. -/
theorem length_le_of_has (l r : List T) (hl : Ascending l) (hr : Ascending r) (h : ∀ x ∈ l, Has x r) :
    l.length ≤ r.length := by
  have := (subList_spec l r hl hr).2 h
  clear h hl hr
  fun_induction subList l r <;> grind

theorem length_filter_lower (l r : List T) (hl : Ascending l) (hr : Ascending r) (c : T → Bool)
    (hc : ∀ x ∈ l, c x = true ↔ Has x r) : l.length ≤ (l.filter fun x => !c x).length + r.length := by
  have h1 : (l.filter c).length ≤ r.length := by
    refine length_le_of_has _ _ (List.Pairwise.filter _ hl) hr fun x hx => ?_
    rw [List.mem_filter] at hx
    exact (hc x hx.1).1 hx.2
  have := List.length_eq_countP_add_countP (l := l) c
  simp only [List.countP_eq_length_filter, Bool.not_eq_true, Bool.decide_eq_false] at this
  omega

end lawful

end Verif.BTree
