import Verif.Heap.EntryUse
import Verif.Heap.Proofs.ApiMap
/-
Entries that are held and used.
-/
namespace Verif.Heap
open Verif
open Verif.BTree (Map Handle Entry)
open Verif.Spec (EntryLook EntryEnd EntrySeen Place)

variable {K V : Type} {E : String → Prop}

/-- The entry is at that place of the map. -/
def Holds (M : Map K V) (k : K) (e : Entry K) (p : Place K V) : Prop :=
  match e with
  | .occupied hd => ∃ kv, p.here = some kv ∧ M.Points hd p.before kv p.after
  | .vacant k' hd => k' = k ∧ p.here = none ∧ M.Gap hd p.before p.after

theorem Holds.list {M : Map K V} {k : K} {e : Entry K} {p : Place K V} (h : Holds M k e p) : M.toList = p.list := by
  cases e with
  | occupied hd =>
    obtain ⟨kv, h1, h2⟩ := h
    rw [h2.toList, Place.list, h1]
    simp
  | vacant k' hd =>
    obtain ⟨_, h1, h2⟩ := h
    rw [h2.toList, Place.list, h1]
    simp

/-- Everything known about an entry in hand. -/
structure InHand (M : Map K V) (ta : ATree K V) (k : K) (e : Entry K) (e' : HEntry K) (p : Place K V) : Prop where
  wf : M.WF
  owned : M.shared = false
  holds : Holds M k e p
  at_ : EntryAt M.height ta e e'

/-- The map with the entry in hand. -/
def hand (hm : HMap) (k : K) (e : Entry K) (e' : HEntry K) (p : Place K V) : HProp K V :=
  hex fun x : Map K V × ATree K V => fact (InHand x.1 x.2 k e e' p) ∗ own hm x.1 x.2

theorem hand_in {hm : HMap} {M : Map K V} {ta : ATree K V} {k : K} {e : Entry K} {e' : HEntry K} {p : Place K V} (h : InHand M ta k e e' p) :
    Ent (own hm M ta) (hand hm k e e' p) := Ent.hex_right (M, ta) (Ent.fact_right h (Ent.refl _))

theorem hand_elim {α : Type} {hm : HMap} {k : K} {e : Entry K} {e' : HEntry K} {p : Place K V} {R : HProp K V} {x : HM K V α} {Qb : α → HProp K V}
    (h : ∀ M ta, InHand M ta k e e' p → Triple E (own hm M ta ∗ R) x Qb) : Triple E (hand hm k e e' p ∗ R) x Qb := by
  unfold hand
  rw [hex_sep]
  refine Triple.ofHex fun y => ?_
  rw [sep_assoc]
  exact Triple.getFact fun hf => h y.1 y.2 hf

theorem hand_elim' {α : Type} {hm : HMap} {k : K} {e : Entry K} {e' : HEntry K} {p : Place K V} {x : HM K V α} {Qb : α → HProp K V}
    (h : ∀ M ta, InHand M ta k e e' p → Triple E (own hm M ta) x Qb) : Triple E (hand hm k e e' p) x Qb := by
  unfold hand
  refine Triple.ofHex fun y => ?_
  exact Triple.getFact fun hf => h y.1 y.2 hf

/-- `key()`. -/
theorem entryKey_hand {hm : HMap} {k : K} {e : Entry K} {e' : HEntry K} {p : Place K V} :
    Triple E (hand hm k e e' p) (entryKey e') (fun o => fact (o = (p.here.map Prod.fst).getD k) ∗ hand hm k e e' p) := by
  refine hand_elim' fun M ta h => ?_
  have hi := h
  obtain ⟨_, _, hh, hat⟩ := h
  cases e with
  | occupied hd =>
    cases e' with
    | vacant _ _ => exact hat.elim
    | occupied hr =>
      obtain ⟨kv, h1, h2⟩ := hh
      refine Triple.seq (kvOf_own h2.kvAt hat) fun x => ?_
      refine Triple.getFact fun hx => ?_
      subst hx
      exact Triple.ofPure (Ent.putFact (by simp [h1]) (hand_in hi))
  | vacant k' hd =>
    cases e' with
    | occupied _ => exact hat.elim
    | vacant k2 hr =>
      obtain ⟨h0, h1, h2⟩ := hh
      obtain ⟨h3, _⟩ := hat
      subst h0 h3
      exact Triple.ofPure (Ent.putFact (by simp [h1]) (hand_in hi))

/-- `get()`. -/
theorem entryGet_hand {hm : HMap} {k : K} {e : Entry K} {e' : HEntry K} {p : Place K V} :
    Triple E (hand hm k e e' p) e'.get (fun o => fact (o = p.here.map Prod.snd) ∗ hand hm k e e' p) := by
  refine hand_elim' fun M ta h => ?_
  have hi := h
  obtain ⟨_, _, hh, hat⟩ := h
  cases e with
  | occupied hd =>
    cases e' with
    | vacant _ _ => exact hat.elim
    | occupied hr =>
      obtain ⟨kv, h1, h2⟩ := hh
      refine Triple.seq (kvOf_own h2.kvAt hat) fun x => ?_
      refine Triple.getFact fun hx => ?_
      subst hx
      exact Triple.ofPure (Ent.putFact (by simp [h1]) (hand_in hi))
  | vacant k' hd =>
    cases e' with
    | occupied _ => exact hat.elim
    | vacant k2 hr =>
      obtain ⟨h0, h1, h2⟩ := hh
      exact Triple.ofPure (Ent.putFact (by simp [h1]) (hand_in hi))

/-- A write through a reference to the pair. -/
theorem write_hand {hm : HMap} {M : Map K V} {ta : ATree K V} {k : K} {hd : Handle} {hr : HRef} {p : Place K V} (h : InHand M ta k (.occupied hd) (.occupied hr) p)
    (f : V → V) : Triple E (own hm M ta) (updVal hr f) (fun _ => hand hm k (.occupied hd) (.occupied hr) (p.map f)) := by
  obtain ⟨wf, ow, ⟨kv, h1, h2⟩, hat⟩ := h
  obtain ⟨M', g1, g2, g3, g4, g5, g6⟩ := Map.setVal_spec wf h2 (f kv.2)
  refine (updVal_own hat h2.kvAt g1).post fun _ => ?_
  rintro w ⟨ta', hw⟩
  obtain ⟨⟨k1, k2⟩, hw⟩ := fact_sep.1 hw
  have hI : InHand M' ta' k (.occupied hd) (.occupied hr) (p.map f) :=
    ⟨g2, g6.trans ow, ⟨(kv.1, f kv.2), by simp [Place.map, h1], g3⟩, by show HandleAt _ _ _ _; rw [g5]; exact k2 _ _ hat⟩
  exact hand_in hI w hw

/-- The same when the old value is taken out. -/
theorem set_hand {hm : HMap} {M : Map K V} {ta : ATree K V} {k : K} {hd : Handle} {hr : HRef} {p : Place K V} (h : InHand M ta k (.occupied hd) (.occupied hr) p)
    (v : V) : Triple E (own hm M ta) (setVal hr v) (fun o => fact (some o = p.here.map Prod.snd) ∗ hand hm k (.occupied hd) (.occupied hr) (p.map fun _ => v)) := by
  obtain ⟨wf, ow, ⟨kv, h1, h2⟩, hat⟩ := h
  obtain ⟨M', g1, g2, g3, g4, g5, g6⟩ := Map.setVal_spec wf h2 v
  refine (setVal_spec ow hat g1).post fun o => ?_
  rintro w ⟨ta', hw⟩
  obtain ⟨⟨k0, k1, k3, k2⟩, hw'⟩ := fact_sep.1 hw
  subst k0
  have hI : InHand M' ta' k (.occupied hd) (.occupied hr) (p.map fun _ => v) :=
    ⟨g2, g6.trans ow, ⟨(kv.1, v), by simp [Place.map, h1], g3⟩, by show HandleAt _ _ _ _; rw [g5]; exact k2 _ _ hat⟩
  exact Ent.fact_right (by simp [h1]) (hand_in hI) w hw'

theorem Place.map_none {p : Place K V} (h : p.here = none) (f : V → V) : p.map f = p := by
  cases p
  simp only at h
  subst h
  rfl

/-- The calls that leave the entry in hand. -/
theorem look_hand {hm : HMap} {k : K} {e : Entry K} {e' : HEntry K} {p : Place K V} (a : EntryLook V) :
    Triple E (hand hm k e e' p) (e'.look a) (fun o => fact (o = ((a.spec k p).1, (a.spec k p).2.1)) ∗ hand hm k e e' (a.spec k p).2.2) := by
  cases a with
  | key =>
    refine Triple.seq entryKey_hand fun x => ?_
    refine Triple.getFact fun hx => ?_
    subst hx
    exact Triple.ofPure (Ent.putFact rfl (Ent.refl _))
  | get =>
    refine Triple.seq entryGet_hand fun x => ?_
    refine Triple.getFact fun hx => ?_
    subst hx
    exact Triple.ofPure (Ent.putFact rfl (Ent.refl _))
  | debug =>
    unfold HEntry.look HEntry.debug
    refine Triple.assoc ?_
    refine Triple.seq entryKey_hand fun x => ?_
    refine Triple.getFact fun hx => ?_
    subst hx
    refine Triple.assoc ?_
    refine Triple.seq entryGet_hand fun x => ?_
    refine Triple.getFact fun hx => ?_
    subst hx
    refine Triple.bindPure ?_
    exact Triple.ofPure (Ent.putFact rfl (Ent.refl _))
  | modify f panics =>
    refine hand_elim' fun M ta h => ?_
    have hi := h
    obtain ⟨_, _, hh, hat⟩ := h
    cases e with
    | occupied hd =>
      cases e' with
      | vacant _ _ => exact hat.elim
      | occupied hr =>
        obtain ⟨kv, h1, h2⟩ := hh
        refine Triple.seq (write_hand hi f) fun _ => ?_
        refine Triple.ofPure ?_
        cases panics <;> simp only [EntryLook.spec, h1, Option.isSome_some, Bool.and_true, if_true, Bool.false_eq_true, if_false] <;>
          exact Ent.putFact trivial (Ent.refl _)
    | vacant k' hd =>
      cases e' with
      | occupied _ => exact hat.elim
      | vacant k2 hr =>
        obtain ⟨h0, h1, h2⟩ := hh
        refine Triple.ofPure ?_
        simp only [EntryLook.spec, h1, Option.isSome_none, Bool.and_false, Bool.false_eq_true, if_false, Place.map_none h1]
        exact Ent.putFact trivial (hand_in hi)
  | write f =>
    refine hand_elim' fun M ta h => ?_
    have hi := h
    obtain ⟨_, _, hh, hat⟩ := h
    cases e with
    | occupied hd =>
      cases e' with
      | vacant _ _ => exact hat.elim
      | occupied hr =>
        refine Triple.seq (write_hand hi f) fun _ => ?_
        exact Triple.ofPure (Ent.putFact rfl (Ent.refl _))
    | vacant k' hd =>
      cases e' with
      | occupied _ => exact hat.elim
      | vacant k2 hr =>
        obtain ⟨h0, h1, h2⟩ := hh
        refine Triple.ofPure ?_
        simp only [EntryLook.spec, Place.map_none h1]
        exact Ent.putFact trivial (hand_in hi)
  | insert v =>
    refine hand_elim' fun M ta h => ?_
    have hi := h
    obtain ⟨_, _, hh, hat⟩ := h
    cases e with
    | occupied hd =>
      cases e' with
      | vacant _ _ => exact hat.elim
      | occupied hr =>
        refine Triple.seq (set_hand hi v) fun o => ?_
        refine Triple.getFact fun ho => ?_
        refine Triple.ofPure ?_
        simp only [EntryLook.spec, ← ho]
        exact Ent.putFact trivial (Ent.refl _)
    | vacant k' hd =>
      cases e' with
      | occupied _ => exact hat.elim
      | vacant k2 hr =>
        obtain ⟨h0, h1, h2⟩ := hh
        refine Triple.ofPure ?_
        simp only [EntryLook.spec, Place.map_none h1, h1, Option.map_none]
        exact Ent.putFact trivial (hand_in hi)

/-- What is left when the entry has been used up: the answer and the list of the map, unless an allocation was refused. -/
def UsedUp {α : Type} (al : Alloc) (failed : α → Prop) (a : α) (l : List (K × V)) (o : α × HMap) : HProp K V :=
  hex fun x : Option (Alloc × Map K V) =>
    match x with
    | none => fact (failed o.1 ∧ ¬ al.Good) ∗ anything
    | some (al', M') => fact (o.1 = a ∧ M'.WF ∧ M'.toList = l ∧ (al.Good → al'.Good)) ∗ rep o.2 M' ∗ sched al'

theorem usedUp_ok {α : Type} {al al' : Alloc} {failed : α → Prop} {a : α} {l : List (K × V)} {hm : HMap} {M' : Map K V} {P : HProp K V} (h1 : M'.WF)
    (h2 : M'.toList = l) (h : Ent P (rep hm M' ∗ sched al')) (h0 : al.Good → al'.Good) : Ent P (UsedUp al failed a l (a, hm)) :=
  Ent.hex_right (some (al', M')) (Ent.fact_right ⟨rfl, h1, h2, h0⟩ h)

theorem usedUp_failed {α : Type} {al : Alloc} {failed : α → Prop} {a : α} {l : List (K × V)} {o : α × HMap} {P : HProp K V} (h1 : failed o.1) (h2 : ¬ al.Good) :
    Ent P (UsedUp al failed a l o) := by
  refine Ent.hex_right none (Ent.fact_right ⟨h1, h2⟩ (fun _ _ => trivial))

theorem usedUp_hand {α : Type} {al al' : Alloc} {failed : α → Prop} {a : α} {hm : HMap} {k : K} {e : Entry K} {e' : HEntry K} {p : Place K V} (h0 : al.Good → al'.Good) :
    Ent (hand hm k e e' p ∗ sched al') (UsedUp al failed a p.list (a, hm)) := by
  unfold hand
  rw [hex_sep]
  rintro w ⟨x, hw⟩
  rw [sep_assoc] at hw
  obtain ⟨h, hw⟩ := fact_sep.1 hw
  exact usedUp_ok h.wf h.holds.list (Ent.frame Ent.ofRep _) h0 w hw

/-- `VacantEntry::try_insert`. -/
theorem insert_hand {α : Type} {hm : HMap} {M : Map K V} {ta : ATree K V} {k : K} {hd : Handle} {hr : HRef} {p : Place K V}
    (h : InHand M ta k (.vacant k hd) (.vacant k hr) p) (v : V) {al : Alloc} {f : Option HRef × HMap → HM K V α} {Qb : α → HProp K V}
    (herr : ¬ al.Good → ∀ hm', Triple E anything (f (none, hm')) Qb)
    (hok : ∀ hm' hd' hr' al', (al.Good → al'.Good) → Triple E (hand hm' k (.occupied hd') (.occupied hr') { p with here := some (k, v) } ∗ sched al') (f (some hr', hm')) Qb) :
    Triple E (own hm M ta ∗ sched al) (hm.vacantInsert hr (k, v) >>= f) Qb := by
  obtain ⟨wf, ow, ⟨_, h1, h2⟩, _, hat⟩ := h
  obtain ⟨r, M', al', g1, g2, g3, g4, g5⟩ := Map.vacantInsert_spec wf ow h2 k v al
  refine Triple.seq (vacantInsert_spec ow hat g1) fun o => ?_
  obtain ⟨o, hm'⟩ := o
  cases r with
  | error x =>
    rw [vacPost_error]
    refine Triple.getFact fun ho => ?_
    dsimp only at ho
    subst ho
    refine Triple.pre (herr (fun hg => ?_) hm') (fun _ _ => trivial)
    obtain ⟨_, _, h⟩ := g5 hg
    cases h
  | ok loc =>
    rw [vacPost_ok, sep_hex]
    refine Triple.ofHex fun x => ?_
    obtain ⟨ta', hr'⟩ := x
    refine Triple.getFact fun ho => ?_
    obtain ⟨ho, hat'⟩ := ho
    dsimp only at ho hat'
    subst ho
    obtain ⟨g6, g7⟩ := g4
    refine Triple.pre (hok hm' loc hr' al' fun hg => (g5 hg).1) ?_
    have hI : InHand M' ta' k (.occupied loc) (.occupied hr') { p with here := some (k, v) } := ⟨g6, g2, ⟨_, rfl, g7⟩, hat'⟩
    refine Ent.trans (Q := own hm' M' ta' ∗ sched al') (by ent_ac) (Ent.frame (hand_in hI) _)

/-- `or_try_insert`, `or_try_insert_with`, `or_default`. -/
theorem fill_hand {hm : HMap} {k : K} {e : Entry K} {e' : HEntry K} {p : Place K V} (v : Option V) (f : V → V) {al : Alloc} :
    Triple E (hand hm k e e' p ∗ sched al) (hm.entryFill e' v f) (UsedUp al (· = .failed) (p.fill k v f).1 (p.fill k v f).2.list) := by
  refine hand_elim fun M ta h => ?_
  have hi := h
  obtain ⟨wf, ow, hh, hat⟩ := h
  cases e with
  | occupied hd =>
    cases e' with
    | vacant _ _ => exact hat.elim
    | occupied hr =>
      obtain ⟨kv, h1, h2⟩ := hh
      unfold HMap.entryFill
      refine Triple.callEq (P₀ := own hm M ta) (kvOf_own h2.kvAt hat) ?_
      refine Triple.call (P₀ := own hm M ta) (write_hand hi f) fun _ => ?_
      refine Triple.ofPure ?_
      simp only [Place.fill, h1]
      refine Ent.trans (Q := hand hm k (.occupied hd) (.occupied hr) (p.map f) ∗ sched al) (by ent_ac) (usedUp_hand id)
  | vacant k1 hd =>
    cases e' with
    | occupied _ => exact hat.elim
    | vacant k2 hr =>
      obtain ⟨h0, h1, h2⟩ := hh
      obtain ⟨h3, hat⟩ := hat
      subst h0 h3
      cases v with
      | none =>
        refine Triple.ofPure ?_
        simp only [Place.fill, h1]
        exact Ent.trans (Ent.frame (hand_in hi) _) (usedUp_hand id)
      | some v =>
        unfold HMap.entryFill
        refine insert_hand hi v (fun hg hm' => ?_) fun hm' hd' hr' al' hg => ?_
        · exact Triple.ofPure (usedUp_failed rfl hg)
        · refine hand_elim fun M2 ta2 h2 => ?_
          have hi2 := h2
          obtain ⟨wf2, ow2, ⟨kv, j1, j2⟩, hat2⟩ := h2
          obtain rfl := Option.some.inj j1
          refine Triple.callEq (P₀ := own hm' M2 ta2) (kvOf_own j2.kvAt hat2) ?_
          refine Triple.call (P₀ := own hm' M2 ta2) (write_hand hi2 f) fun _ => ?_
          refine Triple.ofPure ?_
          simp only [Place.fill, h1]
          exact Ent.trans (Q := hand hm' _ (.occupied hd') (.occupied hr') { p with here := some (_, f v) } ∗ sched al') (by ent_ac) (usedUp_hand hg)

/-- `remove`, `remove_entry`. -/
theorem remove_hand {α : Type} {hm : HMap} {M : Map K V} {ta : ATree K V} {k : K} {hd : Handle} {hr : HRef} {p : Place K V}
    (h : InHand M ta k (.occupied hd) (.occupied hr) p) {al : Alloc} {f : (K × V) × HMap → HM K V (α × HMap)} {a : α} {failed : α → Prop}
    (hf : ∀ kv hm', p.here = some kv → f (kv, hm') = pure (a, hm')) :
    Triple E (own hm M ta ∗ sched al) (hm.removeKv hr >>= f) (UsedUp al failed a { p with here := none }.list) := by
  obtain ⟨wf, ow, ⟨kv, h1, h2⟩, hat⟩ := h
  obtain ⟨M', g1, g2, g3, g4⟩ := Map.removeKv_spec wf h2
  refine Triple.call (P₀ := own hm M ta) (removeKv_spec ow hat g1) fun o => ?_
  rw [sep_assoc]
  refine Triple.getFact fun ho => ?_
  obtain ⟨o, hm'⟩ := o
  dsimp only at ho
  subst ho
  rw [hf _ _ h1]
  exact Triple.ofPure (usedUp_ok g2 (by rw [g3]; simp [Place.list]) (Ent.refl _) id)

/-- The calls that use the entry up. -/
theorem end_hand {hm : HMap} {k : K} {e : Entry K} {e' : HEntry K} {p : Place K V} (fin : EntryEnd V) {al : Alloc} :
    Triple E (hand hm k e e' p ∗ sched al) (hm.entryEnd e' fin) (UsedUp al (· = .failed) (fin.spec k p).1 (fin.spec k p).2.list) := by
  cases fin with
  | leave => exact Triple.ofPure (usedUp_hand (by first | exact id | assumption))
  | orInsert v f => exact fill_hand (some v) f
  | orInsertWith v f => exact fill_hand v f
  | orDefault v f => exact fill_hand v f
  | remove =>
    refine hand_elim fun M ta h => ?_
    have hi := h
    obtain ⟨wf, ow, hh, hat⟩ := h
    cases e with
    | occupied hd =>
      cases e' with
      | vacant _ _ => exact hat.elim
      | occupied hr => exact remove_hand hi fun kv hm' h => by simp [EntryEnd.spec, h]
    | vacant k1 hd =>
      cases e' with
      | occupied _ => exact hat.elim
      | vacant k2 hr =>
        obtain ⟨h0, h1, h2⟩ := hh
        refine Triple.ofPure ?_
        have : EntryEnd.spec k p .remove = (.value none, p) := by
          cases p
          simp only at h1
          subst h1
          rfl
        rw [this]
        exact Ent.trans (Ent.frame (hand_in hi) _) (usedUp_hand id)
  | removeEntry =>
    refine hand_elim fun M ta h => ?_
    have hi := h
    obtain ⟨wf, ow, hh, hat⟩ := h
    cases e with
    | occupied hd =>
      cases e' with
      | vacant _ _ => exact hat.elim
      | occupied hr => exact remove_hand hi fun kv hm' h => by simp [EntryEnd.spec, h]
    | vacant k1 hd =>
      cases e' with
      | occupied _ => exact hat.elim
      | vacant k2 hr =>
        obtain ⟨h0, h1, h2⟩ := hh
        refine Triple.ofPure ?_
        have : EntryEnd.spec k p .removeEntry = (.pair none, p) := by
          cases p
          simp only at h1
          subst h1
          rfl
        rw [this]
        exact Ent.trans (Ent.frame (hand_in hi) _) (usedUp_hand id)
  | intoMut f =>
    refine hand_elim fun M ta h => ?_
    have hi := h
    obtain ⟨wf, ow, hh, hat⟩ := h
    cases e with
    | occupied hd =>
      cases e' with
      | vacant _ _ => exact hat.elim
      | occupied hr =>
        refine Triple.call (P₀ := own hm M ta) (write_hand hi f) fun _ => ?_
        exact Triple.ofPure (usedUp_hand (by first | exact id | assumption))
    | vacant k1 hd =>
      cases e' with
      | occupied _ => exact hat.elim
      | vacant k2 hr =>
        obtain ⟨h0, h1, h2⟩ := hh
        refine Triple.ofPure ?_
        simp only [EntryEnd.spec, Place.map_none h1]
        exact Ent.trans (Ent.frame (hand_in hi) _) (usedUp_hand id)
  | intoKey =>
    refine hand_elim fun M ta h => ?_
    have hi := h
    obtain ⟨wf, ow, hh, hat⟩ := h
    cases e with
    | occupied hd =>
      cases e' with
      | vacant _ _ => exact hat.elim
      | occupied hr =>
        obtain ⟨kv, h1, h2⟩ := hh
        refine Triple.ofPure ?_
        simp only [EntryEnd.spec, h1, Option.isSome_some, if_true]
        exact Ent.trans (Ent.frame (hand_in hi) _) (usedUp_hand id)
    | vacant k1 hd =>
      cases e' with
      | occupied _ => exact hat.elim
      | vacant k2 hr =>
        obtain ⟨h0, h1, h2⟩ := hh
        obtain ⟨h3, hat⟩ := hat
        subst h0 h3
        refine Triple.ofPure ?_
        simp only [EntryEnd.spec, h1, Option.isSome_none, Bool.false_eq_true, if_false]
        exact Ent.trans (Ent.frame (hand_in hi) _) (usedUp_hand id)
  | insert v f =>
    refine hand_elim fun M ta h => ?_
    have hi := h
    obtain ⟨wf, ow, hh, hat⟩ := h
    cases e with
    | occupied hd =>
      cases e' with
      | vacant _ _ => exact hat.elim
      | occupied hr =>
        obtain ⟨kv, h1, h2⟩ := hh
        refine Triple.ofPure ?_
        simp only [EntryEnd.spec, h1, Option.isSome_some, if_true]
        exact Ent.trans (Ent.frame (hand_in hi) _) (usedUp_hand id)
    | vacant k1 hd =>
      cases e' with
      | occupied _ => exact hat.elim
      | vacant k2 hr =>
        obtain ⟨h0, h1, h2⟩ := hh
        obtain ⟨h3, hat⟩ := hat
        subst h0 h3
        simp only [EntryEnd.spec, h1, Option.isSome_none, Bool.false_eq_true, if_false]
        unfold HMap.entryEnd
        refine insert_hand hi v (fun hg hm' => ?_) fun hm' hd' hr' al' hg => ?_
        · exact Triple.ofPure (usedUp_failed rfl hg)
        · refine hand_elim fun M2 ta2 h2 => ?_
          refine Triple.call (P₀ := own hm' M2 ta2) (write_hand h2 f) fun _ => ?_
          exact Triple.ofPure (usedUp_hand (by first | exact id | assumption))

/-- The program on the entry in hand. -/
theorem steps_hand {hm : HMap} {k : K} {e : Entry K} {e' : HEntry K} (fin : EntryEnd V) {al : Alloc} : ∀ (as : List (EntryLook V)) {p : Place K V},
    Triple E (hand hm k e e' p ∗ sched al) (hm.entrySteps e' fin as) (UsedUp al (.failed ∈ ·) (fin.specs k as p).1 (fin.specs k as p).2)
  | [], p => by
    refine Triple.seq (end_hand fin) fun o => ?_
    obtain ⟨o, hm'⟩ := o
    refine Triple.ofPure ?_
    rintro w ⟨x, hw⟩
    cases x with
    | none =>
      obtain ⟨⟨h1, h2⟩, _⟩ := fact_sep.1 hw
      exact usedUp_failed (P := anything) (by dsimp only at h1 ⊢; simp [h1]) h2 w trivial
    | some y =>
      obtain ⟨⟨h1, h2, h3, h4⟩, hw⟩ := fact_sep.1 hw
      dsimp only at h1
      subst h1
      exact usedUp_ok h2 h3 (Ent.refl _) h4 w hw
  | a :: as, p => by
    unfold HMap.entrySteps
    refine Triple.call (P₀ := hand hm k e e' p) (look_hand a) fun o => ?_
    rw [sep_assoc]
    refine Triple.getFact fun ho => ?_
    subst ho
    dsimp only
    cases hp : (a.spec k p).2.1 with
    | true =>
      simp only [EntryEnd.specs, hp, if_true]
      exact Triple.ofPure (usedUp_hand (by first | exact id | assumption))
    | false =>
      simp only [EntryEnd.specs, hp, Bool.false_eq_true, if_false]
      refine Triple.seq (steps_hand fin as) fun o => ?_
      obtain ⟨o, hm'⟩ := o
      refine Triple.ofPure ?_
      rintro w ⟨x, hw⟩
      cases x with
      | none =>
        obtain ⟨⟨h1, h2⟩, _⟩ := fact_sep.1 hw
        exact usedUp_failed (P := anything) (by dsimp only at h1 ⊢; exact List.mem_cons_of_mem _ h1) h2 w trivial
      | some y =>
        obtain ⟨⟨h1, h2, h3, h4⟩, hw⟩ := fact_sep.1 hw
        dsimp only at h1
        subst h1
        exact usedUp_ok h2 h3 (Ent.refl _) h4 w hw

/-- Using an entry, in any order of the keys: there is a place in the list where the entry is, and the program does what the specification does there. -/
theorem entryUse_at [Ord K] {hm : HMap} {M M' : Map K V} {k : K} {al al' : Alloc} {res : Res (Entry K)} (hx : M.tryEntry k al = .ok (res, M', al')) (hM : M'.WF)
    {p : Place K V} (hp : ∀ e, res = .ok e → M'.shared = false ∧ Holds M' k e p) (hal : al.Good → al'.Good ∧ ∃ e, res = .ok e)
    (as : List (EntryLook V)) (fin : EntryEnd V) :
    Triple E (rep hm M ∗ sched al) (hm.entryUse k as fin) (UsedUp al (.failed ∈ ·) (fin.specs k as p).1 (fin.specs k as p).2) := by
  unfold HMap.entryUse
  refine Triple.bindEntry hx (fun e hm' he => ?_) fun e e' hm' ta he hs hat => ?_
  · refine Triple.ofPure (usedUp_failed (by simp) fun hg => ?_)
    obtain ⟨_, x, h⟩ := hal hg
    rw [he] at h
    cases h
  · obtain ⟨h1, h2⟩ := hp e he
    have hI : InHand M' ta k e e' p := ⟨hM, h1, h2, hat⟩
    refine Triple.pre ?_ (Ent.frame (hand_in hI) _)
    refine (steps_hand fin as).post fun o => ?_
    rintro w ⟨x, hw⟩
    cases x with
    | none =>
      obtain ⟨⟨h1, h2⟩, _⟩ := fact_sep.1 hw
      exact usedUp_failed (P := anything) h1 (fun hg => h2 (hal hg).1) w trivial
    | some y =>
      obtain ⟨⟨h1, h2, h3, h4⟩, hw⟩ := fact_sep.1 hw
      exact ⟨some y, fact_sep.2 ⟨⟨h1, h2, h3, fun hg => h4 (hal hg).1⟩, hw⟩⟩

theorem entryUse_any [Ord K] {M : Map K V} (hM : M.WF) (k : K) (al : Alloc) :
    ∃ p : Place K V, p.list = M.toList ∧ (∀ kv ∈ p.here, compare k kv.1 = .eq) ∧ ∀ (E : String → Prop) (hm : HMap) (as : List (EntryLook V)) (fin : EntryEnd V),
      Triple E (rep hm M ∗ sched al) (hm.entryUse k as fin) (UsedUp al (.failed ∈ ·) (fin.specs k as p).1 (fin.specs k as p).2) := by
  obtain ⟨r, M', al', h1, h2, h3, h4, h5, h6⟩ := Map.tryEntry_wf hM k al
  cases r with
  | error x =>
    refine ⟨⟨[], none, M.toList⟩, by simp [Place.list], by simp, fun E hm as fin => entryUse_at h1 h2 (by simp) h6 as fin⟩
  | ok e =>
    cases e with
    | occupied hd =>
      obtain ⟨g1, A, kv, B, g2, g3⟩ := h5
      have hp : Holds M' k (.occupied hd) ⟨A, some kv, B⟩ := ⟨kv, rfl, g2⟩
      refine ⟨⟨A, some kv, B⟩, by rw [← h3]; exact hp.list.symm, by simpa using g3, fun E hm as fin => entryUse_at h1 h2 ?_ h6 as fin⟩
      intro e he
      obtain rfl := Except.ok.inj he
      exact ⟨g1, hp⟩
    | vacant k1 hd =>
      obtain ⟨g1, rfl, A, B, g2⟩ := h5
      have hp : Holds M' k1 (.vacant k1 hd) ⟨A, none, B⟩ := ⟨rfl, rfl, g2⟩
      refine ⟨⟨A, none, B⟩, by rw [← h3]; exact hp.list.symm, by simp, fun E hm as fin => entryUse_at h1 h2 ?_ h6 as fin⟩
      intro e he
      obtain rfl := Except.ok.inj he
      exact ⟨g1, hp⟩

theorem entryUse_ordered [Ord K] [Std.TransOrd K] {M : Map K V} (hM : M.Valid) (k : K) (al : Alloc) :
    ∃ p : Place K V, p.list = M.toList ∧ p.IsFor k ∧ ∀ (E : String → Prop) (hm : HMap) (as : List (EntryLook V)) (fin : EntryEnd V),
      Triple E (rep hm M ∗ sched al) (hm.entryUse k as fin) (UsedUp al (.failed ∈ ·) (fin.specs k as p).1 (fin.specs k as p).2) := by
  obtain ⟨r, M', al', h1, h2, h3, h4, h5, h6⟩ := Map.tryEntry_ordered hM k al
  cases r with
  | error x =>
    refine ⟨⟨[], none, M.toList⟩, by simp [Place.list], ⟨by simp, by simp, by simp [h5.2]⟩, fun E hm as fin => entryUse_at h1 h2.toShaped (by simp) h6 as fin⟩
  | ok e =>
    obtain ⟨g1, g2⟩ := h5
    cases e with
    | occupied hd =>
      obtain ⟨A, kv, B, g2, g3, g4, g5⟩ := g2
      have hp : Holds M' k (.occupied hd) ⟨A, some kv, B⟩ := ⟨kv, rfl, g2⟩
      refine ⟨⟨A, some kv, B⟩, by rw [← h3]; exact hp.list.symm, ⟨g3, by simpa using g4, g5⟩, fun E hm as fin => entryUse_at h1 h2.toShaped ?_ h6 as fin⟩
      intro e he
      obtain rfl := Except.ok.inj he
      exact ⟨g1, hp⟩
    | vacant k1 hd =>
      obtain ⟨rfl, A, B, g2, g3, g4⟩ := g2
      have hp : Holds M' k1 (.vacant k1 hd) ⟨A, none, B⟩ := ⟨rfl, rfl, g2⟩
      refine ⟨⟨A, none, B⟩, by rw [← h3]; exact hp.list.symm, ⟨g3, by simp, g4⟩, fun E hm as fin => entryUse_at h1 h2.toShaped ?_ h6 as fin⟩
      intro e he
      obtain rfl := Except.ok.inj he
      exact ⟨g1, hp⟩

end Verif.Heap
