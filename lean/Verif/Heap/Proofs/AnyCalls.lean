import Verif.Heap.Proofs.AnyOrd
/-
The calls on one map when the comparisons answer anything at all: what each may answer, and what it leaves.
-/
namespace Verif.Heap
open Verif
open Verif.BTree (B MIN_LEN CAPACITY Tree Handle Map emptyLeaf KvAt EdgeAt Entry Range Iter)
open Verif.Spec (Bound End MutAct Op Out Looks LooksMem Extends)

variable {K V Q α β : Type} {E : String → Prop}

/-- What a failed insertion may have lost; a call that was unwound has lost nothing. -/
def spillO (b : Bool) : Option (Out K V) → HProp K V
  | some o => spill b o
  | none => emp

/-- An insertion failed for want of memory, or the call left a well-formed map, as `R` says of its answer and the entries. -/
def AnyPost (b : Bool) (mem : Prop) (R : Option (Out K V) → List (K × V) → Prop) (r : Option (Out K V) × HMap) : HProp K V :=
  hex fun y : Map K V × Alloc =>
    fact ((mem → y.2.Good) ∧ ((b = true ∧ r.1 = some .failed ∧ ¬ mem) ∨ (y.1.WF ∧ R r.1 y.1.toList))) ∗ rep r.2 y.1 ∗ sched y.2 ∗ spillO b r.1

theorem callPost_ok {b : Bool} {mem : Prop} {R : Option (Out K V) → List (K × V) → Prop} {o : Option (Out K V)} {hm : HMap} {M : Map K V} {al : Alloc}
    {P : HProp K V} (h : Ent P (rep hm M ∗ sched al)) (hM : M.WF) (hal : mem → al.Good) (hR : R o M.toList) (ho : b = false ∨ o ≠ some .failed) :
    Ent P (AnyPost b mem R (o, hm)) := by
  refine Ent.hex_right (M, al) (Ent.fact_right ⟨hal, .inr ⟨hM, hR⟩⟩ ?_)
  have : spillO b o = (emp : HProp K V) := by
    cases o with
    | none => rfl
    | some o =>
      rcases ho with rfl | ho
      · exact spill_false (o := o)
      · exact spill_ne fun h => ho (by rw [h])
  rw [this, sep_emp]
  exact h

theorem callPost_failed {mem : Prop} {R : Option (Out K V) → List (K × V) → Prop} {hm : HMap} {M : Map K V} {al : Alloc}
    {P : HProp K V} (h : Ent P (rep hm M ∗ sched al ∗ litter)) (hmem : ¬ mem) : Ent P (AnyPost true mem R (some .failed, hm)) :=
  Ent.hex_right (M, al) (Ent.fact_right ⟨fun h => absurd h hmem, .inl ⟨rfl, rfl, hmem⟩⟩ h)

/-! ### the search, and what comes after it -/

theorem Triple.bindSearchO {bor : K → Q} {q : Q} {hm : HMap} {M : Map K V} {ta : ATree K V} {c : Cmps Q} {R : HProp K V}
    {f : Option (Found × Cmps Q) → HM K V β} {Qb : β → HProp K V} (hn : ¬ c.Return → Triple E (own hm M ta ∗ R) (f none) Qb)
    (hf : ∀ hr c' hd A kv B, (c.Return → c'.Return) → M.shared = false → HandleAt M.height ta hd hr → M.Points hd A kv B →
      Triple E (own hm M ta ∗ R) (f (some (.found hr, c'))) Qb)
    (hg : ∀ hr c' hd A B, (c.Return → c'.Return) → HandleAt M.height ta hd hr → M.Gap hd A B →
      Triple E (own hm M ta ∗ R) (f (some (.goDown hr, c'))) Qb) :
    Triple E (own hm M ta ∗ R) (hm.searchO bor q c >>= f) Qb := by
  refine Triple.seq ((searchO_spec c).frame R) fun o => ?_
  rw [sep_assoc]
  refine Triple.getFact fun h => ?_
  match o, h with
  | none, h => exact hn h
  | some (.found hr, c'), ⟨h1, h2, hd, A, kv, B, h3, h4⟩ => exact hf hr c' hd A kv B h1 h2 h3 h4
  | some (.goDown hr, c'), ⟨h1, hd, A, B, h3, h4⟩ => exact hg hr c' hd A B h1 h3 h4

/-- What `try_entry` leaves for the rest of the program. -/
theorem Triple.bindTryEntryO {hm : HMap} {M : Map K V} {k : K} {c : Cmps K} {al : Alloc} {mem : Prop} {f : Option (Option (HEntry K) × Cmps K) × HMap → HM K V β}
    {Qb : β → HProp K V} (hM : M.WF) (hal : mem → al.Good)
    (herr : ∀ hm' al', ¬ mem → Triple E (rep hm' M ∗ sched al') (f (some (none, c), hm')) Qb)
    (hn : ∀ hm' M' al', ¬ c.Return → M'.WF → M'.toList = M.toList → (mem → al'.Good) → Triple E (rep hm' M' ∗ sched al') (f (none, hm')) Qb)
    (hf : ∀ hm' M' al' ta hr c' hd A kv B, (c.Return → c'.Return) → M'.WF → M'.shared = false → M.toList = A ++ kv :: B → (mem → al'.Good) →
      HandleAt M'.height ta hd hr → M'.Points hd A kv B → Triple E (own hm' M' ta ∗ sched al') (f (some (some (.occupied hr), c'), hm')) Qb)
    (hg : ∀ hm' M' al' ta hr c' hd A B, (c.Return → c'.Return) → M'.WF → M'.shared = false → M.toList = A ++ B → (mem → al'.Good) →
      HandleAt M'.height ta hd hr → M'.Gap hd A B → Triple E (own hm' M' ta ∗ sched al') (f (some (some (.vacant k hr), c'), hm')) Qb) :
    Triple E (rep hm M ∗ sched al) (hm.tryEntryO k c >>= f) Qb := by
  unfold rep
  rw [hex_sep]
  refine Triple.ofHex fun ta => ?_
  unfold HMap.tryEntryO
  refine Triple.assoc ?_
  obtain ⟨r, M', al', e1, e2, e3, e4, e5, e6, e7⟩ := BTree.Map.ensureRoot_spec hM al
  refine Triple.seq ensureRoot_spec fun o => ?_
  rw [e1]
  dsimp only
  cases r with
  | error e =>
    dsimp only
    obtain rfl := e6 e rfl
    refine Triple.getFact fun ho => ?_
    subst ho
    refine Triple.bindPure ?_
    refine Triple.pre (herr hm al' fun h => ?_) (Ent.trans (Q := own hm M' ta ∗ sched al') (by ent_ac) (Ent.frame Ent.ofRep _))
    have := (e7 (hal h)).1
    cases this
  | ok u =>
    dsimp only
    rw [sep_hex]
    refine Triple.ofHex fun x => ?_
    obtain ⟨hm', ta'⟩ := x
    refine Triple.getFact fun ho => ?_
    obtain ⟨ho, hsh⟩ := ho
    dsimp only at ho hsh
    subst ho
    dsimp only
    refine Triple.assoc ?_
    have hal' : mem → al'.Good := fun h => (e7 (hal h)).2
    refine Triple.pre (P := own hm' M' ta' ∗ sched al') ?_ (by ent_ac)
    refine Triple.bindSearchO (fun h => ?_) (fun hr c' hd A kv B h1 h2 h3 h4 => ?_) fun hr c' hd A B h1 h3 h4 => ?_
    · exact Triple.bindPure (Triple.pre (hn hm' M' al' h e2 e3 hal') (Ent.frame Ent.ofRep _))
    · exact Triple.bindPure (hf hm' M' al' ta' hr c' hd A kv B h1 e2 hsh (by rw [← e3]; exact h4.toList) hal' h3 h4)
    · exact Triple.bindPure (hg hm' M' al' ta' hr c' hd A B h1 e2 hsh (by rw [← e3]; exact h4.toList) hal' h3 h4)

/-- Insertion at a gap: it succeeds, or memory ran out. -/
theorem Triple.bindVacantO {hm : HMap} {M : Map K V} {ta : ATree K V} {hd : Handle} {hr : HRef} {k : K} {v : V} {al : Alloc} {mem : Prop} {A B : List (K × V)}
    {f : Option HRef × HMap → HM K V β} {Qb : β → HProp K V} (hM : M.WF) (hs : M.shared = false) (hat : HandleAt M.height ta hd hr) (hgap : M.Gap hd A B)
    (hal : mem → al.Good)
    (herr : ∀ hm' M' al', ¬ mem → Triple E (rep hm' M' ∗ sched al' ∗ litter) (f (none, hm')) Qb)
    (hok : ∀ hm' M' al' ta' hd' hr', M'.WF → M'.shared = false → (mem → al'.Good) → HandleAt M'.height ta' hd' hr' → M'.Points hd' A (k, v) B →
      Triple E (own hm' M' ta' ∗ sched al') (f (some hr', hm')) Qb) :
    Triple E (own hm M ta ∗ sched al) (hm.vacantInsert hr (k, v) >>= f) Qb := by
  obtain ⟨r, M', al', e1, e2, e3, e4, e5⟩ := BTree.Map.vacantInsert_spec hM hs hgap k v al
  refine Triple.seq (vacantInsert_spec hs hat e1) fun o => ?_
  obtain ⟨o, hm'⟩ := o
  cases r with
  | error e =>
    rw [vacPost_error]
    refine Triple.getFact fun ho => ?_
    dsimp only at ho
    subst ho
    refine Triple.pre (herr hm' M' al' fun h => ?_) (by ent_ac)
    obtain ⟨_, loc, h⟩ := e5 (hal h)
    cases h
  | ok hd' =>
    rw [vacPost_ok, sep_hex]
    refine Triple.ofHex fun x => ?_
    obtain ⟨ta', hr'⟩ := x
    refine Triple.getFact fun ho => ?_
    obtain ⟨ho, hat'⟩ := ho
    dsimp only at ho hat'
    subst ho
    exact Triple.pre (hok hm' M' al' ta' hd' hr' e4.1 e2 (fun h => (e5 (hal h)).1) hat' e4.2) (by ent_ac)

/-! ### calls that look for a key -/

theorem getKeyValueO_spec {bor : K → Q} {q : Q} {hm : HMap} {M : Map K V} {c : Cmps Q} {R : HProp K V} :
    Triple E (rep hm M ∗ R) (hm.getKeyValueO bor q c) (fun o => fact (match o with
      | none => ¬ c.Return
      | some none => True
      | some (some kv) => ∃ A B, M.toList = A ++ kv :: B) ∗ rep hm M ∗ R) := by
  unfold rep
  rw [hex_sep]
  refine Triple.ofHex fun ta => ?_
  unfold HMap.getKeyValueO
  refine Triple.bindSearchO (fun h => ?_) (fun hr c' hd A kv B h1 h2 h3 h4 => ?_) fun hr c' hd A B h1 h3 h4 => ?_
  · exact Triple.ofPure (Ent.fact_right h (Ent.hex_right ta (Ent.refl _)))
  · refine Triple.callEq (P₀ := own hm M ta) (kvOf_own h4.kvAt h3) ?_
    exact Triple.ofPure (Ent.fact_right ⟨A, B, h4.toList⟩ (Ent.hex_right ta (Ent.refl _)))
  · exact Triple.ofPure (Ent.fact_right trivial (Ent.hex_right ta (Ent.refl _)))

/-- `get`, `get_key_value`, `contains_key`. -/
theorem getO_call {bor : K → Q} {q : Q} {hm : HMap} {M : Map K V} {c : Cmps Q} {al : Alloc} {mem ret : Prop} {g : Option (K × V) → Out K V}
    (hM : M.WF) (hal : mem → al.Good) (hret : ret → c.Return) (hg : ∀ x, g x ≠ .failed) :
    Triple E (rep hm M ∗ sched al) (do
      let x ← hm.getKeyValueO bor q c
      pure (x.map fun r => g r, hm))
      (AnyPost false mem (Looks ret M.toList (fun _ kv _ => (g (some kv), M.toList)) (fun _ _ => (g none, M.toList)))) := by
  refine Triple.seq getKeyValueO_spec fun o => Triple.getFact fun h => ?_
  refine Triple.ofPure (callPost_ok (Ent.refl _) hM hal ?_ (.inl rfl))
  match o, h with
  | none, h => exact .inr (.inr ⟨fun hr => h (hret hr), rfl, rfl⟩)
  | some none, _ => exact .inr (.inl ⟨M.toList, [], by simp, rfl, rfl⟩)
  | some (some kv), ⟨A, B, h⟩ => exact .inl ⟨A, kv, B, h, rfl, rfl⟩

theorem updateO_call {bor : K → Q} {q : Q} {f : V → V} {hm : HMap} {M : Map K V} {c : Cmps Q} {al : Alloc} {mem ret : Prop}
    (hM : M.WF) (hal : mem → al.Good) (hret : ret → c.Return) :
    Triple E (rep hm M ∗ sched al) (do
      let x ← hm.updateValO bor q f c
      pure (x.map fun r => Out.flag r, hm))
      (AnyPost false mem (Looks ret M.toList (fun A kv B => (.flag true, A ++ (kv.1, f kv.2) :: B)) (fun A B => (.flag false, A ++ B)))) := by
  unfold rep
  rw [hex_sep]
  refine Triple.ofHex fun ta => ?_
  unfold HMap.updateValO
  refine Triple.assoc ?_
  refine Triple.bindSearchO (fun h => ?_) (fun hr c' hd A kv B h1 h2 h3 h4 => ?_) fun hr c' hd A B h1 h3 h4 => ?_
  · refine Triple.bindPure (Triple.ofPure (callPost_ok (Ent.frame Ent.ofRep _) hM hal ?_ (.inl rfl)))
    exact .inr (.inr ⟨fun hr => h (hret hr), rfl, rfl⟩)
  · obtain ⟨M', e1, e2, e3⟩ := BTree.Map.occUpdate_wf hM h4 f
    refine Triple.assoc ?_
    refine Triple.call (P₀ := own hm M ta) (occUpdate_own h3 e1) fun _ => ?_
    refine Triple.bindPure (Triple.ofPure (callPost_ok (M := M') ?_ e2 hal ?_ (.inl rfl)))
    · ent_ac
    · exact .inl ⟨A, kv, B, h4.toList, rfl, e3⟩
  · refine Triple.bindPure (Triple.ofPure (callPost_ok (Ent.frame Ent.ofRep _) hM hal ?_ (.inl rfl)))
    exact .inr (.inl ⟨A, B, h4.toList, rfl, h4.toList⟩)

/-- `remove`, `take`. -/
theorem removeO_call {bor : K → Q} {q : Q} {hm : HMap} {M : Map K V} {c : Cmps Q} {al : Alloc} {mem ret : Prop} {g : Option (K × V) → Out K V}
    (hM : M.WF) (hal : mem → al.Good) (hret : ret → c.Return) :
    Triple E (rep hm M ∗ sched al) (do
      let x ← hm.removeEntryO bor q c
      pure (x.1.map fun r => g r, x.2))
      (AnyPost false mem (Looks ret M.toList (fun A kv B => (g (some kv), A ++ B)) (fun A B => (g none, A ++ B)))) := by
  unfold rep
  rw [hex_sep]
  refine Triple.ofHex fun ta => ?_
  unfold HMap.removeEntryO
  refine Triple.assoc ?_
  refine Triple.bindSearchO (fun h => ?_) (fun hr c' hd A kv B h1 h2 h3 h4 => ?_) fun hr c' hd A B h1 h3 h4 => ?_
  · refine Triple.bindPure (Triple.ofPure (callPost_ok (Ent.frame Ent.ofRep _) hM hal ?_ (.inl rfl)))
    exact .inr (.inr ⟨fun hr => h (hret hr), rfl, rfl⟩)
  · obtain ⟨M', e1, e2, e3, e4⟩ := BTree.Map.removeKv_spec hM h4
    refine Triple.assoc ?_
    refine Triple.call (P₀ := own hm M ta) (removeKv_spec h2 h3 e1) fun r => ?_
    rw [sep_assoc]
    refine Triple.getFact fun hr => ?_
    subst hr
    refine Triple.bindPure (Triple.ofPure (callPost_ok (M := M') ?_ e2 hal ?_ (.inl rfl)))
    · ent_ac
    · exact .inl ⟨A, r.1, B, h4.toList, rfl, e3⟩
  · refine Triple.bindPure (Triple.ofPure (callPost_ok (Ent.frame Ent.ofRep _) hM hal ?_ (.inl rfl)))
    exact .inr (.inl ⟨A, B, h4.toList, rfl, h4.toList⟩)

/-! ### insertions -/

/-- What `try_insert` leaves, with the comparisons that come after it. -/
def InsertPostO (mem : Prop) (k : K) (v : V) (l : List (K × V)) (c : Cmps K) (r : Option (Option (Option V) × Cmps K) × HMap) : HProp K V :=
  match r.1 with
  | none => hex fun y : Map K V × Alloc => fact ((mem → y.2.Good) ∧ ¬ c.Return ∧ y.1.WF ∧ y.1.toList = l) ∗ rep r.2 y.1 ∗ sched y.2
  | some (none, _) => hex fun y : Map K V × Alloc => fact (¬ mem) ∗ rep r.2 y.1 ∗ sched y.2 ∗ litter
  | some (some old, c') => hex fun y : Map K V × Alloc => fact ((mem → y.2.Good) ∧ (c.Return → c'.Return) ∧ y.1.WF ∧
      ((∃ A k1 v1 B, l = A ++ (k1, v1) :: B ∧ old = some v1 ∧ y.1.toList = A ++ (k1, v) :: B) ∨
        (∃ A B, l = A ++ B ∧ old = none ∧ y.1.toList = A ++ (k, v) :: B))) ∗ rep r.2 y.1 ∗ sched y.2

theorem tryInsertO_spec {hm : HMap} {M : Map K V} {k : K} {v : V} {c : Cmps K} {al : Alloc} {mem : Prop} (hM : M.WF) (hal : mem → al.Good) :
    Triple E (rep hm M ∗ sched al) (hm.tryInsertO k v c) (InsertPostO mem k v M.toList c) := by
  unfold HMap.tryInsertO
  refine Triple.bindTryEntryO hM hal ?_ ?_ ?_ ?_
  · intro hm' al' hmem
    refine Triple.ofPure ?_
    refine Ent.hex_right (M, al') (Ent.fact_right hmem ?_)
    exact Ent.trans (Ent.of_eq (show _ = rep hm' M ∗ sched al' ∗ emp by simp only [sep_emp])) (Ent.sep (Ent.refl _) (Ent.sep (Ent.refl _) emp_litter))
  · intro hm' M' al' h h1 h2 h3
    exact Triple.ofPure (Ent.hex_right (M', al') (Ent.fact_right ⟨h3, h, h1, h2⟩ (Ent.refl _)))
  · intro hm' M' al' ta hr c' hd A kv B h1 h2 h3 h4 h5 h6 h7
    dsimp only
    obtain ⟨M2, e1, e2, e3, e4⟩ := BTree.Map.setVal_spec h2 h7 v
    refine Triple.call (P₀ := own hm' M' ta) (setVal_spec h3 h6 e1) fun r => ?_
    rw [hex_sep]
    refine Triple.ofHex fun ta2 => ?_
    rw [sep_assoc]
    refine Triple.getFact fun hf => ?_
    obtain ⟨rfl, _⟩ := hf
    refine Triple.ofPure ?_
    refine Ent.hex_right (M2, al') (Ent.fact_right ⟨h5, h1, e2, .inl ⟨A, kv.1, kv.2, B, h4, rfl, e3.toList⟩⟩ ?_)
    refine Ent.trans (Q := own hm' M2 ta2 ∗ sched al') (by ent_ac) (Ent.frame Ent.ofRep _)
  · intro hm' M' al' ta hr c' hd A B h1 h2 h3 h4 h5 h6 h7
    dsimp only
    refine Triple.bindVacantO h2 h3 h6 h7 h5 ?_ ?_
    · intro hm2 M2 al2 hmem
      exact Triple.ofPure (Ent.hex_right (M2, al2) (Ent.fact_right hmem (Ent.refl _)))
    · intro hm2 M2 al2 ta2 hd2 hr2 g1 g2 g3 g4 g5
      refine Triple.ofPure (Ent.hex_right (M2, al2) (Ent.fact_right ⟨g3, h1, g1, .inr ⟨A, B, h4, rfl, g5.toList⟩⟩ (Ent.frame Ent.ofRep _)))

theorem insertO_call {hm : HMap} {M : Map K V} {k : K} {v : V} {c : Cmps K} {al : Alloc} {mem ret : Prop} (hM : M.WF) (hal : mem → al.Good) (hret : ret → c.Return) :
    Triple E (rep hm M ∗ sched al) (do
      let x ← hm.tryInsertO k v c
      match x with
      | (none, m) => pure (none, m)
      | (some (some old, _), m) => pure (some (Out.value old), m)
      | (some (none, _), m) => pure (some .failed, m))
      (AnyPost true mem (Looks ret M.toList (fun A kv B => (.value (some kv.2), A ++ (kv.1, v) :: B)) (fun A B => (.value none, A ++ (k, v) :: B)))) := by
  refine Triple.seq (tryInsertO_spec hM hal) fun r => ?_
  match r with
  | (none, hm') =>
    refine Triple.ofHex fun y => Triple.getFact fun h => ?_
    exact Triple.ofPure (callPost_ok (Ent.refl _) h.2.2.1 h.1 (.inr (.inr ⟨fun hr => h.2.1 (hret hr), rfl, h.2.2.2⟩)) (.inr (by simp)))
  | (some (none, _), hm') =>
    refine Triple.ofHex fun y => Triple.getFact fun h => ?_
    exact Triple.ofPure (callPost_failed (Ent.refl _) h)
  | (some (some old, _), hm') =>
    refine Triple.ofHex fun y => Triple.getFact fun h => ?_
    refine Triple.ofPure (callPost_ok (Ent.refl _) h.2.2.1 h.1 ?_ (.inr (by simp)))
    rcases h.2.2.2 with ⟨A, k1, v1, B, h1, rfl, h3⟩ | ⟨A, B, h1, rfl, h3⟩
    · exact .inl ⟨A, (k1, v1), B, h1, rfl, h3⟩
    · exact .inr (.inl ⟨A, B, h1, rfl, h3⟩)

theorem extendO_spec : ∀ {items : List (K × V)} {hm : HMap} {M : Map K V} {c : Cmps K} {al : Alloc} {mem ret : Prop}, M.WF → (mem → al.Good) → (ret → c.Return) →
    (∀ msg, ¬ mem → E msg) →
    Triple E (rep hm M ∗ sched al) (hm.extendO items c) (fun r => hex fun y : Map K V × Alloc =>
      fact ((mem → y.2.Good) ∧ y.1.WF ∧ ((r.1 = true ∧ Extends items M.toList y.1.toList) ∨ (¬ ret ∧ r.1 = false ∧ ∃ n, Extends (items.take n) M.toList y.1.toList))) ∗
      rep r.2 y.1 ∗ sched y.2)
  | [], hm, M, c, al, mem, ret, hM, hal, hret, hE =>
    Triple.ofPure (Ent.hex_right (M, al) (Ent.fact_right ⟨hal, hM, .inl ⟨rfl, .nil⟩⟩ (Ent.refl _)))
  | (k, v) :: items, hm, M, c, al, mem, ret, hM, hal, hret, hE => by
    unfold HMap.extendO
    refine Triple.seq (tryInsertO_spec hM hal) fun r => ?_
    match r with
    | (none, hm') =>
      refine Triple.ofHex fun y => Triple.getFact fun h => ?_
      refine Triple.ofPure (Ent.hex_right y (Ent.fact_right ⟨h.1, h.2.2.1, .inr ⟨fun hr => h.2.1 (hret hr), rfl, 0, ?_⟩⟩ (Ent.refl _)))
      rw [h.2.2.2]
      exact .nil
    | (some (none, _), hm') =>
      refine Triple.ofHex fun y => Triple.getFact fun h => ?_
      exact Triple.ofPanic (hE _ h)
    | (some (some old, c'), hm') =>
      refine Triple.ofHex fun y => Triple.getFact fun h => ?_
      obtain ⟨g1, g2, g3, g4⟩ := h
      refine (extendO_spec (ret := ret) g3 g1 (fun h => g2 (hret h)) hE).post fun r => ?_
      rintro w ⟨z, hw⟩
      refine ⟨z, ?_⟩
      obtain ⟨⟨f1, f2, f3⟩, hw⟩ := fact_sep.1 hw
      refine fact_sep.2 ⟨⟨f1, f2, ?_⟩, hw⟩
      have key : ∀ l2, Extends l2 y.1.toList z.1.toList → Extends ((k, v) :: l2) M.toList z.1.toList := by
        intro l2 h
        rcases g4 with ⟨A, k1, v1, B, h1, rfl, h3⟩ | ⟨A, B, h1, rfl, h3⟩
        · rw [h1]; rw [h3] at h; exact .over h
        · rw [h1]; rw [h3] at h; exact .add h
      rcases f3 with ⟨f3, f4⟩ | ⟨f3, f4, n, f5⟩
      · exact .inl ⟨f3, key _ f4⟩
      · exact .inr ⟨f3, f4, n + 1, key _ f5⟩

theorem extendO_call {items : List (K × V)} {hm : HMap} {M : Map K V} {c : Cmps K} {al : Alloc} {mem ret : Prop} (hM : M.WF) (hal : mem → al.Good)
    (hret : ret → c.Return) (hE : ∀ msg, ¬ mem → E msg) :
    Triple E (rep hm M ∗ sched al) (do
      let x ← hm.extendO items c
      pure (if x.1 then some Out.done else none, x.2))
      (AnyPost false mem (fun o l' => (o = some .done ∧ Extends items M.toList l') ∨ (¬ ret ∧ o = none ∧ ∃ n, Extends (items.take n) M.toList l'))) := by
  refine Triple.seq (extendO_spec (ret := ret) hM hal hret hE) fun r => Triple.ofHex fun y => Triple.getFact fun h => ?_
  refine Triple.ofPure (callPost_ok (Ent.refl _) h.2.1 h.1 ?_ (.inl rfl))
  rcases h.2.2 with ⟨h1, h2⟩ | ⟨h0, h1, h2⟩
  · exact .inl ⟨by simp [h1], h2⟩
  · exact .inr ⟨h0, by simp [h1], h2⟩

theorem replaceO_call {hm : HMap} {M : Map K V} {k : K} {v : V} {c : Cmps K} {al : Alloc} {mem ret : Prop} (hM : M.WF) (hal : mem → al.Good) (hret : ret → c.Return) :
    Triple E (rep hm M ∗ sched al) (do
      let x ← hm.replaceKeyO k v c
      match x with
      | (none, m) => pure (none, m)
      | (some (some old), m) => pure (some (Out.oldKey old), m)
      | (some none, m) => pure (some .failed, m))
      (AnyPost true mem (Looks ret M.toList (fun A kv B => (.oldKey (some kv.1), A ++ (k, kv.2) :: B)) (fun A B => (.oldKey none, A ++ (k, v) :: B)))) := by
  have e : (hm.replaceKeyO k v c : HM K V _) = (do
      let x ← hm.tryEntryO k c
      match x with
      | (none, m) => pure (none, m)
      | (some (none, _), m) => pure (some none, m)
      | (some (some (.occupied h), _), m) => do
        let old ← setKey h k
        pure (some (some (some old)), m)
      | (some (some (.vacant k h), _), m) => do
        let x ← m.vacantInsert h (k, v)
        match x.1 with
        | none => pure (some none, x.2)
        | some _ => pure (some (some none), x.2)) := by
    funext s
    simp only [HMap.replaceKeyO, HMap.tryEntryO, Bind.bind, HM.bind]
    cases h1 : (hm.ensureRootIsOwned : HM K V _) s with
    | ub => rfl
    | panic => rfl
    | ok a =>
      obtain ⟨r, s1⟩ := a
      cases r with
      | none => rfl
      | some m1 =>
        dsimp only [HM.bind]
        cases h2 : (m1.searchO id k c : HM K V _) s1 with
        | ub => rfl
        | panic => rfl
        | ok b =>
          obtain ⟨r, s2⟩ := b
          match r with
          | none => rfl
          | some (.found _, _) => rfl
          | some (.goDown _, _) => rfl
  rw [e]
  refine Triple.assoc ?_
  refine Triple.bindTryEntryO hM hal ?_ ?_ ?_ ?_
  · intro hm' al' hmem
    refine Triple.bindPure (Triple.ofPure (callPost_failed (M := M) (al := al') ?_ hmem))
    exact Ent.trans (Ent.of_eq (show _ = rep hm' M ∗ sched al' ∗ emp by simp only [sep_emp])) (Ent.sep (Ent.refl _) (Ent.sep (Ent.refl _) emp_litter))
  · intro hm' M' al' h h1 h2 h3
    exact Triple.bindPure (Triple.ofPure (callPost_ok (Ent.refl _) h1 h3 (.inr (.inr ⟨fun hr => h (hret hr), rfl, h2⟩)) (.inr (by simp))))
  · intro hm' M' al' ta hr c' hd A kv B h1 h2 h3 h4 h5 h6 h7
    dsimp only
    obtain ⟨M2, e1, e2, e3, e4⟩ := BTree.Map.setKey_spec h2 h7 k
    refine Triple.assoc ?_
    refine Triple.call (P₀ := own hm' M' ta) (setKey_spec h3 h6 e1) fun r => ?_
    rw [hex_sep]
    refine Triple.ofHex fun ta2 => ?_
    rw [sep_assoc]
    refine Triple.getFact fun hf => ?_
    obtain ⟨rfl, _⟩ := hf
    refine Triple.bindPure (Triple.ofPure (callPost_ok (M := M2) ?_ e2 h5 (.inl ⟨A, kv, B, h4, rfl, e3.toList⟩) (.inr (by simp))))
    refine Ent.trans (Q := own hm' M2 ta2 ∗ sched al') (by ent_ac) (Ent.frame Ent.ofRep _)
  · intro hm' M' al' ta hr c' hd A B h1 h2 h3 h4 h5 h6 h7
    dsimp only
    refine Triple.assoc ?_
    refine Triple.bindVacantO h2 h3 h6 h7 h5 ?_ ?_
    · intro hm2 M2 al2 hmem
      exact Triple.bindPure (Triple.ofPure (callPost_failed (Ent.refl _) hmem))
    · intro hm2 M2 al2 ta2 hd2 hr2 g1 g2 g3 g4 g5
      exact Triple.bindPure (Triple.ofPure (callPost_ok (Ent.frame Ent.ofRep _) g1 g3 (.inr (.inl ⟨A, B, h4, rfl, g5.toList⟩)) (.inr (by simp))))

/-! ### entries -/

theorem withEntryO_call {hm : HMap} {M : Map K V} {k : K} {c : Cmps K} {al : Alloc} {mem ret : Prop} {b : Bool} {rest : Option (HEntry K) × HMap → HM K V (Out K V × HMap)}
    {R : Option (Out K V) → List (K × V) → Prop} (hR1 : b = false → ¬ mem → R (some .failed) M.toList) (hR2 : ¬ ret → R none M.toList)
    (hM : M.WF) (hal : mem → al.Good) (hret : ret → c.Return) (hfail : ∀ m, rest (none, m) = pure (.failed, m))
    (hf : ∀ hm' M' al' ta hr hd A kv B, M'.WF → M'.shared = false → M.toList = A ++ kv :: B → (mem → al'.Good) →
      HandleAt M'.height ta hd hr → M'.Points hd A kv B → Triple E (own hm' M' ta ∗ sched al') (rest (some (.occupied hr), hm'))
        (fun r => AnyPost b mem R (some r.1, r.2)))
    (hg : ∀ hm' M' al' ta hr hd A B, M'.WF → M'.shared = false → M.toList = A ++ B → (mem → al'.Good) →
      HandleAt M'.height ta hd hr → M'.Gap hd A B → Triple E (own hm' M' ta ∗ sched al') (rest (some (.vacant k hr), hm'))
        (fun r => AnyPost b mem R (some r.1, r.2))) :
    Triple E (rep hm M ∗ sched al) (hm.withEntryO k c rest) (AnyPost b mem R) := by
  unfold HMap.withEntryO
  refine Triple.bindTryEntryO hM hal ?_ ?_ ?_ ?_
  · intro hm' al' hmem
    dsimp only
    rw [hfail]
    refine Triple.bindPure (Triple.ofPure ?_)
    cases b with
    | false => exact callPost_ok (Ent.refl _) hM (fun h => absurd h hmem) (hR1 rfl hmem) (.inl rfl)
    | true =>
      refine callPost_failed (M := M) (al := al') ?_ hmem
      exact Ent.trans (Ent.of_eq (show _ = rep hm' M ∗ sched al' ∗ emp by simp only [sep_emp])) (Ent.sep (Ent.refl _) (Ent.sep (Ent.refl _) emp_litter))
  · intro hm' M' al' h h1 h2 h3
    exact Triple.ofPure (callPost_ok (Ent.refl _) h1 h3 (by rw [h2]; exact hR2 fun hr => h (hret hr)) (.inr (by simp)))
  · intro hm' M' al' ta hr c' hd A kv B h1 h2 h3 h4 h5 h6 h7
    refine Triple.seq (hf hm' M' al' ta hr hd A kv B h2 h3 h4 h5 h6 h7) fun r => ?_
    exact Triple.ofPure (Ent.refl _)
  · intro hm' M' al' ta hr c' hd A B h1 h2 h3 h4 h5 h6 h7
    refine Triple.seq (hg hm' M' al' ta hr hd A B h2 h3 h4 h5 h6 h7) fun r => ?_
    exact Triple.ofPure (Ent.refl _)

theorem entryOrInsertO_call {hm : HMap} {M : Map K V} {k : K} {v : V} {f : V → V} {c : Cmps K} {al : Alloc} {mem ret : Prop} (hM : M.WF) (hal : mem → al.Good)
    (hret : ret → c.Return) :
    Triple E (rep hm M ∗ sched al) (hm.withEntryO k c (thenOrInsert v f))
      (AnyPost true mem (Looks ret M.toList (fun A kv B => (.value (some kv.2), A ++ (kv.1, f kv.2) :: B)) (fun A B => (.value (some v), A ++ (k, f v) :: B)))) := by
  refine withEntryO_call (fun h => by cases h) (fun h => .inr (.inr ⟨h, rfl, rfl⟩)) hM hal hret (fun m => rfl) ?_ ?_
  · intro hm' M' al' ta hr hd A kv B h2 h3 h4 h5 h6 h7
    obtain ⟨M2, e1, e2, e3⟩ := BTree.Map.occUpdate_wf h2 h7 f
    unfold thenOrInsert
    refine Triple.bindPure ?_
    refine Triple.callEq (P₀ := own hm' M' ta) (kvOf_own h7.kvAt h6) ?_
    refine Triple.call (P₀ := own hm' M' ta) (occUpdate_own h6 e1) fun _ => ?_
    refine Triple.ofPure (callPost_ok (M := M2) (al := al') ?_ e2 h5 (.inl ⟨A, kv, B, h4, rfl, e3⟩) (.inr (by simp)))
    ent_ac
  · intro hm' M' al' ta hr hd A B h2 h3 h4 h5 h6 h7
    unfold thenOrInsert
    refine Triple.bindVacantO h2 h3 h6 h7 h5 ?_ ?_
    · intro hm2 M2 al2 hmem
      exact Triple.ofPure (callPost_failed (Ent.refl _) hmem)
    · intro hm2 M2 al2 ta2 hd2 hr2 g1 g2 g3 g4 g5
      obtain ⟨M3, e1, e2, e3⟩ := BTree.Map.occUpdate_wf g1 g5 f
      refine Triple.callEq (P₀ := own hm2 M2 ta2) (kvOf_own g5.kvAt g4) ?_
      refine Triple.call (P₀ := own hm2 M2 ta2) (occUpdate_own g4 e1) fun _ => ?_
      refine Triple.ofPure (callPost_ok (M := M3) (al := al2) ?_ e2 g3 (.inr (.inl ⟨A, B, h4, rfl, e3⟩)) (.inr (by simp)))
      ent_ac

theorem entryOrInsertWithO_call {hm : HMap} {M : Map K V} {k : K} {v : V} {f : V → V} {c : Cmps K} {al : Alloc} {mem ret : Prop} (hM : M.WF) (hal : mem → al.Good)
    (hret : ret → c.Return) :
    Triple E (rep hm M ∗ sched al) (hm.withEntryO k c (thenOrInsertWith v f))
      (AnyPost true mem (Looks ret M.toList (fun A kv B => (.flag false, A ++ (kv.1, f kv.2) :: B)) (fun A B => (.flag true, A ++ (k, f v) :: B)))) := by
  refine withEntryO_call (fun h => by cases h) (fun h => .inr (.inr ⟨h, rfl, rfl⟩)) hM hal hret (fun m => rfl) ?_ ?_
  · intro hm' M' al' ta hr hd A kv B h2 h3 h4 h5 h6 h7
    obtain ⟨M2, e1, e2, e3⟩ := BTree.Map.occUpdate_wf h2 h7 f
    unfold thenOrInsertWith
    refine Triple.bindPure ?_
    refine Triple.call (P₀ := own hm' M' ta) (occUpdate_own h6 e1) fun _ => ?_
    refine Triple.ofPure (callPost_ok (M := M2) (al := al') ?_ e2 h5 (.inl ⟨A, kv, B, h4, rfl, e3⟩) (.inr (by simp)))
    ent_ac
  · intro hm' M' al' ta hr hd A B h2 h3 h4 h5 h6 h7
    unfold thenOrInsertWith
    refine Triple.bindVacantO h2 h3 h6 h7 h5 ?_ ?_
    · intro hm2 M2 al2 hmem
      exact Triple.ofPure (callPost_failed (Ent.refl _) hmem)
    · intro hm2 M2 al2 ta2 hd2 hr2 g1 g2 g3 g4 g5
      obtain ⟨M3, e1, e2, e3⟩ := BTree.Map.occUpdate_wf g1 g5 f
      refine Triple.call (P₀ := own hm2 M2 ta2) (occUpdate_own g4 e1) fun _ => ?_
      refine Triple.ofPure (callPost_ok (M := M3) (al := al2) ?_ e2 g3 (.inr (.inl ⟨A, B, h4, rfl, e3⟩)) (.inr (by simp)))
      ent_ac

theorem entryRemoveO_call {hm : HMap} {M : Map K V} {k : K} {c : Cmps K} {al : Alloc} {mem ret : Prop} (hM : M.WF) (hal : mem → al.Good) (hret : ret → c.Return) :
    Triple E (rep hm M ∗ sched al) (hm.withEntryO k c thenRemove)
      (AnyPost false mem (LooksMem mem ret M.toList (fun A kv B => (.pair (some kv), A ++ B)) (fun A B => (.pair none, A ++ B)))) := by
  refine withEntryO_call (fun _ h => .inr ⟨h, rfl, rfl⟩) (fun h => .inl (.inr (.inr ⟨h, rfl, rfl⟩))) hM hal hret (fun m => rfl) ?_ ?_
  · intro hm' M' al' ta hr hd A kv B h2 h3 h4 h5 h6 h7
    obtain ⟨M2, e1, e2, e3, e4⟩ := BTree.Map.removeKv_spec h2 h7
    unfold thenRemove
    refine Triple.call (P₀ := own hm' M' ta) (removeKv_spec h3 h6 e1) fun r => ?_
    rw [sep_assoc]
    refine Triple.getFact fun hr => ?_
    subst hr
    refine Triple.ofPure (callPost_ok (M := M2) (al := al') ?_ e2 h5 (.inl (.inl ⟨A, r.1, B, h4, rfl, e3⟩)) (.inl rfl))
    ent_ac
  · intro hm' M' al' ta hr hd A B h2 h3 h4 h5 h6 h7
    exact Triple.ofPure (callPost_ok (Ent.frame Ent.ofRep _) h2 h5 (.inl (.inr (.inl ⟨A, B, h4, rfl, h7.toList⟩))) (.inl rfl))

theorem entryModifyO_call {hm : HMap} {M : Map K V} {k : K} {f : V → V} {c : Cmps K} {al : Alloc} {mem ret : Prop} (hM : M.WF) (hal : mem → al.Good)
    (hret : ret → c.Return) :
    Triple E (rep hm M ∗ sched al) (hm.withEntryO k c (thenModify f))
      (AnyPost false mem (LooksMem mem ret M.toList (fun A kv B => (.done, A ++ (kv.1, f kv.2) :: B)) (fun A B => (.done, A ++ B)))) := by
  refine withEntryO_call (fun _ h => .inr ⟨h, rfl, rfl⟩) (fun h => .inl (.inr (.inr ⟨h, rfl, rfl⟩))) hM hal hret (fun m => rfl) ?_ ?_
  · intro hm' M' al' ta hr hd A kv B h2 h3 h4 h5 h6 h7
    obtain ⟨M2, e1, e2, e3⟩ := BTree.Map.occUpdate_wf h2 h7 f
    show Triple E _ (updVal hr f >>= _) _
    refine Triple.call (P₀ := own hm' M' ta) (occUpdate_own h6 e1) fun _ => ?_
    refine Triple.ofPure (callPost_ok (M := M2) (al := al') ?_ e2 h5 (.inl (.inl ⟨A, kv, B, h4, rfl, e3⟩)) (.inl rfl))
    ent_ac
  · intro hm' M' al' ta hr hd A B h2 h3 h4 h5 h6 h7
    exact Triple.bindPure (a := ()) (Triple.ofPure (callPost_ok (Ent.frame Ent.ofRep _) h2 h5 (.inl (.inr (.inl ⟨A, B, h4, rfl, h7.toList⟩))) (.inl rfl)))

theorem entryKeyO_call {hm : HMap} {M : Map K V} {k : K} {c : Cmps K} {al : Alloc} {mem ret : Prop} (hM : M.WF) (hal : mem → al.Good) (hret : ret → c.Return) :
    Triple E (rep hm M ∗ sched al) (hm.withEntryO k c thenKey)
      (AnyPost false mem (LooksMem mem ret M.toList (fun _ kv _ => (.key kv.1, M.toList)) (fun _ _ => (.key k, M.toList)))) := by
  refine withEntryO_call (fun _ h => .inr ⟨h, rfl, rfl⟩) (fun h => .inl (.inr (.inr ⟨h, rfl, rfl⟩))) hM hal hret (fun m => rfl) ?_ ?_
  · intro hm' M' al' ta hr hd A kv B h2 h3 h4 h5 h6 h7
    show Triple E _ ((kvOf hr >>= _) >>= _) _
    refine Triple.assoc ?_
    refine Triple.callEq (P₀ := own hm' M' ta) (kvOf_own h7.kvAt h6) ?_
    refine Triple.bindPure (a := kv.1) ?_
    exact Triple.ofPure (callPost_ok (Ent.frame Ent.ofRep _) h2 h5 (.inl (.inl ⟨A, kv, B, h4, rfl, by rw [h4]; exact h7.toList⟩)) (.inl rfl))
  · intro hm' M' al' ta hr hd A B h2 h3 h4 h5 h6 h7
    refine Triple.bindPure (a := k) ?_
    exact Triple.ofPure (callPost_ok (Ent.frame Ent.ofRep _) h2 h5 (.inl (.inr (.inl ⟨A, B, h4, rfl, by rw [h4]; exact h7.toList⟩))) (.inl rfl))

theorem entryInsertO_call {hm : HMap} {M : Map K V} {k : K} {v : V} {c : Cmps K} {al : Alloc} {mem ret : Prop} (hM : M.WF) (hal : mem → al.Good)
    (hret : ret → c.Return) :
    Triple E (rep hm M ∗ sched al) (hm.withEntryO k c (thenInsert v))
      (AnyPost false mem (LooksMem mem ret M.toList (fun A kv B => (.value (some kv.2), A ++ (kv.1, v) :: B)) (fun A B => (.value none, A ++ B)))) := by
  refine withEntryO_call (fun _ h => .inr ⟨h, rfl, rfl⟩) (fun h => .inl (.inr (.inr ⟨h, rfl, rfl⟩))) hM hal hret (fun m => rfl) ?_ ?_
  · intro hm' M' al' ta hr hd A kv B h2 h3 h4 h5 h6 h7
    obtain ⟨M2, e1, e2, e3, e4⟩ := BTree.Map.setVal_spec h2 h7 v
    unfold thenInsert
    refine Triple.call (P₀ := own hm' M' ta) (setVal_spec h3 h6 e1) fun r => ?_
    rw [hex_sep]
    refine Triple.ofHex fun ta2 => ?_
    rw [sep_assoc]
    refine Triple.getFact fun hf => ?_
    obtain ⟨rfl, _⟩ := hf
    refine Triple.ofPure (callPost_ok (M := M2) (al := al') ?_ e2 h5 (.inl (.inl ⟨A, kv, B, h4, rfl, e3.toList⟩)) (.inl rfl))
    refine Ent.trans (Q := own hm' M2 ta2 ∗ sched al') (by ent_ac) (Ent.frame Ent.ofRep _)
  · intro hm' M' al' ta hr hd A B h2 h3 h4 h5 h6 h7
    exact Triple.ofPure (callPost_ok (Ent.frame Ent.ofRep _) h2 h5 (.inl (.inr (.inl ⟨A, B, h4, rfl, h7.toList⟩))) (.inl rfl))

end Verif.Heap
