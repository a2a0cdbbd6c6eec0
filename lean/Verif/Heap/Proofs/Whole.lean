import Verif.Heap.Whole
import Verif.Heap.Proofs.MutLook
import Verif.Heap.Proofs.EntryUse
import Verif.Heap.Proofs.Compare
import Verif.Heap.Proofs.Program
import Verif.BTree.Proofs.GoOn
import Verif.BTree.Proofs.ReachInv
import Verif.BTree.Proofs.NotFailed
/-
Programs that use the whole API of maps.
-/
namespace Verif.Heap
open Verif Verif.Spec
open Verif.BTree (Map Loose Window)

variable {K V Q S : Type} {E : String → Prop}

/-! ### sorted lists stay sorted -/

theorem act_keys (c : Cursor K V) (a : MutAct V) : (c.act a).2.items.map (·.1) = c.items.map (·.1) := by
  cases a with
  | take e =>
    cases e
    all_goals
      simp only [Cursor.act]
      split <;> rfl
  | write i f =>
    simp only [Cursor.act]
    cases c.refs[i]? with
    | none => rfl
    | some j =>
      dsimp only
      apply List.ext_getElem?
      intro n
      simp only [List.getElem?_map, List.getElem?_modify]
      by_cases h : j = n
      · simp only [h, if_true]
        cases c.items[n]? <;> rfl
      · simp only [h, if_false]
        cases c.items[n]? <;> rfl

theorem looks_keys (kind : MutKind) : ∀ (as : List (MutLook V)) (c : Cursor K V), (c.looks kind as).2.map (·.1) = c.items.map (·.1)
  | [], c => rfl
  | a :: as, c => by
    simp only [Cursor.looks]
    rw [looks_keys kind as]
    cases a with
    | act a => cases a <;> simp only [Cursor.look, act_keys]
    | hint => rfl
    | debug => rfl

theorem place_map {k : K} [Ord K] {p : Place K V} (h : p.IsFor k) (f : V → V) : (p.map f).IsFor k := by
  refine ⟨h.before, ?_, h.after⟩
  intro kv hkv
  obtain ⟨x, hx, rfl⟩ := Option.map_eq_some_iff.1 hkv
  exact h.here x hx

theorem place_map_keys (p : Place K V) (f : V → V) : (p.map f).list.map (·.1) = p.list.map (·.1) := by
  obtain ⟨A, x, B⟩ := p
  cases x <;> simp [Place.map, Place.list]

theorem place_put [Ord K] [Std.TransOrd K] {k : K} {p : Place K V} (h : p.IsFor k) (hn : p.here = none) (hs : Sorted p.list) (v : V) :
    Sorted ({ p with here := some (k, v) } : Place K V).list := by
  obtain ⟨A, x, B⟩ := p
  obtain ⟨h1, h2, h3⟩ := h
  dsimp only at hn h1 h3
  subst hn
  simp only [Place.list, Option.toList, List.append_nil, List.append_assoc, List.cons_append, List.nil_append] at hs ⊢
  exact BTree.sorted_insert hs h1 h3

theorem place_cut [Ord K] {p : Place K V} (hs : Sorted p.list) : Sorted ({ p with here := none } : Place K V).list := by
  obtain ⟨A, x, B⟩ := p
  cases x with
  | none => exact hs
  | some kv =>
    simp only [Place.list, Option.toList, List.append_nil, List.append_assoc, List.cons_append, List.nil_append] at hs ⊢
    exact BTree.sorted_remove hs

theorem fill_sorted [Ord K] [Std.TransOrd K] {k : K} {p : Place K V} (h : p.IsFor k) (hs : Sorted p.list) (v : Option V) (f : V → V) : Sorted (p.fill k v f).2.list := by
  unfold Place.fill
  cases hh : p.here with
  | some kv => exact BTree.Sorted.of_keys (place_map_keys p f) hs
  | none =>
    cases v with
    | none => exact hs
    | some v => exact place_put h hh hs _

theorem end_sorted [Ord K] [Std.TransOrd K] {k : K} {p : Place K V} (h : p.IsFor k) (hs : Sorted p.list) (e : EntryEnd V) : Sorted (e.spec k p).2.list := by
  cases e with
  | leave => exact hs
  | remove => exact place_cut hs
  | removeEntry => exact place_cut hs
  | intoMut f => exact BTree.Sorted.of_keys (place_map_keys p f) hs
  | intoKey => exact hs
  | insert v f =>
    simp only [EntryEnd.spec]
    cases hh : p.here with
    | some kv => simpa [hh] using hs
    | none => simpa using place_put h hh hs (f v)
  | orInsert v f => exact fill_sorted h hs (some v) f
  | orInsertWith v f => exact fill_sorted h hs v f
  | orDefault v f => exact fill_sorted h hs v f

theorem look_place [Ord K] {k : K} {p : Place K V} (h : p.IsFor k) (hs : Sorted p.list) (a : EntryLook V) : (a.spec k p).2.2.IsFor k ∧ Sorted (a.spec k p).2.2.list := by
  cases a with
  | key => exact ⟨h, hs⟩
  | get => exact ⟨h, hs⟩
  | debug => exact ⟨h, hs⟩
  | modify f b =>
    have : ((EntryLook.modify f b).spec k p).2.2 = p.map f := by
      simp only [EntryLook.spec]
      split <;> rfl
    rw [this]
    exact ⟨place_map h f, BTree.Sorted.of_keys (place_map_keys p f) hs⟩
  | write f => exact ⟨place_map h f, BTree.Sorted.of_keys (place_map_keys p f) hs⟩
  | insert v => exact ⟨place_map h fun _ => v, BTree.Sorted.of_keys (place_map_keys p fun _ => v) hs⟩

theorem specs_sorted [Ord K] [Std.TransOrd K] {k : K} (fin : EntryEnd V) : ∀ (as : List (EntryLook V)) {p : Place K V}, p.IsFor k → Sorted p.list → Sorted (fin.specs k as p).2
  | [], p, h, hs => end_sorted h hs fin
  | a :: as, p, h, hs => by
    obtain ⟨h1, h2⟩ := look_place h hs a
    simp only [EntryEnd.specs]
    split
    · exact h2
    · exact specs_sorted fin as h1 h2

theorem specs_ok {k : K} (fin : EntryEnd V) : ∀ (as : List (EntryLook V)) (p : Place K V), .failed ∉ (fin.specs k as p).1
  | [], p => by
    have hfill : ∀ v f, .failed ≠ (p.fill k v f).1 := fun v f => by
      unfold Place.fill
      cases p.here <;> cases v <;> simp
    cases fin <;> simp [EntryEnd.specs, EntryEnd.spec, hfill]
  | a :: as, p => by
    have h : .failed ≠ (a.spec k p).1 := by
      cases a with
      | modify f b => simp only [EntryLook.spec]; split <;> simp
      | _ => simp [EntryLook.spec]
    simp only [EntryEnd.specs]
    split
    · simpa using h
    · simpa [h] using specs_ok fin as _

/-! ### one call -/

/-- The key order is lawful. -/
def Lawful [Ord K] [Ord Q] (bor : K → Q) : Prop := Std.TransOrd K ∧ Std.TransOrd Q ∧ BorrowOK bor

/-- What is left by one thing a program does. -/
def ActPost [Ord K] [Ord Q] (f : Orders K V S) (bor : K → Q) (lawful refuses : Prop) (al : Alloc) (p : List (Map K V)) (a : Act K V Q) (r : Ans K V S × List HMap) : HProp K V :=
  hex fun y : Option (List (Map K V) × Alloc) =>
    match y with
    | none => fact (a.stops r.1 ∧ (lawful → ¬ al.Good)) ∗ anything
    | some (p', al') => fact (¬ a.stops r.1 ∧ a.Right f bor lawful refuses (p.map Map.toList) r.1 (p'.map Map.toList) ∧ (∀ m ∈ p', m.WF) ∧ (lawful → ∀ m ∈ p', m.Valid) ∧
        (lawful → al.Good → al'.Good)) ∗ pool r.2 p' ∗ sched al'

section
set_option linter.unusedSectionVars false
variable [Ord K] [Ord Q] {f : Orders K V S} {bor : K → Q} {lawful refuses : Prop}

theorem set_all {P : Map K V → Prop} {p : List (Map K V)} (hp : ∀ m ∈ p, P m) {i : Nat} {M : Map K V} (h : P M) : ∀ m ∈ p.set i M, P m := by
  intro x hx
  rcases List.mem_or_eq_of_mem_set hx with h' | h'
  · exact hp x h'
  · exact h' ▸ h

theorem set_here {p : List HMap} {i : Nat} {m : HMap} (hm : p[i]? = some m) : p.set i m = p := by
  obtain ⟨hl, he⟩ := List.getElem?_eq_some_iff.1 hm
  rw [← he]; exact List.set_getElem_self hl

/-- Using one map, which stays where it is. -/
theorem lookAt_ref {hs : List HMap} {p : List (Map K V)} (hp : ∀ m ∈ p, m.WF) (hv : lawful → ∀ m ∈ p, m.Valid) {al : Alloc} {a : Act K V Q} {i : Nat}
    {g : HMap → HM K V (Ans K V S)} {R : Ans K V S → List (K × V) → List (K × V) → Prop} (hns : ∀ x : Ans K V S, ¬ a.stops x)
    (hR : ∀ ls x ls', a.Right f bor lawful refuses ls x ls' ↔ onSome ls i x ls' (R x))
    (hsort : lawful → ∀ x l l', R x l l' → l'.map (·.1) = l.map (·.1))
    (hg : ∀ m M, M.WF → (lawful → M.Valid) → Triple E (rep m M) (g m) (fun x => hex fun M' => fact (M'.WF ∧ R x M.toList M'.toList) ∗ rep m M')) :
    Triple E (pool hs p ∗ sched al) (lookAt hs i g) (ActPost f bor lawful refuses al p a) := by
  refine Triple.pre (P := fact (hs.length = p.length) ∗ pool hs p ∗ sched al) ?_ (by rw [← sep_assoc]; exact Ent.frame pool_length _)
  refine Triple.getFact fun hl => ?_
  unfold lookAt
  cases hm : hs[i]? with
  | none =>
    refine Triple.ofPure ?_
    have hn : p[i]? = none := by
      rw [List.getElem?_eq_none_iff] at hm ⊢
      omega
    refine Ent.hex_right (some (p, al)) (Ent.fact_right ⟨hns _, (hR _ _ _).2 ?_, hp, hv, fun _ h => h⟩ (Ent.refl _))
    simp [onSome, hn]
  | some m =>
    obtain ⟨M, hM⟩ : ∃ M, p[i]? = some M := ⟨_, List.getElem?_eq_getElem (by have := (List.getElem?_eq_some_iff.1 hm).1; omega)⟩
    obtain ⟨m0, F, e1, e2, e3⟩ := pool_split hl hM
    rw [hm] at e1
    obtain rfl := Option.some.inj e1
    have hMm := List.mem_of_getElem? hM
    rw [e2, sep_assoc]
    refine Triple.seq ((hg m M (hp M hMm) (fun h => hv h M hMm)).frame _) fun x => ?_
    rw [hex_sep]
    refine Triple.ofHex fun M' => ?_
    rw [sep_assoc]
    refine Triple.getFact fun h => ?_
    obtain ⟨h1, h2⟩ := h
    refine Triple.ofPure ?_
    refine Ent.hex_right (some (p.set i M', al)) (Ent.fact_right ⟨hns _, (hR _ _ _).2 ?_, set_all hp h1, fun h => set_all (hv h) ?_, fun _ h => h⟩ ?_)
    · simp only [onSome, List.getElem?_map, hM, Option.map_some, List.map_set]
      exact ⟨_, rfl, h2⟩
    · exact ⟨h1, BTree.Sorted.of_keys (hsort h _ _ _ h2) (hv h M hMm).sorted⟩
    · have := e3 m M'
      rw [set_here hm] at this
      dsimp only
      rw [this, sep_assoc]
      exact Ent.refl _

theorem look_post {m : HMap} {M : Map K V} {prog : HM K V (List (MutSeen K V))} {r : List (MutSeen K V) × List (K × V)} (h : Triple E (rep m M) prog (LookPost m r)) :
    Triple E (rep m M) (do let xs ← prog; pure (Ans.looked xs : Ans K V S)) (fun x => hex fun M' => fact (M'.WF ∧ r.2 = M'.toList ∧ x = .looked r.1) ∗ rep m M') := by
  refine Triple.seq h fun o => ?_
  unfold LookPost
  refine Triple.getFact fun ho => ?_
  subst ho
  refine Triple.ofHex fun M' => ?_
  refine Triple.getFact fun h => ?_
  exact Triple.ofPure (Ent.hex_right M' (Ent.fact_right ⟨h.1, h.2.symm, rfl⟩ (Ent.refl _)))

theorem rangeCaught_spec (hlaw : lawful → Lawful (K := K) bor) (lo hi : Bound Q) (as : List (MutLook V)) {m : HMap} {M : Map K V} (hM : M.WF) (hv : lawful → M.Valid) :
    Triple E (rep m M) (m.rangeMutCaught bor lo hi as) (fun x : Ans K V S => hex fun M' => fact (M'.WF ∧
      ((x = .panicked ∧ M'.toList = M.toList ∧ (lawful → badRange lo hi = true)) ∨
      ∃ pre mid post, M.toList = pre ++ mid ++ post ∧ (lawful → badRange lo hi = false ∧ mid = within bor lo hi M.toList) ∧
        (Cursor.looks .range ⟨M.toList, pre.length, pre.length + mid.length, []⟩ as).2 = M'.toList ∧
        x = .looked (Cursor.looks .range ⟨M.toList, pre.length, pre.length + mid.length, []⟩ as).1)) ∗ rep m M') := by
  refine Triple.ofRep fun ta => ?_
  have hu : M.range bor lo hi ≠ .ub := by
    rcases Map.range_wf hM bor lo hi with ⟨msg, h⟩ | ⟨_, r, _, _, _, h, _⟩ <;> rw [h] <;> simp
  have hok : ∀ y, M.range bor lo hi = .ok y → ∃ pre mid post, Window M y pre mid post ∧ (lawful → badRange lo hi = false ∧ mid = within bor lo hi M.toList) := by
    intro y hy
    by_cases hl : lawful
    · obtain ⟨_, _, hbo⟩ := hlaw hl
      rcases Map.range_ordered hbo (hv hl) lo hi with ⟨_, msg, h⟩ | ⟨h0, r, pre, post, h, w⟩
      · rw [hy] at h; cases h
      · rw [hy] at h
        obtain rfl := Exec.ok.inj h
        exact ⟨pre, _, post, w, fun _ => ⟨h0, rfl⟩⟩
    · rcases Map.range_wf hM bor lo hi with ⟨msg, h⟩ | ⟨_, r, pre, mid, post, h, w⟩
      · rw [hy] at h; cases h
      · rw [hy] at h
        obtain rfl := Exec.ok.inj h
        exact ⟨pre, mid, post, w, fun h => absurd h hl⟩
  unfold HMap.rangeMutCaught
  refine Triple.seq (Triple.catchRead (range_own rfl hu)) fun r => ?_
  cases r with
  | none =>
    dsimp only
    refine Triple.getFact fun hp => ?_
    obtain ⟨_, msg, hp⟩ := hp
    refine Triple.ofPure (Ent.hex_right M (Ent.fact_right ⟨hM, .inl ⟨rfl, rfl, fun hl => ?_⟩⟩ Ent.ofRep))
    obtain ⟨_, _, hbo⟩ := hlaw hl
    rcases Map.range_ordered hbo (hv hl) lo hi with ⟨h0, _⟩ | ⟨_, r, pre, post, h, w⟩
    · exact h0
    · rw [hp] at h; cases h
  | some r =>
    dsimp only
    refine Triple.getFact fun hp => ?_
    obtain ⟨y, hy, hat⟩ := hp
    obtain ⟨pre, mid, post, w, hw⟩ := hok y hy
    have ht := mutLook_own (E := E) (hm := m) (M := M) (ta := ta) (At := RangeAt) (rng := id) (hrng := id) (len := fun _ _ => True) (step := BTree.Range.stepH)
      (x := m.rangeMutMethods) (kind := .range) BTree.Range.stepOK range_stepH RangeAt.mono (fun h => h) rfl
      (fun _ _ => rfl) (fun _ _ => rfl) as (BTree.MutInv.range hM w) trivial hat RefsAt.nil
    refine Triple.seq ht fun o => ?_
    refine Triple.getFact fun ho => ?_
    subst ho
    refine Triple.ofHex fun M' => ?_
    refine Triple.getFact fun h => ?_
    refine Triple.ofPure (Ent.hex_right M' (Ent.fact_right ⟨h.1, .inr ⟨pre, mid, post, by rw [List.append_assoc]; exact w.all, hw, h.2.symm, rfl⟩⟩ (Ent.refl _)))

/-- Using an entry. -/
theorem entryAct_ref (hlaw : lawful → Lawful (K := K) bor) {hs : List HMap} {p : List (Map K V)} (hp : ∀ m ∈ p, m.WF) (hv : lawful → ∀ m ∈ p, m.Valid) {al : Alloc}
    (i : Nat) (k : K) (as : List (EntryLook V)) (fin : EntryEnd V) :
    Triple E (pool hs p ∗ sched al) (Act.hrun f bor hs (.entry i k as fin)) (ActPost f bor lawful refuses al p (.entry i k as fin)) := by
  refine Triple.pre (P := fact (hs.length = p.length) ∗ pool hs p ∗ sched al) ?_ (by rw [← sep_assoc]; exact Ent.frame pool_length _)
  refine Triple.getFact fun hl => ?_
  simp only [Act.hrun]
  cases hm : hs[i]? with
  | none =>
    refine Triple.ofPure ?_
    have hn : p[i]? = none := by
      rw [List.getElem?_eq_none_iff] at hm ⊢
      omega
    refine Ent.hex_right (some (p, al)) (Ent.fact_right ⟨(by rintro ⟨xs, h, _⟩; simp at h), ?_, hp, hv, fun _ h => h⟩ (Ent.refl _))
    simp [Act.Right, onSome, hn]
  | some m =>
    obtain ⟨M, hM⟩ : ∃ M, p[i]? = some M := ⟨_, List.getElem?_eq_getElem (by have := (List.getElem?_eq_some_iff.1 hm).1; omega)⟩
    obtain ⟨m0, F, e1, e2, e3⟩ := pool_split hl hM
    rw [hm] at e1
    obtain rfl := Option.some.inj e1
    have hMm := List.mem_of_getElem? hM
    obtain ⟨pl, g1, g2, g3, g4⟩ : ∃ pl : Place K V, pl.list = M.toList ∧ (∀ kv ∈ pl.here, compare k kv.1 = .eq) ∧ (lawful → pl.IsFor k) ∧
        Triple E (rep m M ∗ sched al) (m.entryUse k as fin) (UsedUp al (.failed ∈ ·) (fin.specs k as pl).1 (fin.specs k as pl).2) := by
      by_cases h : lawful
      · obtain ⟨_, _, _⟩ := hlaw h
        obtain ⟨pl, h1, h2, h3⟩ := entryUse_ordered (hv h M hMm) k al
        exact ⟨pl, h1, h2.here, fun _ => h2, h3 E m as fin⟩
      · obtain ⟨pl, h1, h2, h3⟩ := entryUse_any (hp M hMm) k al
        exact ⟨pl, h1, h2, fun h' => absurd h' h, h3 E m as fin⟩
    rw [e2]
    refine Triple.pre (P := (rep m M ∗ sched al) ∗ F) ?_ (by ent_ac)
    refine Triple.seq (g4.frame _) fun o => ?_
    obtain ⟨xs, m'⟩ := o
    unfold UsedUp
    rw [hex_sep]
    refine Triple.ofHex fun y => ?_
    cases y with
    | none =>
      dsimp only
      rw [sep_assoc]
      refine Triple.getFact fun h => ?_
      exact Triple.ofPure (Ent.hex_right none (Ent.fact_right ⟨⟨xs, rfl, h.1⟩, fun _ => h.2⟩ (fun _ _ => trivial)))
    | some y =>
      obtain ⟨al', M'⟩ := y
      dsimp only
      rw [sep_assoc]
      refine Triple.getFact fun h => ?_
      obtain ⟨rfl, h1, h2, h3⟩ := h
      refine Triple.ofPure ?_
      by_cases hf : .failed ∈ (fin.specs k as pl).1
      · exact absurd hf (specs_ok fin as pl)
      · refine Ent.hex_right (some (p.set i M', al')) (Ent.fact_right ⟨?_, ?_, set_all hp h1, fun h => set_all (hv h) ⟨h1, ?_⟩, fun _ h => h3 h⟩ ?_)
        · rintro ⟨xs, h, h'⟩
          obtain rfl := Ans.used.inj h
          exact hf h'
        · simp only [Act.Right, onSome, List.getElem?_map, hM, Option.map_some, List.map_set]
          exact ⟨_, rfl, pl, g1, g2, g3, h2.symm, rfl⟩
        · obtain ⟨_, _, _⟩ := hlaw h
          rw [h2]
          exact specs_sorted fin as (g3 h) (g1 ▸ (hv h M hMm).sorted)
        · dsimp only
          rw [e3 m' M']
          ent_ac

/-- A call of `Op`. -/
theorem opAct_ref (hlaw : lawful → Lawful (K := K) bor) {hs : List HMap} {p : List (Map K V)} (hp : ∀ m ∈ p, m.WF) (hv : lawful → ∀ m ∈ p, m.Valid) {al : Alloc}
    (href : lawful → ¬ al.Good → refuses) (o : Op K V Q) :
    Triple (fun _ => lawful → ¬ al.Good) (pool hs p ∗ sched al) (Act.hrun f bor hs (.op o)) (ActPost f bor lawful refuses al p (.op o)) := by
  have hag : lawful → BTree.AgreesP al (BTree.Op.run bor p al o) (o.spec bor (p.map Map.toList)) := fun h => by
    obtain ⟨_, _, hbo⟩ := hlaw h
    exact BTree.Op.run_agrees hbo (hv h) al o
  simp only [Act.hrun]
  refine Triple.seq (hrun_ref bor hp al o fun msg h hl => ?_) fun r => ?_
  · rcases hag hl with ⟨_, h2⟩ | ⟨o, p', a', h1, _⟩
    · exact h2
    · rw [h] at h1; cases h1
  obtain ⟨x, hs'⟩ := r
  unfold PoolPost
  refine Triple.ofHex fun y => ?_
  obtain ⟨p', al'⟩ := y
  dsimp only
  refine Triple.getFact fun hx => ?_
  have hins : o.inserting.isSome = o.inserts := by cases o <;> rfl
  have hgood : lawful → (al.Good → al'.Good) ∧ ((x = .failed ∧ ¬ al.Good) ∨ ((∀ m ∈ p', m.Valid) ∧ x = (o.spec bor (p.map Map.toList)).1 ∧ p'.map Map.toList = (o.spec bor (p.map Map.toList)).2)) := by
    intro hl
    rcases hag hl with ⟨⟨msg, h⟩, _⟩ | ⟨o', p2, a2, h1, h2, h3⟩
    · rw [hx] at h; cases h
    · rw [hx] at h1
      simp only [Exec.ok.injEq, Prod.mk.injEq] at h1
      obtain ⟨rfl, rfl, rfl⟩ := h1
      exact ⟨h2, h3⟩
  by_cases hsp : Op.spoils o x = true
  · obtain ⟨h1, rfl⟩ := spoils_iff.1 hsp
    refine Triple.ofPure (Ent.hex_right none (Ent.fact_right ⟨⟨by rw [hins, h1], rfl⟩, fun hl => ?_⟩ (fun _ _ => trivial)))
    rcases (hgood hl).2 with h | ⟨_, h, _⟩
    · exact h.2
    · exact absurd h.symm (spec_not_failed bor _ o h1)
  · have hsp' : Op.spoils o x = false := by simpa using hsp
    rw [spill_keep hsp', sep_emp]
    have hw' : ∀ m ∈ p', m.WF := by
      rcases BTree.Op.run_wf bor hp al o with ⟨msg, h⟩ | ⟨o2, p2, a2, h, h2⟩
      · rw [hx] at h; cases h
      · rw [hx] at h
        simp only [Exec.ok.injEq, Prod.mk.injEq] at h
        obtain ⟨rfl, rfl, rfl⟩ := h
        rcases h2 with h2 | h2
        · exact absurd (spoils_iff.2 h2) hsp
        · exact h2
    have hns : ¬ (o.inserting.isSome = true ∧ x = .failed) := fun h => hsp (spoils_iff.2 ⟨by rw [← hins]; exact h.1, h.2⟩)
    have hval : lawful → (∀ m ∈ p', m.Valid) ∧ ((x, p'.map Map.toList) = o.spec bor (p.map Map.toList) ∨ (x = .failed ∧ refuses ∧ p'.map Map.toList = p.map Map.toList)) := by
      intro hl
      rcases (hgood hl).2 with ⟨rfl, h2⟩ | ⟨h1, h2, h3⟩
      · obtain ⟨_, _, hbo⟩ := hlaw hl
        have hni : o.inserting = none := by
          cases h : o.inserting with
          | none => rfl
          | some z => exact absurd ⟨by rw [h]; rfl, rfl⟩ hns
        have ht : o.trusts [] = false := by cases o <;> rfl
        rcases BTree.Op.run_allowed hbo (bad := []) (Loose.ofAll (hv hl)) al o ht with ⟨msg, h⟩ | ⟨o2, p2, a2, h, h3, h4⟩
        · rw [hx] at h; cases h
        · rw [hx] at h
          simp only [Exec.ok.injEq, Prod.mk.injEq] at h
          obtain ⟨rfl, rfl, rfl⟩ := h
          refine ⟨fun m hm => ?_, ?_⟩
          · obtain ⟨j, hj⟩ := List.mem_iff_getElem?.1 hm
            obtain ⟨z, h5, h6⟩ := h3 j m hj
            have : z = 0 := h6 (by simp [Op.mark, hni])
            subst this
            exact h5
          · unfold Op.allowed at h4
            rw [if_neg (by rw [ht]; simp)] at h4
            rcases h4 with h4 | ⟨_, h4⟩ | ⟨h4, _⟩
            · exact .inl h4
            · simp only [Op.leaves, hni] at h4
              exact .inr ⟨rfl, href hl h2, h4⟩
            · exfalso
              cases o <;> simp_all [Op.miscounts]
      · exact ⟨h1, .inl (by rw [h2, h3])⟩
    refine Triple.ofPure (Ent.hex_right (some (p', al')) (Ent.fact_right ⟨?_, ⟨x, rfl, fun hl => (hval hl).2⟩, hw', fun hl => (hval hl).1, fun hl => (hgood hl).1⟩ (Ent.refl _)))
    rintro ⟨h1, h2⟩
    exact hns ⟨h1, Ans.out.inj h2⟩

/-! ### whole programs -/

/-- From this memory, the call ends as `Qb` says, or panics as `E` says. -/
def RunsTo {α : Type} (E : String → Prop) (m : HM K V α) (Qb : α → HProp K V) (s : Heap K V) : Prop :=
  match m s with
  | .ok (a, s') => s'.Good ∧ Qb a s'.world
  | .ub => False
  | .panic msg => E msg

theorem Triple.runs {α : Type} {P : HProp K V} {m : HM K V α} {Qb : α → HProp K V} (h : Triple E P m Qb) {s : Heap K V} (hg : s.Good) (hw : P s.world) : RunsTo E m Qb s := by
  unfold RunsTo
  have := h emp s hg (by rw [sep_emp]; exact hw)
  cases hm : m s with
  | ok x => rw [hm] at this; exact ⟨this.1, by simpa only [sep_emp] using this.2⟩
  | ub => rw [hm] at this; exact this
  | panic msg => rw [hm] at this; exact this

/-- One thing a program does. -/
theorem act_ref (hlaw : lawful → Lawful (K := K) bor) {hs : List HMap} {p : List (Map K V)} (hp : ∀ m ∈ p, m.WF) (hv : lawful → ∀ m ∈ p, m.Valid) {al : Alloc}
    (href : lawful → ¬ al.Good → refuses) {s : Heap K V} (hg : s.Good) (hw : (pool hs p ∗ sched al) s.world) (a : Act K V Q) :
    RunsTo (fun _ => lawful → ¬ al.Good) (Act.hrun f bor hs a) (ActPost f bor lawful refuses al p a) s := by
  cases a with
  | op o => exact Triple.runs (opAct_ref hlaw hp hv href o) hg hw
  | ask q =>
    have hl : hs.length = p.length := by
      have := Ent.frame pool_length _ _ hw
      rw [sep_assoc] at this
      exact (fact_sep.1 this).1
    obtain ⟨t, h1, h2⟩ := ask_ref (f := f) (bor := bor) (lawful := lawful) hg hp (fun h M hM q => by
      obtain ⟨_, _, hbo⟩ := hlaw h
      exact BTree.Map.getKeyValue_spec hbo (hv h M hM) q) hw hl q
    have : Act.hrun f bor hs (.ask q) s = .ok ((.told t, hs), s) := by
      show HM.bind _ _ s = _
      unfold HM.bind
      rw [h1]
      rfl
    unfold RunsTo
    rw [this]
    exact ⟨hg, some (p, al), fact_sep.2 ⟨⟨id, ⟨t, rfl, h2, rfl⟩, hp, hv, fun _ h => h⟩, hw⟩⟩
  | iterMut i as =>
    refine Triple.runs (lookAt_ref (f := f) (bor := bor) (refuses := refuses) (a := .iterMut i as) (i := i) (R := fun x l l' => (Cursor.looks .iter ⟨l, 0, l.length, []⟩ as).2 = l' ∧ x = .looked (Cursor.looks .iter ⟨l, 0, l.length, []⟩ as).1)
      hp hv (fun _ => id) (fun _ _ _ => Iff.rfl) ?_ fun m M hM _ => look_post (iterMutLook_spec hM as)) hg hw
    rintro _ x l l' ⟨rfl, _⟩
    exact looks_keys _ _ _
  | valuesMut i as =>
    refine Triple.runs (lookAt_ref (f := f) (bor := bor) (refuses := refuses) (a := .valuesMut i as) (i := i) (R := fun x l l' => (Cursor.looks .values ⟨l, 0, l.length, []⟩ as).2 = l' ∧ x = .looked (Cursor.looks .values ⟨l, 0, l.length, []⟩ as).1)
      hp hv (fun _ => id) (fun _ _ _ => Iff.rfl) ?_ fun m M hM _ => look_post (valuesMutLook_spec hM as)) hg hw
    rintro _ x l l' ⟨rfl, _⟩
    exact looks_keys _ _ _
  | rangeMut i lo hi as =>
    refine Triple.runs (lookAt_ref (f := f) (bor := bor) (refuses := refuses) (a := .rangeMut i lo hi as) (i := i) (R := fun x l l' => (x = .panicked ∧ l' = l ∧ (lawful → badRange lo hi = true)) ∨
      ∃ pre mid post, l = pre ++ mid ++ post ∧ (lawful → badRange lo hi = false ∧ mid = within bor lo hi l) ∧
        (Cursor.looks .range ⟨l, pre.length, pre.length + mid.length, []⟩ as).2 = l' ∧ x = .looked (Cursor.looks .range ⟨l, pre.length, pre.length + mid.length, []⟩ as).1)
      hp hv (fun _ => id) (fun _ _ _ => Iff.rfl) ?_ fun m M hM hv => rangeCaught_spec hlaw lo hi as hM hv) hg hw
    rintro _ x l l' (⟨_, rfl, _⟩ | ⟨pre, mid, post, _, _, rfl, _⟩)
    · rfl
    · exact looks_keys _ _ _
  | entry i k as fin => exact Triple.runs (entryAct_ref hlaw hp hv i k as fin) hg hw

theorem stops_iff (a : Act K V Q) (x : Ans K V S) : Act.spoils a x = true ↔ a.stops x := by
  cases a with
  | op o =>
    have hins : o.inserting.isSome = o.inserts := by cases o <;> rfl
    cases x with
    | out y => simp [Act.spoils, Act.stops, spoils_iff, hins]
    | _ => simp [Act.spoils, Act.stops]
  | entry i k as fin =>
    cases x with
    | used xs =>
      simp only [Act.spoils, Act.stops, List.any_eq_true]
      constructor
      · rintro ⟨y, h1, h2⟩
        cases y <;> simp at h2
        exact ⟨xs, rfl, h1⟩
      · rintro ⟨ys, h1, h2⟩
        obtain rfl := Ans.used.inj h1
        exact ⟨_, h2, rfl⟩
    | _ => simp [Act.spoils, Act.stops]
  | _ => simp [Act.spoils, Act.stops]

/-- A whole program. -/
theorem acts_ref (hlaw : lawful → Lawful (K := K) bor) : ∀ (as : List (Act K V Q)) {hs : List HMap} {p : List (Map K V)} (_ : ∀ m ∈ p, m.WF) (_ : lawful → ∀ m ∈ p, m.Valid)
    {al : Alloc} (_ : lawful → ¬ al.Good → refuses) {s : Heap K V} (_ : s.Good) (_ : (pool hs p ∗ sched al) s.world),
    match Act.hprog f bor as hs s with
    | .ok ((xs, true, hs'), s') => s'.Good ∧ ∃ p' al', Act.Rights f bor lawful refuses as (p.map Map.toList) xs (p'.map Map.toList) ∧ (∀ m ∈ p', m.WF) ∧
        (lawful → ∀ m ∈ p', m.Valid) ∧ (lawful → al.Good → al'.Good) ∧ (pool hs' p' ∗ sched al') s'.world
    | .ok ((xs, false, _), _) => (lawful → ¬ al.Good) ∧ ∃ as1 a as2 xs1 x ls, as = as1 ++ a :: as2 ∧ xs = xs1 ++ [x] ∧
        Act.Rights f bor lawful refuses as1 (p.map Map.toList) xs1 ls ∧ a.stops x
    | .ub => False
    | .panic _ => lawful → ¬ al.Good
  | [], hs, p, hp, hv, al, href, s, hg, hw => ⟨hg, p, al, ⟨rfl, rfl⟩, hp, hv, fun _ h => h, hw⟩
  | a :: as, hs, p, hp, hv, al, href, s, hg, hw => by
    have h1 := act_ref (f := f) (bor := bor) (lawful := lawful) (refuses := refuses) hlaw hp hv href hg hw a
    unfold RunsTo at h1
    have hb : ∀ x, Act.hrun f bor hs a s = x → Act.hprog f bor (a :: as) hs s = (match x with
        | .ok (r, s') => if Act.spoils a r.1 then .ok (([r.1], false, r.2), s') else
          (match Act.hprog f bor as r.2 s' with
          | .ok (rs, s'') => .ok ((r.1 :: rs.1, rs.2), s'')
          | .ub => .ub
          | .panic msg => .panic msg)
        | .ub => .ub
        | .panic msg => .panic msg) := by
      intro x hx
      show HM.bind _ _ s = _
      unfold HM.bind
      rw [hx]
      cases x with
      | ok r =>
        obtain ⟨r, s'⟩ := r
        dsimp only
        split
        · rfl
        · show HM.bind _ _ s' = _
          unfold HM.bind
          cases Act.hprog f bor as r.2 s' <;> rfl
      | ub => rfl
      | panic msg => rfl
    cases hx : Act.hrun f bor hs a s with
    | ub => rw [hx] at h1; exact h1.elim
    | panic msg =>
      rw [hx] at h1
      rw [hb _ hx]
      exact h1
    | ok r =>
      obtain ⟨⟨x, hs'⟩, s'⟩ := r
      rw [hx] at h1
      rw [hb _ hx]
      obtain ⟨hg', y, hy⟩ := h1
      cases y with
      | none =>
        obtain ⟨⟨h2, h3⟩, _⟩ := fact_sep.1 hy
        dsimp only at h2 ⊢
        rw [if_pos ((stops_iff a x).2 h2)]
        exact ⟨h3, [], a, as, [], x, _, rfl, rfl, ⟨rfl, rfl⟩, h2⟩
      | some y =>
        obtain ⟨p', al'⟩ := y
        obtain ⟨⟨h2, h3, h4, h5, h6⟩, hw'⟩ := fact_sep.1 hy
        dsimp only at h2 h3 hw' ⊢
        rw [if_neg fun h => h2 ((stops_iff a x).1 h)]
        have ih := acts_ref hlaw as h4 h5 (fun hl hn => href hl fun h => hn (h6 hl h)) hg' hw'
        cases hr : Act.hprog f bor as hs' s' with
        | ub => rw [hr] at ih; exact ih.elim
        | panic msg =>
          rw [hr] at ih
          exact fun hl h => ih hl (h6 hl h)
        | ok z =>
          obtain ⟨⟨xs, b, hs2⟩, s2⟩ := z
          rw [hr] at ih
          cases b with
          | true =>
            obtain ⟨g1, p2, al2, g2, g3, g4, g5, g6⟩ := ih
            exact ⟨g1, p2, al2, ⟨x, xs, _, rfl, h3, h2, g2⟩, g3, g4, fun hl h => g5 hl (h6 hl h), g6⟩
          | false =>
            obtain ⟨g1, as1, a1, as2, xs1, x1, ls, e1, e2, e3, e4⟩ := ih
            exact ⟨fun hl h => g1 hl (h6 hl h), a :: as1, a1, as2, x :: xs1, x1, ls, by rw [e1]; rfl, by rw [e2]; rfl, ⟨x, xs1, _, rfl, h3, h2, e3⟩, e4⟩

end

end Verif.Heap
