import Verif.Heap.Panics
import Verif.Heap.Proofs.UnwindMap
import Verif.Heap.Proofs.UnwindAppend
/-
`try_insert` and `extend` in which a destructor, or the iterator, panics.
-/
namespace Verif.Heap
open Verif
open Verif.BTree (Map)

variable {K V Q α β : Type} {E : String → Prop}

/-- A key that is found is found without touching the map. -/
theorem tryEntry_occupied [Ord K] {M M' : Map K V} (hM : M.WF) {k : K} {al al' : Alloc} {hd : BTree.Handle}
    (h : M.tryEntry k al = .ok (.ok (.occupied hd), M', al')) : M' = M ∧ al' = al ∧ ∃ kv ∈ M.toList, compare k kv.1 = .eq := by
  obtain ⟨r, m', a', h1, h2, h3, h4, h5, _⟩ := BTree.Map.tryEntry_wf hM k al
  rw [h] at h1
  simp only [Exec.ok.injEq, Prod.mk.injEq] at h1
  obtain ⟨rfl, rfl, rfl⟩ := h1
  obtain ⟨_, A, kv, B, g1, g2⟩ := h5
  have hmem : kv ∈ M.toList := by rw [← h3, g1.toList]; simp
  have hs : M.shared = false := by
    cases hs : M.shared with
    | false => rfl
    | true =>
      obtain ⟨e1, e2⟩ := hM.shared hs
      rw [BTree.Map.toList, e1, e2] at hmem
      simp [BTree.emptyLeaf] at hmem
  have he : M.ensureRootIsOwned al = (.ok (), M, al) := by simp [BTree.Map.ensureRootIsOwned, hs]
  simp only [BTree.Map.tryEntry, he] at h
  obtain ⟨x, _, h⟩ := Exec.bind_eq_ok.1 h
  cases x with
  | found hd => simp only [Exec.ok.injEq, Prod.mk.injEq] at h; exact ⟨h.2.1.symm, h.2.2.symm, kv, hmem, g2⟩
  | goDown hd => simp at h

/-- How `try_insert` ends if a destructor may panic. -/
def InsertedD [Ord K] (M : Map K V) (k : K) (v : V) (calm : Nat) (al : Alloc) (o : Stop × Option V × Nat) (y : Map K V × Alloc) : Prop :=
  (o.1 = .mem ∧ o.2.1 = none ∧ o.2.2 = calm ∧ ∃ e, M.tryInsert k v al = .ok (.error e, y)) ∨
  (o.1 = .done ∧ M.tryInsert k v al = .ok (.ok o.2.1, y) ∧ (o.2.1 = none ∧ o.2.2 = calm ∨ o.2.1 ≠ none ∧ calm = o.2.2 + 1)) ∨
  (o.1 = .drop ∧ o.2.1 = none ∧ calm = 0 ∧ y = (M, al) ∧ ∃ kv ∈ M.toList, compare k kv.1 = .eq)

/-- The memory it leaves. -/
def InsertPostD [Ord K] (M : Map K V) (k : K) (v : V) (calm : Nat) (al : Alloc) (o : Stop × Option V × Nat × HMap) : HProp K V :=
  hex fun y : Map K V × Alloc => fact (InsertedD M k v calm al (o.1, o.2.1, o.2.2.1) y) ∗ rep o.2.2.2 y.1 ∗ sched y.2 ∗ leak (o.1 != .mem)

theorem tryInsertD_spec [Ord K] {hm : HMap} {M : Map K V} (hM : M.WF) {k : K} {v : V} {calm : Nat} {al : Alloc} :
    Triple E (rep hm M ∗ sched al) (hm.tryInsertD k v calm) (InsertPostD M k v calm al) := by
  obtain ⟨res, M', al', hx, _⟩ := BTree.Map.tryInsert_wf hM k v al
  have hx' := hx
  simp only [BTree.Map.tryInsert] at hx
  obtain ⟨⟨r1, M1, al1⟩, he, hy⟩ := Exec.bind_eq_ok.1 hx
  clear hx
  unfold HMap.tryInsertD InsertPostD
  refine Triple.bindEntry he (fun e hm1 hr => ?_) fun e e' hm1 ta1 hr hsh hat => ?_
  · subst hr
    simp only [Exec.ok.injEq, Prod.mk.injEq] at hy
    obtain ⟨rfl, rfl, rfl⟩ := hy
    refine Triple.ofPure (Ent.hex_right (M1, al1) (Ent.fact_right (.inl ⟨rfl, rfl, rfl, e, hx'⟩) ?_))
    dsimp only
    refine Ent.trans (Q := rep hm1 M1 ∗ sched al1 ∗ emp) (by ent_ac) ?_
    exact Ent.sep (Ent.refl _) (Ent.sep (Ent.refl _) (ent_anything _))
  · subst hr
    cases e with
    | occupied hd =>
      cases e' with
      | vacant k' hr => exact hat.elim
      | occupied hr =>
        obtain ⟨rfl, rfl, hkv⟩ := tryEntry_occupied hM he
        cases calm with
        | zero =>
          refine Triple.ofPure (Ent.hex_right (M1, al1) (Ent.fact_right (.inr (.inr ⟨rfl, rfl, rfl, rfl, hkv⟩)) ?_))
          simp only [rep, hex_sep]
          refine Ent.hex_right ta1 ?_
          rw [show (Stop.drop != Stop.mem) = true from rfl]
          simp only [leak, sep_emp]
          exact Ent.refl _
        | succ calm =>
          simp only at hy
          obtain ⟨⟨M2, old⟩, hset, hy⟩ := Exec.bind_eq_ok.1 hy
          simp only [Exec.ok.injEq, Prod.mk.injEq] at hy
          obtain ⟨rfl, rfl, rfl⟩ := hy
          dsimp only
          refine Triple.call (P₀ := own hm1 M1 ta1) (setVal_spec hsh hat hset) fun r => ?_
          rw [hex_sep]
          refine Triple.ofHex fun ta2 => ?_
          simp only [sep_assoc]
          refine Triple.getFact fun hf => ?_
          obtain ⟨rfl, _⟩ := hf
          refine Triple.ofPure (Ent.hex_right (M2, al1) (Ent.fact_right (.inr (.inl ⟨rfl, hx', .inr ⟨by simp, rfl⟩⟩)) ?_))
          simp only [rep, hex_sep]
          refine Ent.hex_right ta2 ?_
          rw [show (Stop.done != Stop.mem) = true from rfl]
          simp only [leak, sep_emp]
          exact Ent.refl _
    | vacant k1 hd =>
      cases e' with
      | occupied hr => exact hat.elim
      | vacant k' hr =>
        obtain ⟨rfl, hat⟩ := hat
        simp only at hy
        obtain ⟨⟨r2, M2, al2⟩, hv, hy⟩ := Exec.bind_eq_ok.1 hy
        dsimp only
        refine Triple.seq (vacantInsert_spec hsh hat hv) fun r => ?_
        obtain ⟨o, hm2⟩ := r
        cases r2 with
        | error e =>
          simp only [Exec.ok.injEq, Prod.mk.injEq] at hy
          obtain ⟨rfl, rfl, rfl⟩ := hy
          simp only [VacPost]
          refine Triple.getFact fun ho => ?_
          subst ho
          refine Triple.ofPure (Ent.hex_right (M2, al2) (Ent.fact_right (.inl ⟨rfl, rfl, rfl, e, hx'⟩) ?_))
          rw [show (Stop.mem != Stop.mem) = false from rfl]
          exact Ent.trans (Q := rep hm2 M2 ∗ sched al2 ∗ litter) (by ent_ac) (Ent.sep (Ent.refl _) (Ent.sep (Ent.refl _) (ent_anything _)))
        | ok h3 =>
          simp only [Exec.ok.injEq, Prod.mk.injEq] at hy
          obtain ⟨rfl, rfl, rfl⟩ := hy
          simp only [VacPost, hex_sep, sep_hex]
          refine Triple.ofHex fun x => ?_
          refine Triple.getFact fun ho => ?_
          obtain ⟨rfl, _⟩ := ho
          refine Triple.ofPure (Ent.hex_right (M2, al2) (Ent.fact_right (.inr (.inl ⟨rfl, hx', .inl ⟨rfl, rfl⟩⟩)) ?_))
          simp only [rep, hex_sep]
          refine Ent.hex_right x.1 ?_
          rw [show (Stop.done != Stop.mem) = true from rfl]
          simp only [leak, sep_emp]
          ent_ac

/-- How `extend` ends: everything before the `n`-th pair is in. -/
def ExtendedD [Ord K] (M : Map K V) (bad : Bool) (items : List (K × V)) (calm : Nat) (al : Alloc) (why : Stop) (y : Map K V × Alloc) : Prop :=
  (why = .mem ∧ M.extend items al = .panic "Out of Mem") ∨
  (why = .done ∧ bad = false ∧ M.extend items al = .ok y) ∨
  (why = .iter ∧ bad = true ∧ M.extend items al = .ok y) ∨
  (why = .drop ∧ calm < 2 * items.length ∧ ∃ n, n ≤ items.length ∧ M.extend (items.take n) al = .ok y)

def ExtendPostD [Ord K] (M : Map K V) (bad : Bool) (items : List (K × V)) (calm : Nat) (al : Alloc) (o : Stop × HMap) : HProp K V :=
  hex fun y : Map K V × Alloc => fact (ExtendedD M bad items calm al o.1 y) ∗ rep o.2 y.1 ∗ sched y.2 ∗ leak (o.1 != .mem)

theorem ExtendedD.cons [Ord K] {M M1 : Map K V} {bad : Bool} {k : K} {v : V} {items : List (K × V)} {calm calm' : Nat} {al al1 : Alloc} {old : Option V} {why : Stop}
    {y : Map K V × Alloc} (hx : M.tryInsert k v al = .ok (.ok old, M1, al1)) (h : ExtendedD M1 bad items calm' al1 why y) (hc : calm ≤ calm' + 2) :
    ExtendedD M bad ((k, v) :: items) calm al why y := by
  have e : ∀ l, M.extend ((k, v) :: l) al = M1.extend l al1 := fun l => by simp [BTree.Map.extend, hx]
  rcases h with ⟨h1, h2⟩ | ⟨h1, h2, h3⟩ | ⟨h1, h2, h3⟩ | ⟨h1, h2, n, h3, h4⟩
  · exact .inl ⟨h1, by rw [e, h2]⟩
  · exact .inr (.inl ⟨h1, h2, by rw [e, h3]⟩)
  · exact .inr (.inr (.inl ⟨h1, h2, by rw [e, h3]⟩))
  · refine .inr (.inr (.inr ⟨h1, ?_, n + 1, ?_, ?_⟩))
    · simp only [List.length_cons]; omega
    · simp only [List.length_cons]; omega
    · rw [List.take_succ_cons, e, h4]

theorem extendD_spec [Ord K] {bad : Bool} : ∀ {items : List (K × V)} {calm : Nat} {hm : HMap} {M : Map K V} {al : Alloc}, M.WF →
    Triple E (rep hm M ∗ sched al) (HMap.extendD bad items calm hm) (ExtendPostD M bad items calm al)
  | [], calm, hm, M, al, hM => by
    unfold HMap.extendD ExtendPostD
    refine Triple.ofPure (Ent.hex_right (M, al) (Ent.fact_right ?_ ?_))
    · cases bad
      · exact .inr (.inl ⟨rfl, rfl, rfl⟩)
      · exact .inr (.inr (.inl ⟨rfl, rfl, rfl⟩))
    · have : ((if bad = true then Stop.iter else Stop.done) != Stop.mem) = true := by cases bad <;> rfl
      dsimp only
      rw [this]
      simp only [leak, sep_emp]
      exact Ent.refl _
  | (k, v) :: items, calm, hm, M, al, hM => by
    unfold HMap.extendD
    refine Triple.seq (tryInsertD_spec hM) fun x => ?_
    obtain ⟨why, old, c', hm1⟩ := x
    unfold InsertPostD
    refine Triple.ofHex fun y => ?_
    obtain ⟨M1, al1⟩ := y
    refine Triple.getFact fun hf => ?_
    dsimp only at hf ⊢
    rcases hf with ⟨h1, _, _, e, h2⟩ | ⟨h1, h2, h3⟩ | ⟨h1, h2, h3, h4, _⟩
    · dsimp only at h1
      subst h1
      dsimp only
      refine Triple.ofPure (Ent.hex_right (M1, al1) (Ent.fact_right (.inl ⟨rfl, by simp [BTree.Map.extend, h2]⟩) ?_))
      exact Ent.refl _
    · dsimp only at h1 h2 h3
      subst h1
      dsimp only
      have hM1 : M1.WF := by
        obtain ⟨r, m', a', g1, g2, _⟩ := BTree.Map.tryInsert_wf hM k v al
        rw [h2] at g1
        simp only [Exec.ok.injEq, Prod.mk.injEq] at g1
        obtain ⟨rfl, rfl, rfl⟩ := g1
        exact g2.1
      have step : ∀ c, calm ≤ c + 2 → Triple E (rep hm1 M1 ∗ sched al1 ∗ leak (Stop.done != Stop.mem)) (HMap.extendD bad items c hm1) (ExtendPostD M bad ((k, v) :: items) calm al) := by
        intro c hc
        refine Triple.pre (Triple.post (extendD_spec (items := items) (calm := c) (hm := hm1) (M := M1) (al := al1) hM1) fun o => ?_) ?_
        · unfold ExtendPostD
          rintro w ⟨y, hw⟩
          refine ⟨y, ?_⟩
          obtain ⟨q1, q2⟩ := fact_sep.1 hw
          exact fact_sep.2 ⟨q1.cons h2 hc, q2⟩
        · rw [show (Stop.done != Stop.mem) = true from rfl]
          simp only [leak, sep_emp]
          exact Ent.refl _
      cases old with
      | none =>
        dsimp only
        refine step c' ?_
        rcases h3 with h3 | h3
        · omega
        · exact absurd rfl h3.1
      | some old =>
        have hc : calm = c' + 1 := by
          rcases h3 with ⟨h3, _⟩ | h3
          · cases h3
          · exact h3.2
        cases c' with
        | zero =>
          dsimp only
          refine Triple.ofPure (Ent.hex_right (M1, al1) (Ent.fact_right (.inr (.inr (.inr ⟨rfl, ?_, 1, ?_, ?_⟩))) ?_))
          · simp only [List.length_cons]; omega
          · simp only [List.length_cons]; omega
          · simp [BTree.Map.extend, h2]
          · exact Ent.refl _
        | succ c' => exact step c' (by omega)
    · dsimp only at h1 h2 h3 h4
      subst h1
      dsimp only
      obtain ⟨rfl, rfl⟩ := by simpa using h4
      refine Triple.ofPure (Ent.hex_right (M1, al1) (Ent.fact_right (.inr (.inr (.inr ⟨rfl, ?_, 0, ?_, rfl⟩))) ?_))
      · simp only [List.length_cons]; omega
      · omega
      · exact Ent.refl _

end Verif.Heap
