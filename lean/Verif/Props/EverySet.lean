import Verif.Heap.WholeSets
import Verif.Heap.Proofs.Whole
import Verif.Props.SetAlg
import Verif.Props.Everything
/-
C87: programs that use the whole API of sets, in memory.
-/
namespace Verif.Props
open Verif Verif.Heap Verif.Spec
open Verif.BTree (Map BSet)

variable {T Q S : Type} {pl : Nat → Heap.Addr}

/-- A call that changes only what the allocator will answer. -/
theorem sched_swap {P : HProp T Unit} {al : Alloc} {s s' : Heap T Unit} (hw : (P ∗ sched al) s.world) (hc : s'.cells = s.cells) : (P ∗ sched s'.alloc) s'.world := by
  obtain ⟨w₁, w₂, hd, hsw, h1, hs⟩ := hw
  rw [show w₂ = _ from hs] at hsw hd
  have e2 : w₁.sched = none := by rcases hd.2 with h | h; exact h; cases h
  refine ⟨w₁, ⟨fun _ => none, some s'.alloc⟩, ⟨fun _ => .inr rfl, .inl e2⟩, ?_, h1, rfl⟩
  have e1 : s.cells = (World.union w₁ ⟨fun _ => none, some al⟩).cells := congrArg World.cells hsw
  simp only [World.union, Heap.world] at e1 ⊢
  rw [hc, e1, e2]
  rfl

/-- `from_iter` in any memory, with the other maps around. -/
theorem fromIterU_any [Ord T] (items : List (T × Unit)) {p : List HMap} {ms : List (Map T Unit)} (hl : p.length = ms.length) {s : Heap T Unit} (hg : s.Good)
    {al : Alloc} (hw : (pool p ms ∗ sched al) s.world) :
    (∃ m' s' M al', HMap.fromIterU items s = .ok (some m', s') ∧ Map.fromIter items al = .ok (M, al') ∧ s'.Good ∧ (pool (p ++ [m']) (ms ++ [M]) ∗ sched al') s'.world) ∨
    (¬ al.Good ∧ ((∃ s', HMap.fromIterU items s = .ok (none, s') ∧ s'.Good ∧ (pool p ms ∗ sched s'.alloc) s'.world) ∨ HMap.fromIterU items s = .ub)) := by
  have hwf : (Map.new : Map T Unit).WF := Map.WF_new
  have hw' : ((rep HMap.new (Map.new : Map T Unit) ∗ sched al) ∗ pool p ms) s.world := by
    rw [rep_new, emp_sep, sep_comm]; exact hw
  obtain ⟨⟨b, m1⟩, s1, h1, h2, h3⟩ := Triple.returns (extendU_ref (E := fun _ => False) (l := items) hwf) hg hw'
  unfold ExtendPost at h3
  rw [hex_sep] at h3
  obtain ⟨⟨M1, al1⟩, h3⟩ := h3
  rw [sep_assoc] at h3
  obtain ⟨hf, h4⟩ := fact_sep.1 h3
  dsimp only at hf h4
  rcases hf with ⟨rfl, hf⟩ | ⟨rfl, hf, _⟩
  · simp only [leak, sep_emp, sep_assoc] at h4
    refine .inl ⟨m1, s1, M1, al1, ?_, hf, h2, ?_⟩
    · show HM.bind _ _ s = _
      simp only [HM.bind, h1]
      rfl
    · rw [pool_snoc hl]
      have : ((rep m1 M1 ∗ pool p ms) ∗ sched al1) = (rep m1 M1 ∗ sched al1 ∗ pool p ms) := by ac_rfl
      rw [this]; exact h4
  · have hbad : ¬ al.Good := by
      rcases Map.extend_wf items hwf al with ⟨_, h⟩ | ⟨M', a', h, _⟩
      · exact h
      · rw [hf] at h; cases h
    have hal : s.alloc = al := sched_alloc hw
    refine .inr ⟨hbad, ?_⟩
    rcases extend_fails hwf hg (hal ▸ hw') rfl h1 with ⟨_, _, a3, rfl, a4⟩ | ⟨_, a1⟩
    · refine .inl ⟨s1, ?_, h2, sched_swap hw a4⟩
      show HM.bind _ _ s = _
      simp only [HM.bind, h1]
      rfl
    · refine .inr ?_
      show HM.bind _ _ s = _
      simp only [HM.bind, h1]
      show HM.bind _ _ s1 = _
      simp only [HM.bind, a1]

section
set_option linter.unusedSectionVars false
variable [Ord T] [Ord Q] {f : Orders T Unit S} {bor : T → Q} {lawful refuses : Prop}

/-- A question about the sets of a pool. -/
theorem setAsk_ref (hlaw : lawful → Lawful (K := T) bor) {p : List HMap} {ms : List (Map T Unit)} (hp : ∀ m ∈ ms, m.WF) (hv : lawful → ∀ m ∈ ms, m.Valid)
    {al : Alloc} {s : Heap T Unit} (hg : s.Good) (hw : (pool p ms ∗ sched al) s.world) (hl : p.length = ms.length) (a : SetAsk) :
    ∃ t, SetAsk.hrun p a s = .ok (t, s) ∧ a.Fair ((ms.map Map.toList).map (List.map Prod.fst)) t ∧ (lawful → a.Right ((ms.map Map.toList).map (List.map Prod.fst)) t) := by
  have none_of : ∀ {i : Nat}, p[i]? = none → ((ms.map Map.toList).map (List.map Prod.fst))[i]? = none := fun h => by
    rw [List.getElem?_eq_none_iff] at h ⊢
    simpa [← hl] using h
  have getl : ∀ {i : Nat} {M : Map T Unit}, ms[i]? = some M → ((ms.map Map.toList).map (List.map Prod.fst))[i]? = some (BSet.elems ⟨M⟩) := fun h => by
    rw [List.getElem?_map, List.getElem?_map, h]; rfl
  have hlen : ((ms.map Map.toList).map (List.map Prod.fst)).length = p.length := by simp [hl]
  have lt_of : ∀ {i : Nat} {m : HMap}, p[i]? = some m → i < p.length := fun h => (List.getElem?_eq_some_iff.1 h).1
  have ge_of : ∀ {i : Nat}, p[i]? = none → ¬ i < p.length := fun h => by rw [List.getElem?_eq_none_iff] at h; omega
  generalize ((ms.map Map.toList).map (List.map Prod.fst)) = ls at *
  cases a with
  | algebra i j acts =>
    simp only [SetAsk.hrun, SetAsk.Right, SetAsk.Fair]
    cases hi : p[i]? with
    | none => rw [none_of hi]; exact ⟨_, rfl, by cases p[j]? <;> rfl, fun _ => by cases p[j]? <;> rfl⟩
    | some m =>
      cases hj : p[j]? with
      | none => rw [none_of hj]; exact ⟨_, rfl, by split <;> simp_all, fun _ => by split <;> simp_all⟩
      | some n =>
        obtain ⟨M, N, hM, hN, A, R, Kn, hSM, hSN, hA, hk⟩ := pool_known hp hw hl hi hj
        have hK : Knows s Kn := hk hg hA
        obtain ⟨P⟩ := BTree.algPlan hSM.1 hSN.1
        obtain ⟨xs, e⟩ := P.total acts (vs := []) (ps := []) ⟨rfl, by simp⟩
        obtain ⟨ys, e1, rfl⟩ := algRuns_ref hK hSM hSN acts (vs := []) (ws := []) ⟨rfl, by simp⟩ xs e
        rw [getl hM, getl hN]
        refine ⟨.seen ys, by simp only [bind_run, e1]; rfl, ⟨P.outs, ys, P.mem, rfl, fun hh => ?_⟩, fun h => ?_⟩
        · obtain ⟨zs, e2, e3⟩ := P.runs acts fun ⟨c, h⟩ => absurd h (hh c)
          rw [BTree.Exec.ok_unique e e2]; exact e3
        · obtain ⟨_, _, _⟩ := hlaw h
          have vM : M.Valid := hv h M (List.mem_of_getElem? hM)
          have vN : N.Valid := hv h N (List.mem_of_getElem? hN)
          obtain ⟨hc, ho⟩ := P.lawful vM vN
          obtain ⟨zs, e2, e3⟩ := P.runs acts fun _ _ _ h => h.hint vM vN hc
          exact ⟨P.outs, ys, ho, rfl, by rw [BTree.Exec.ok_unique e e2]; exact e3⟩
  | subset i j =>
    simp only [SetAsk.hrun, SetAsk.Right, SetAsk.Fair, hlen]
    cases hi : p[i]? with
    | none => rw [none_of hi]; exact ⟨_, rfl, by rw [if_neg fun h => ge_of hi h.1], fun _ => by cases p[j]? <;> rfl⟩
    | some m =>
      cases hj : p[j]? with
      | none => rw [none_of hj]; exact ⟨_, rfl, by rw [if_neg fun h => ge_of hj h.2], fun _ => by split <;> simp_all⟩
      | some n =>
        obtain ⟨M, N, hM, hN, A, R, Kn, hSM, hSN, hA, hk⟩ := pool_known hp hw hl hi hj
        have hK : Knows s Kn := hk hg hA
        obtain ⟨b, e⟩ := BSet.isSubset_total hSM.1 hSN.1
        obtain ⟨b', e1, rfl⟩ := isSubset_ref hK hSM hSN b e
        rw [getl hM, getl hN]
        refine ⟨.bool b', by simp only [bind_run, e1]; rfl, by rw [if_pos ⟨lt_of hi, lt_of hj⟩]; exact ⟨b', rfl⟩, fun h => ?_⟩
        obtain ⟨_, _, _⟩ := hlaw h
        obtain ⟨b2, e2, e3⟩ := BSet.isSubset_valid (s := ⟨M⟩) (o := ⟨N⟩) (hv h M (List.mem_of_getElem? hM)) (hv h N (List.mem_of_getElem? hN))
        exact ⟨b', rfl, by rw [BTree.Exec.ok_unique e e2]; exact e3⟩
  | superset i j =>
    simp only [SetAsk.hrun, SetAsk.Right, SetAsk.Fair, hlen]
    cases hi : p[i]? with
    | none => rw [none_of hi]; exact ⟨_, rfl, by rw [if_neg fun h => ge_of hi h.1], fun _ => by cases p[j]? <;> rfl⟩
    | some m =>
      cases hj : p[j]? with
      | none => rw [none_of hj]; exact ⟨_, rfl, by rw [if_neg fun h => ge_of hj h.2], fun _ => by split <;> simp_all⟩
      | some n =>
        obtain ⟨M, N, hM, hN, A, R, Kn, hSM, hSN, hA, hk⟩ := pool_known hp hw hl hi hj
        have hK : Knows s Kn := hk hg hA
        obtain ⟨b, e⟩ := BSet.isSubset_total hSN.1 hSM.1
        obtain ⟨b', e1, rfl⟩ := isSubset_ref hK hSN hSM b e
        rw [getl hM, getl hN]
        refine ⟨.bool b', by simp only [bind_run, HMap.isSuperset, e1]; rfl, by rw [if_pos ⟨lt_of hi, lt_of hj⟩]; exact ⟨b', rfl⟩, fun h => ?_⟩
        obtain ⟨_, _, _⟩ := hlaw h
        obtain ⟨b2, e2, e3⟩ := BSet.isSubset_valid (s := ⟨N⟩) (o := ⟨M⟩) (hv h N (List.mem_of_getElem? hN)) (hv h M (List.mem_of_getElem? hM))
        exact ⟨b', rfl, by rw [BTree.Exec.ok_unique e e2]; exact e3⟩
  | disjoint i j =>
    simp only [SetAsk.hrun, SetAsk.Right, SetAsk.Fair, hlen]
    cases hi : p[i]? with
    | none => rw [none_of hi]; exact ⟨_, rfl, by rw [if_neg fun h => ge_of hi h.1], fun _ => by cases p[j]? <;> rfl⟩
    | some m =>
      cases hj : p[j]? with
      | none => rw [none_of hj]; exact ⟨_, rfl, by rw [if_neg fun h => ge_of hj h.2], fun _ => by split <;> simp_all⟩
      | some n =>
        obtain ⟨M, N, hM, hN, A, R, Kn, hSM, hSN, hA, hk⟩ := pool_known hp hw hl hi hj
        have hK : Knows s Kn := hk hg hA
        obtain ⟨P⟩ := BTree.algPlan hSM.1 hSN.1
        obtain ⟨b', e1, rfl⟩ := isDisjoint_ref hK hSM hSN _ P.disjoint
        rw [getl hM, getl hN]
        refine ⟨.bool _, by simp only [bind_run, e1]; rfl, by rw [if_pos ⟨lt_of hi, lt_of hj⟩]; exact ⟨_, rfl⟩, fun h => ?_⟩
        obtain ⟨_, _, _⟩ := hlaw h
        obtain ⟨b2, e2, e3⟩ := BSet.isDisjoint_valid (s := ⟨M⟩) (o := ⟨N⟩) (hv h M (List.mem_of_getElem? hM)) (hv h N (List.mem_of_getElem? hN))
        exact ⟨_, rfl, by rw [BTree.Exec.ok_unique P.disjoint e2]; exact e3⟩
  | debug i =>
    simp only [SetAsk.hrun, SetAsk.Right, SetAsk.Fair]
    cases hi : p[i]? with
    | none => rw [none_of hi]; exact ⟨_, rfl, rfl, fun _ => rfl⟩
    | some m =>
      obtain ⟨M, N, hM, hN, A, R, Kn, hSM, hSN, hA, hk⟩ := pool_known hp hw hl hi hi
      have hK : Knows s Kn := hk hg hA
      rw [getl hM]
      exact ⟨_, by simp only [bind_run, setFmt_ref hK hSM]; rfl, rfl, fun _ => rfl⟩

/-- What is left by one thing a program does. -/
def SetActPost (f : Orders T Unit S) (bor : T → Q) (lawful refuses : Prop) (al : Alloc) (p : List (Map T Unit)) (a : SetAct T Q) (r : SetAns T S × List HMap) : HProp T Unit :=
  hex fun y : Option (List (Map T Unit) × Alloc) =>
    match y with
    | none => fact (a.stops r.1 ∧ (lawful → ¬ al.Good)) ∗ anything
    | some (p', al') => fact (¬ a.stops r.1 ∧ a.Right f bor lawful refuses (p.map Map.toList) r.1 (p'.map Map.toList) ∧ (∀ m ∈ p', m.WF) ∧ (lawful → ∀ m ∈ p', m.Valid) ∧
        (lawful → al.Good → al'.Good)) ∗ pool r.2 p' ∗ sched al'

def SetAct.isOperator : SetAct T Q → Prop
  | .operator .. => True
  | _ => False

/-- From this memory, the call ends as `Qb` says, or panics as `E` says, or is undefined behaviour, as `U` says. -/
def RunsOr {α : Type} (U : Prop) (E : String → Prop) (m : HM T Unit α) (Qb : α → HProp T Unit) (s : Heap T Unit) : Prop :=
  match m s with
  | .ok (a, s') => s'.Good ∧ Qb a s'.world
  | .ub => U
  | .panic msg => E msg

/-- What an operator has made. -/
theorem made_right (hlaw : lawful → Lawful (K := T) bor) {p : List (Map T Unit)} (hp : ∀ m ∈ p, m.WF) (hv : lawful → ∀ m ∈ p, m.Valid) {i j : Nat} {M N : Map T Unit}
    (hM : p[i]? = some M) (hN : p[j]? = some N) (P : BTree.AlgPlan (⟨M⟩ : BSet T) ⟨N⟩) (fk : T → T) (k : AlgKind) {al al' : Alloc} {M' : Map T Unit}
    (e2 : Map.fromIter ((P.outs k).map fun t => (fk t, ())) al = .ok (M', al')) :
    (SetAct.operator i j k fk : SetAct T Q).Right f bor lawful refuses (p.map Map.toList) .made ((p ++ [M']).map Map.toList) ∧ (∀ m ∈ p ++ [M'], m.WF) ∧
      (lawful → ∀ m ∈ p ++ [M'], m.Valid) ∧ (al.Good → al'.Good) := by
  have hM' : M'.WF ∧ (lawful → M'.Valid ∧ M'.toList = ((P.outs k).map fun t => (fk t, ())).foldl (fun acc kv => Spec.insert kv.1 kv.2 acc) []) ∧ (al.Good → al'.Good) := by
    refine ⟨?_, fun h => ?_, ?_⟩
    · exact (BTree.extend_nonempty Map.WF_new e2).1
    · obtain ⟨_, _, _⟩ := hlaw h
      rcases Map.extend_spec ((P.outs k).map fun t => (fk t, ())) (Map.Valid_new (K := T) (V := Unit)) al with ⟨⟨msg, h1⟩, _⟩ | ⟨m1, a1, h1, h2, _, h3⟩
      · rw [show Map.fromIter _ al = (Map.new : Map T Unit).extend _ al from rfl, h1] at e2; cases e2
      · have := BTree.Exec.ok_unique (show (Map.new : Map T Unit).extend _ al = _ from e2) h1
        simp only [Prod.mk.injEq] at this
        obtain ⟨rfl, rfl⟩ := this
        refine ⟨h2, h3.trans ?_⟩
        rfl
    · rcases Map.extend_wf ((P.outs k).map fun t => (fk t, ())) (Map.WF_new (K := T) (V := Unit)) al with ⟨⟨msg, h1⟩, _⟩ | ⟨m1, a1, h1, h2, h3⟩
      · rw [show Map.fromIter _ al = (Map.new : Map T Unit).extend _ al from rfl, h1] at e2; cases e2
      · have := BTree.Exec.ok_unique (show (Map.new : Map T Unit).extend _ al = _ from e2) h1
        simp only [Prod.mk.injEq] at this
        obtain ⟨rfl, rfl⟩ := this
        exact h3
  have hall : ∀ {C : Map T Unit → Prop}, (∀ m ∈ p, C m) → C M' → ∀ x ∈ p ++ [M'], C x := by
    intro C h1 h2 x hx
    rcases List.mem_append.1 hx with h | h
    · exact h1 x h
    · exact List.mem_singleton.1 h ▸ h2
  refine ⟨?_, hall hp hM'.1, fun h => hall (hv h) (hM'.2.1 h).1, hM'.2.2⟩
  simp only [SetAct.Right, List.getElem?_map, hM, hN, Option.map_some]
  refine .inr ⟨trivial, M'.toList, by simp, ?_, fun h => ?_⟩
  · intro e he
    rcases extend_keys Map.WF_new e2 e he with h | h
    · obtain ⟨t, h1, h2⟩ := List.mem_map.1 h
      exact ⟨t, P.mem k t h1, h2.symm⟩
    · simp [Map.toList, Map.new, BTree.emptyLeaf] at h
  · obtain ⟨_, _, _⟩ := hlaw h
    exact ⟨P.outs k, (P.lawful (hv h M (List.mem_of_getElem? hM)) (hv h N (List.mem_of_getElem? hN))).2 k, (hM'.2.1 h).2⟩

theorem setAct_ref (hlaw : lawful → Lawful (K := T) bor) {hs : List HMap} {p : List (Map T Unit)} (hp : ∀ m ∈ p, m.WF) (hv : lawful → ∀ m ∈ p, m.Valid) {al : Alloc}
    (href : lawful → ¬ al.Good → refuses) {s : Heap T Unit} (hg : s.Good) (hw : (pool hs p ∗ sched al) s.world) (a : SetAct T Q) :
    RunsOr (SetAct.isOperator a ∧ ¬ al.Good) (fun _ => lawful → ¬ al.Good) (SetAct.hrun f bor hs a) (SetActPost f bor lawful refuses al p a) s := by
  have hl : hs.length = p.length := by
    have := Ent.frame pool_length _ _ hw
    rw [sep_assoc] at this
    exact (fact_sep.1 this).1
  unfold RunsOr
  cases a with
  | act a =>
    have h1 := act_ref (f := f) (bor := bor) (lawful := lawful) (refuses := refuses) hlaw hp hv href hg hw a
    unfold RunsTo at h1
    simp only [SetAct.hrun, bind_run]
    cases hx : Act.hrun f bor hs a s with
    | ub => rw [hx] at h1; exact h1.elim
    | panic msg => rw [hx] at h1; exact h1
    | ok r =>
      obtain ⟨⟨x, hs'⟩, s'⟩ := r
      rw [hx] at h1
      obtain ⟨hg', y, hy⟩ := h1
      refine ⟨hg', y, ?_⟩
      cases y with
      | none =>
        obtain ⟨⟨h2, h3⟩, h4⟩ := fact_sep.1 hy
        exact fact_sep.2 ⟨⟨⟨x, rfl, h2⟩, h3⟩, h4⟩
      | some y =>
        obtain ⟨p', al'⟩ := y
        obtain ⟨⟨h2, h3, h4⟩, h5⟩ := fact_sep.1 hy
        refine fact_sep.2 ⟨⟨?_, ⟨x, rfl, h3⟩, h4⟩, h5⟩
        rintro ⟨y, e, h⟩
        exact h2 (SetAns.ans.inj e ▸ h)
  | ask a =>
    obtain ⟨t, h1, h2, h3⟩ := setAsk_ref hlaw hp hv hg hw hl a
    simp only [SetAct.hrun, bind_run, h1]
    exact ⟨hg, some (p, al), fact_sep.2 ⟨⟨id, ⟨t, rfl, h2, h3, rfl⟩, hp, hv, fun _ h => h⟩, hw⟩⟩
  | operator i j k fk =>
    have none_of : ∀ {i : Nat}, hs[i]? = none → p[i]? = none := fun h => by
      rw [List.getElem?_eq_none_iff] at h ⊢
      omega
    have skip : ∀ {i j : Nat}, p[i]? = none ∨ p[j]? = none → (SetAct.operator i j k fk : SetAct T Q).Right f bor lawful refuses (p.map Map.toList) .skipped (p.map Map.toList) := by
      intro i j h
      simp only [SetAct.Right, List.getElem?_map]
      rcases h with h | h <;> rw [h]
      · cases p[j]? <;> simp
      · cases p[i]? <;> simp
    simp only [SetAct.hrun]
    cases hi : hs[i]? with
    | none => exact ⟨hg, some (p, al), fact_sep.2 ⟨⟨id, skip (.inl (none_of hi)), hp, hv, fun _ h => h⟩, hw⟩⟩
    | some m =>
      cases hj : hs[j]? with
      | none => exact ⟨hg, some (p, al), fact_sep.2 ⟨⟨id, skip (.inr (none_of hj)), hp, hv, fun _ h => h⟩, hw⟩⟩
      | some n =>
        obtain ⟨M, N, hM, hN, A, R, Kn, hSM, hSN, hA, hk⟩ := pool_known hp hw hl hi hj
        obtain ⟨P⟩ := BTree.algPlan hSM.1 hSN.1
        dsimp only
        rw [bind_run, operator_eq hk hg hA hSM hSN P fk k]
        rcases fromIterU_any ((P.outs k).map fun t => (fk t, ())) hl hg hw with ⟨m', s', M', al', e1, e2, e3, e4⟩ | ⟨hb, ⟨s', e1, e2, e3⟩ | e1⟩
        · rw [e1]
          obtain ⟨g1, g2, g3, g4⟩ := made_right (f := f) (bor := bor) (refuses := refuses) hlaw hp hv hM hN P fk k e2
          exact ⟨e3, some (p ++ [M'], al'), fact_sep.2 ⟨⟨id, g1, g2, g3, fun _ => g4⟩, e4⟩⟩
        · rw [e1]
          refine ⟨e2, some (p, s'.alloc), fact_sep.2 ⟨⟨id, ?_, hp, hv, fun _ h => absurd h hb⟩, e3⟩⟩
          simp only [SetAct.Right, List.getElem?_map, hM, hN, Option.map_some]
          exact .inl ⟨trivial, fun h => href h hb, trivial⟩
        · rw [e1]
          exact ⟨trivial, hb⟩

theorem setStops_iff (a : SetAct T Q) (x : SetAns T S) : SetAct.spoils a x = true ↔ a.stops x := by
  cases a with
  | act a =>
    cases x with
    | ans y =>
      simp only [SetAct.spoils, SetAct.stops, stops_iff]
      constructor
      · exact fun h => ⟨y, rfl, h⟩
      · rintro ⟨z, e, h⟩
        exact SetAns.ans.inj e ▸ h
    | _ => simp [SetAct.spoils, SetAct.stops]
  | _ => simp [SetAct.spoils, SetAct.stops]

/-- What a program does. -/
def SetsEnd (f : Orders T Unit S) (bor : T → Q) (lawful refuses : Prop) (as : List (SetAct T Q)) (ls : List (List (T × Unit))) (al : Alloc) :
    Exec ((List (SetAns T S) × Bool × List HMap) × Heap T Unit) → Prop
  | .ok ((xs, true, hs'), s') => s'.Good ∧ ∃ p' al', SetAct.Rights f bor lawful refuses as ls xs (p'.map Map.toList) ∧ (∀ m ∈ p', m.WF) ∧
      (lawful → ∀ m ∈ p', m.Valid) ∧ (lawful → al.Good → al'.Good) ∧ (pool hs' p' ∗ sched al') s'.world
  | .ok ((xs, false, _), _) => (lawful → ¬ al.Good) ∧ ∃ as1 a as2 xs1 x ls', as = as1 ++ a :: as2 ∧ xs = xs1 ++ [x] ∧ SetAct.Rights f bor lawful refuses as1 ls xs1 ls' ∧ a.stops x
  | .ub => (lawful → ¬ al.Good) ∧ ∃ a ∈ as, SetAct.isOperator a
  | .panic _ => lawful → ¬ al.Good

theorem setActs_ref (hlaw : lawful → Lawful (K := T) bor) : ∀ (as : List (SetAct T Q)) {hs : List HMap} {p : List (Map T Unit)} (_ : ∀ m ∈ p, m.WF) (_ : lawful → ∀ m ∈ p, m.Valid)
    {al : Alloc} (_ : lawful → ¬ al.Good → refuses) {s : Heap T Unit} (_ : s.Good) (_ : (pool hs p ∗ sched al) s.world),
    SetsEnd f bor lawful refuses as (p.map Map.toList) al (SetAct.hprog f bor as hs s)
  | [], hs, p, hp, hv, al, href, s, hg, hw => ⟨hg, p, al, ⟨rfl, rfl⟩, hp, hv, fun _ h => h, hw⟩
  | a :: as, hs, p, hp, hv, al, href, s, hg, hw => by
    have h1 := setAct_ref (f := f) (bor := bor) (lawful := lawful) (refuses := refuses) hlaw hp hv href hg hw a
    unfold RunsOr at h1
    have hb : ∀ x, SetAct.hrun f bor hs a s = x → SetAct.hprog f bor (a :: as) hs s = (match x with
        | .ok (r, s') => if SetAct.spoils a r.1 then .ok (([r.1], false, r.2), s') else
          (match SetAct.hprog f bor as r.2 s' with
          | .ok (rs, s'') => .ok ((r.1 :: rs.1, rs.2), s'')
          | .ub => .ub
          | .panic msg => .panic msg)
        | .ub => .ub
        | .panic msg => .panic msg) := by
      intro x hx
      show HM.bind _ _ s = _
      unfold HM.bind
      rw [hx]
      cases x with
      | ok r =>
        obtain ⟨r, s'⟩ := r
        dsimp only
        split
        · rfl
        · show HM.bind _ _ s' = _
          unfold HM.bind
          cases SetAct.hprog f bor as r.2 s' <;> rfl
      | ub => rfl
      | panic msg => rfl
    cases hx : SetAct.hrun f bor hs a s with
    | ub =>
      rw [hx] at h1
      rw [hb _ hx]
      exact ⟨fun _ => h1.2, a, List.mem_cons_self .., h1.1⟩
    | panic msg =>
      rw [hx] at h1
      rw [hb _ hx]
      exact h1
    | ok r =>
      obtain ⟨⟨x, hs'⟩, s'⟩ := r
      rw [hx] at h1
      rw [hb _ hx]
      obtain ⟨hg', y, hy⟩ := h1
      cases y with
      | none =>
        obtain ⟨⟨h2, h3⟩, _⟩ := fact_sep.1 hy
        dsimp only at h2 ⊢
        rw [if_pos ((setStops_iff a x).2 h2)]
        exact ⟨h3, [], a, as, [], x, _, rfl, rfl, ⟨rfl, rfl⟩, h2⟩
      | some y =>
        obtain ⟨p', al'⟩ := y
        obtain ⟨⟨h2, h3, h4, h5, h6⟩, hw'⟩ := fact_sep.1 hy
        dsimp only at h2 h3 hw' ⊢
        rw [if_neg fun h => h2 ((setStops_iff a x).1 h)]
        have ih := setActs_ref hlaw as h4 h5 (fun hl hn => href hl fun h => hn (h6 hl h)) hg' hw'
        cases hr : SetAct.hprog f bor as hs' s' with
        | ub =>
          rw [hr] at ih
          obtain ⟨g1, b, g2, g3⟩ := ih
          exact ⟨fun hl h => g1 hl (h6 hl h), b, List.mem_cons_of_mem _ g2, g3⟩
        | panic msg =>
          rw [hr] at ih
          exact fun hl h => ih hl (h6 hl h)
        | ok z =>
          obtain ⟨⟨xs, b, hs2⟩, s2⟩ := z
          rw [hr] at ih
          cases b with
          | true =>
            obtain ⟨g1, p2, al2, g2, g3, g4, g5, g7⟩ := ih
            exact ⟨g1, p2, al2, ⟨x, xs, _, rfl, h3, h2, g2⟩, g3, g4, fun hl h => g5 hl (h6 hl h), g7⟩
          | false =>
            obtain ⟨g1, as1, a1, as2, xs1, x1, ls, e1, e2, e3, e4⟩ := ih
            exact ⟨fun hl h => g1 hl (h6 hl h), a :: as1, a1, as2, x :: xs1, x1, ls, by rw [e1]; rfl, by rw [e2]; rfl, ⟨x, xs1, _, rfl, h3, h2, e3⟩, e4⟩

end

section
variable [Ord T] [Ord Q] (f : Orders T Unit S) (bor : T → Q)

/-- **C87** A program that does anything at all with its sets, one thing after the other (calls, set-algebra iterators, predicates, comparisons, printing, operators whose panics it
catches), is undefined only if one of its operators is (C64: it ran out of memory after its first node), whatever the order, the comparisons, the allocator and the places it gives out. -/
theorem C87_defined (acts : List (SetAct T Q)) (hno : ∀ a ∈ acts, ∀ i j k fk, a ≠ .operator i j k fk) (al : Alloc) (pl : Nat → Heap.Addr) :
    SetAct.hprog f bor acts [] (Heap.start al pl) ≠ .ub := by
  intro h
  have := setActs_ref (f := f) (bor := bor) (lawful := False) (refuses := False) (fun h => h.elim) acts (hs := []) (p := []) (by simp) (fun h => h.elim) (al := al) (fun h => h.elim)
    (start_good (pl := pl) al) (by simpa only [sep_emp] using start_world (pl := pl) al)
  rw [h] at this
  obtain ⟨_, a, h1, h2⟩ := this
  cases a with
  | operator i j k fk => exact hno _ h1 i j k fk rfl
  | act a => exact h2
  | ask a => exact h2

/-- **C87** If it comes to its end, then, whatever the order of the elements, every answer that can be right in any order was right for the sets as they were at that moment, an
operator made a set of clones of elements of its two sets, and dropping the sets at the end hands over what the last step left, and leaves nothing allocated. -/
theorem C87_any_order {acts : List (SetAct T Q)} {al : Alloc} {xs : List (SetAns T S)} {p : List HMap} {s : Heap T Unit}
    (hr : SetAct.hprog f bor acts [] (Heap.start al pl) = .ok ((xs, true, p), s)) :
    ∃ ls, SetAct.Rights f bor False False acts [] xs ls ∧ ∃ s', dropAll p s = .ok (ls, s') ∧ ∀ a, s'.cells a = none := by
  have := setActs_ref (f := f) (bor := bor) (lawful := False) (refuses := False) (fun h => h.elim) acts (hs := []) (p := []) (by simp) (fun h => h.elim) (al := al) (fun h => h.elim)
    (start_good (pl := pl) al) (by simpa only [sep_emp] using start_world (pl := pl) al)
  rw [hr] at this
  obtain ⟨hg, p', al', h1, h2, _, _, h3⟩ := this
  exact ⟨_, h1, all_freed (dropAll_spec h2) hg h3⟩

/-- **C87** With a lawful order, every answer is the one that sorted lists and mathematical sets give; a call may answer that it found no memory, and an operator may panic, but
only if some request was refused, and then it left all sets as they were. -/
theorem C87_history [Std.TransOrd T] [Std.TransOrd Q] (hbo : BorrowOK bor) {acts : List (SetAct T Q)} {al : Alloc} {xs : List (SetAns T S)} {p : List HMap} {s : Heap T Unit}
    (hr : SetAct.hprog f bor acts [] (Heap.start al pl) = .ok ((xs, true, p), s)) :
    ∃ ls, SetAct.Rights f bor True (¬ al.Good) acts [] xs ls ∧ ∃ s', dropAll p s = .ok (ls, s') ∧ ∀ a, s'.cells a = none := by
  have := setActs_ref (f := f) (bor := bor) (lawful := True) (refuses := ¬ al.Good) (fun _ => ⟨inferInstance, inferInstance, hbo⟩) acts (hs := []) (p := []) (by simp) (fun _ => by simp)
    (al := al) (fun _ h => h) (start_good (pl := pl) al) (by simpa only [sep_emp] using start_world (pl := pl) al)
  rw [hr] at this
  obtain ⟨hg, p', al', h1, h2, _, _, h3⟩ := this
  exact ⟨_, h1, all_freed (dropAll_spec h2) hg h3⟩

/-- **C87** It stops early only where an insertion failed; all that it was answered before was right. -/
theorem C87_stops [Std.TransOrd T] [Std.TransOrd Q] (hbo : BorrowOK bor) {acts : List (SetAct T Q)} {al : Alloc} {xs : List (SetAns T S)} {p : List HMap} {s : Heap T Unit}
    (hr : SetAct.hprog f bor acts [] (Heap.start al pl) = .ok ((xs, false, p), s)) :
    ¬ al.Good ∧ ∃ before a after ys x ls, acts = before ++ a :: after ∧ xs = ys ++ [x] ∧ SetAct.Rights f bor True (¬ al.Good) before [] ys ls ∧ a.stops x := by
  have := setActs_ref (f := f) (bor := bor) (lawful := True) (refuses := ¬ al.Good) (fun _ => ⟨inferInstance, inferInstance, hbo⟩) acts (hs := []) (p := []) (by simp) (fun _ => by simp)
    (al := al) (fun _ h => h) (start_good (pl := pl) al) (by simpa only [sep_emp] using start_world (pl := pl) al)
  rw [hr] at this
  exact ⟨this.1 trivial, this.2⟩

/-- **C87** If no request for memory is refused, the program comes to its end, nothing is undefined, no call fails, no operator panics, every answer is right, and nothing is
left allocated when the sets are dropped. -/
theorem C87_memory [Std.TransOrd T] [Std.TransOrd Q] (hbo : BorrowOK bor) (acts : List (SetAct T Q)) {al : Alloc} (hal : al.Good) (pl : Nat → Heap.Addr) :
    ∃ xs p s, SetAct.hprog f bor acts [] (Heap.start al pl) = .ok ((xs, true, p), s) ∧
      ∃ ls, SetAct.Rights f bor True False acts [] xs ls ∧ ∃ s', dropAll p s = .ok (ls, s') ∧ ∀ a, s'.cells a = none := by
  have := setActs_ref (f := f) (bor := bor) (lawful := True) (refuses := False) (fun _ => ⟨inferInstance, inferInstance, hbo⟩) acts (hs := []) (p := []) (by simp) (fun _ => by simp)
    (al := al) (fun _ h => h hal) (start_good (pl := pl) al) (by simpa only [sep_emp] using start_world (pl := pl) al)
  cases hr : SetAct.hprog f bor acts [] (Heap.start al pl) with
  | ub => rw [hr] at this; exact absurd hal (this.1 trivial)
  | panic msg => rw [hr] at this; exact absurd hal (this trivial)
  | ok x =>
    obtain ⟨⟨xs, b, p⟩, s⟩ := x
    rw [hr] at this
    cases b with
    | false => exact absurd hal (this.1 trivial)
    | true =>
      obtain ⟨hg, p', al', h1, h2, _, _, h3⟩ := this
      exact ⟨xs, p, s, rfl, _, h1, all_freed (dropAll_spec h2) hg h3⟩

end

/-- **C87** (about the specification) If clones compare equal to their originals, inserting the clones of the elements of the result one after the other gives just these clones. -/
theorem C87_clones [Ord T] [Std.TransOrd T] {l r out : List T} {k : AlgKind} (h : k.Out l r out) {fk : T → T} (hfk : ∀ x, compare x (fk x) = .eq) :
    (out.map fun t => (fk t, ())).foldl (fun acc kv => Spec.insert kv.1 kv.2 acc) [] = out.map fun t => (fk t, ()) := by
  have hasc : Ascending out := by
    cases k with
    | difference => exact h.1
    | symmetricDifference => exact h.1
    | union => exact h.1
    | intersection =>
      simp only [AlgKind.Out] at h
      split at h <;> exact h.1
  obtain ⟨s, a, g1, g2, g3⟩ := (BSet.fromAscending (BTree.ascending_map hasc hfk) (fun _ => true)).resolve_left fun h => h.2 fun _ => rfl
  rw [BSet.extend_eq] at g1
  obtain ⟨⟨M1, a1⟩, g4, g5⟩ := Exec.bind_eq_ok.1 g1
  simp only [Exec.ok.injEq, Prod.mk.injEq] at g5
  obtain ⟨rfl, rfl⟩ := g5
  rw [List.map_map] at g4
  have hlist : M1.toList = out.map fun x => (fk x, ()) := by
    have : M1.toList = (M1.toList.map Prod.fst).map fun x => (x, ()) := by
      rw [List.map_map]; exact (List.map_id _).symm
    rw [this, show M1.toList.map Prod.fst = _ from g3, List.map_map]; rfl
  rcases Map.extend_spec (out.map fun t => (fk t, ())) (Map.Valid_new (K := T) (V := Unit)) (fun _ => true) with ⟨⟨msg, h1⟩, _⟩ | ⟨m1, a1, h1, h2, _, h3⟩
  · rw [show ((fun x => (x, ())) ∘ fk) = fun t => (fk t, ()) from rfl, show (BSet.new : BSet T).map = Map.new from rfl, h1] at g4; cases g4
  · have := BTree.Exec.ok_unique g4 h1
    simp only [Prod.mk.injEq] at this
    obtain ⟨rfl, rfl⟩ := this
    exact h3.symm.trans hlist

/-- The mathematical operations have one result. -/
theorem out_unique [Ord T] [Std.TransOrd T] {l r out out' : List T} {k : AlgKind} (h : k.Out l r out) (h' : k.Out l r out') : out = out' := by
  have go : ∀ {a b : List T}, Ascending a → Ascending b → (∀ x, x ∈ a ↔ x ∈ b) → a = b := by
    intro a
    induction a with
    | nil => intro b _ _ h; cases b with
      | nil => rfl
      | cons y b => exact absurd ((h y).2 (List.mem_cons_self ..)) (by simp)
    | cons x a ih =>
      intro b ha hb h
      cases b with
      | nil => exact absurd ((h x).1 (List.mem_cons_self ..)) (by simp)
      | cons y b =>
        obtain ⟨a1, a2⟩ := List.pairwise_cons.1 ha
        obtain ⟨b1, b2⟩ := List.pairwise_cons.1 hb
        have hxy : x = y := by
          rcases List.mem_cons.1 ((h x).1 (List.mem_cons_self ..)) with e | e
          · exact e
          · rcases List.mem_cons.1 ((h y).2 (List.mem_cons_self ..)) with e' | e'
            · exact e'.symm
            · have h1 := b1 x e
              have h2 := a1 y e'
              rw [Std.OrientedCmp.eq_swap (cmp := compare), h1] at h2
              cases h2
        subst hxy
        have irr : compare x x = .eq := Std.ReflCmp.compare_self
        congr 1
        refine ih a2 b2 fun z => ?_
        constructor
        · intro hz
          rcases List.mem_cons.1 ((h z).1 (List.mem_cons_of_mem _ hz)) with e | e
          · have := a1 z hz
            rw [e, irr] at this; cases this
          · exact e
        · intro hz
          rcases List.mem_cons.1 ((h z).2 (List.mem_cons_of_mem _ hz)) with e | e
          · have := b1 z hz
            rw [e, irr] at this; cases this
          · exact e
  cases k with
  | difference => exact go h.1 h'.1 fun x => (h.2 x).trans (h'.2 x).symm
  | symmetricDifference => exact go h.1 h'.1 fun x => (h.2 x).trans (h'.2 x).symm
  | union => exact go h.1 h'.1 fun x => (h.2 x).trans (h'.2 x).symm
  | intersection =>
    simp only [AlgKind.Out] at h h'
    split at h
    · rename_i hl
      rw [if_pos hl] at h'
      exact go h.1 h'.1 fun x => (h.2 x).trans (h'.2 x).symm
    · rename_i hl
      rw [if_neg hl] at h'
      exact go h.1 h'.1 fun x => (h.2 x).trans (h'.2 x).symm

/-- With a lawful order and no refused request, what is in the sets after one thing is determined by what was in them. -/
theorem setRight_unique [Ord T] [Std.TransOrd T] [Ord Q] {f : Orders T Unit S} {bor : T → Q} {a : SetAct T Q} {ls : List (List (T × Unit))} {x y : SetAns T S} {ls1 ms1 : List (List (T × Unit))}
    (h1 : a.Right f bor True False ls x ls1) (g1 : a.Right f bor True False ls y ms1) : ls1 = ms1 := by
  cases a with
  | act a =>
    obtain ⟨_, _, h1⟩ := h1
    obtain ⟨_, _, g1⟩ := g1
    exact (h1.unique g1).2
  | ask a =>
    obtain ⟨_, _, _, _, h1⟩ := h1
    obtain ⟨_, _, _, _, g1⟩ := g1
    exact h1.trans g1.symm
  | operator i j k fk =>
    simp only [SetAct.Right] at h1 g1
    cases hi : ls[i]? <;> cases hj : ls[j]? <;> rw [hi, hj] at h1 g1 <;> dsimp only at h1 g1
    · exact h1.2.trans g1.2.symm
    · exact h1.2.trans g1.2.symm
    · exact h1.2.trans g1.2.symm
    · rcases h1 with ⟨_, h1, _⟩ | ⟨_, l1, rfl, _, h1⟩
      · exact (h1 trivial).elim
      · rcases g1 with ⟨_, g1, _⟩ | ⟨_, l2, rfl, _, g1⟩
        · exact (g1 trivial).elim
        · obtain ⟨o1, h3, rfl⟩ := h1 trivial
          obtain ⟨o2, h4, rfl⟩ := g1 trivial
          rw [out_unique h3 h4]

/-- **C87** (about the specification) With a lawful order and no refused request, what is in the sets at the end is determined by the program alone; so is every answer but size hints and the
printed forms of half-used set-algebra iterators, which are only required to be right. -/
theorem C87_determined [Ord T] [Std.TransOrd T] [Ord Q] (f : Orders T Unit S) (bor : T → Q) : ∀ (acts : List (SetAct T Q)) {ls : List (List (T × Unit))} {xs xs' : List (SetAns T S)}
    {ls' ls'' : List (List (T × Unit))}, SetAct.Rights f bor True False acts ls xs ls' → SetAct.Rights f bor True False acts ls xs' ls'' → ls' = ls''
  | [], _, _, _, _, _, ⟨_, h2⟩, ⟨_, h4⟩ => h2.trans h4.symm
  | a :: acts, ls, _, _, ls', ls'', ⟨x, xs1, ls1, rfl, h1, _, h2⟩, ⟨y, ys1, ms1, rfl, g1, _, g2⟩ => by
    obtain rfl := setRight_unique h1 g1
    exact C87_determined f bor acts h2 g2

/-! ### Examples -/

/-- The two sets {0, 1, …, 39} and {20, 21, …, 59}, of two levels each; algebra, calls and operators in turns, on sets that operators made. -/
def setProgram : List (SetAct Nat Nat) :=
  [.act (.op .new), .act (.op .new), .act (.op (.extend 0 (unitsOf (List.range 40)))), .act (.op (.extend 1 (unitsOf ((List.range 40).map (· + 20))))),
   .operator 0 1 .intersection id, .ask (.subset 2 0), .operator 0 1 .symmetricDifference id, .ask (.disjoint 2 3), .operator 2 3 .union id, .operator 0 1 .union id, .act (.ask (.eq 4 5)),
   .act (.op (.remove 5 7)), .act (.ask (.eq 4 5)), .ask (.superset 4 5), .operator 4 5 .difference (· + 0), .ask (.debug 6), .operator 6 9 .union id,
   .ask (.algebra 2 6 [.start .union, .next 0, .clone 0, .next 1, .next 0]), .act (.op (.insert 6 100 ())), .ask (.debug 6)]

def setAnsNumber : SetAns Nat Nat → Nat
  | .ans a => match a with
    | .out .done => 1
    | .out (.value none) => 2
    | .out (.value (some _)) => 3
    | .out _ => 4
    | .told (.bool b) => if b then 7 else 6
    | _ => 5
  | .told (.bool b) => if b then 11 else 10
  | .told (.elements l) => 2000 + l.sum
  | .told (.seen xs) => 3000 + xs.length
  | .told .skipped => 12
  | .made => 13
  | .panicked => 14
  | .skipped => 15

def setOrders : Orders Nat Unit Nat where
  eqK := (· == ·)
  eqV _ _ := true
  partialK a b := some (compare a b)
  partialV _ _ := some .eq
  cmpK a b := compare a b
  cmpV _ _ := .eq
  feed s e := 31 * s + e.1
  init := 0

example : (match SetAct.hprog setOrders id setProgram [] (Heap.Heap.start allOk reuse) with
    | .ok ((xs, true, p), s) =>
      match dropAll p s with
      | .ok (ls, s') => xs.map setAnsNumber == [1, 1, 1, 1, 13, 11, 13, 11, 13, 13, 7, 3, 6, 11, 13, 2007, 15, 3005, 2, 2107] && ls.map List.length == [40, 40, 20, 40, 60, 59, 2] &&
          ls.getLast? == some (unitsOf [7, 100]) && (tally s').2 == 0
      | _ => false
    | _ => false) = true := by decide +kernel

/-- A set of three nodes, and memory for no more: `|` panics, and the program goes on with its sets as they were. -/
def poorSets : List (SetAct Nat Nat) :=
  [.act (.op .new), .act (.op (.extend 0 (unitsOf (List.range 12)))), .operator 0 0 .union id, .ask (.debug 0), .operator 0 0 .difference id, .ask (.debug 1)]

example : (match SetAct.hprog setOrders id poorSets [] (Heap.Heap.start (grants 3) reuse) with
    | .ok ((xs, true, p), s) =>
      match dropAll p s with
      | .ok (ls, s') => xs.map setAnsNumber == [1, 1, 14, 2066, 13, 2000] && ls == [unitsOf (List.range 12), []] && (tally s').2 == 0
      | _ => false
    | _ => false) = true := by decide +kernel

/-- Memory for one node more, and it is undefined behaviour. -/
example : (match SetAct.hprog setOrders id poorSets [] (Heap.Heap.start (grants 4) reuse) with
    | .ub => true
    | _ => false) = true := by decide +kernel

end Verif.Props
