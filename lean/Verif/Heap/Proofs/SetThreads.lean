import Verif.Heap.Proofs.MapThreads
import Verif.Heap.Proofs.SetCopy
import Verif.Props.EverySet
/-
Threads that use the whole API of sets: each call does what it should.
-/
namespace Verif.Heap
open Verif Verif.Spec Verif.Props
open Verif.BTree (Map BSet)

variable {T Q S : Type} [Ord T] [Ord Q] {f : Orders T Unit S} {bor : T → Q} {lawful mem : Prop}

/-- A part of a memory, in the terms of `LTriple`. -/
theorem operatorP_run {hs : List HMap} {p : List (Map T Unit)} (hp : ∀ m ∈ p, m.WF) {s : Heap T Unit} (hg : s.Good) (hw : pool hs p ⟨s.cells, none⟩) (ha : s.alloc.Good) {i j : Nat} {m n : HMap}
    (hi : hs[i]? = some m) (hj : hs[j]? = some n) (fk : T → T) (k : AlgKind) :
    ∃ M N, p[i]? = some M ∧ p[j]? = some N ∧ ∃ (P : BTree.AlgPlan (⟨M⟩ : BSet T) ⟨N⟩) (M' : Map T Unit) (al' : Alloc), Map.fromIter ((P.outs k).map fun t => (fk t, ())) s.alloc = .ok (M', al') ∧
      LTriple s.cells (fun _ => False) (sched s.alloc) (m.operatorP n fk k) (fun r => hex fun c => fact (r = some c) ∗ rep c M' ∗ sched al') := by
  have hl : hs.length = p.length := (fact_sep.1 (pool_length _ hw)).1
  have hw' : (pool hs p ∗ sched s.alloc) s.world := world_sched hw s.next s.alloc s.place
  obtain ⟨M, N, hM, hN, A, R, Kn, hSM, hSN, hA, hk⟩ := pool_known hp hw' hl hi hj
  obtain ⟨P⟩ := BTree.algPlan (s := ⟨M⟩) (o := ⟨N⟩) hSM.1 hSN.1
  rcases Map.extend_wf ((P.outs k).map fun t => (fk t, ())) (Map.WF_new (K := T) (V := Unit)) s.alloc with ⟨_, h⟩ | ⟨M', al', h, _⟩
  · exact absurd ha h
  · exact ⟨M, N, hM, hN, P, M', al', h, operatorP_look (hk hg hA) hSM hSN P fk k h⟩

/-- Everything does what it should. -/
theorem set_obeys (hlaw : lawful → Lawful (K := T) bor) :
    Obeys lawful mem (SetAct.Right f bor lawful ¬mem) SetAct.stops (setApi (Q := Q) f bor) (fun a => a.operates = true → mem) where
  stops_iff := setStops_iff
  runs := by
    intro hs p al s hp hv hm hg hw a hfit
    have h := setAct_ref (f := f) (bor := bor) (lawful := lawful) (refuses := ¬ mem) hlaw hp hv (fun _ h h' => h (hm h')) hg hw a
    show RunsTo _ (SetAct.hrun f bor hs a) _ s
    unfold RunsOr at h
    unfold RunsTo
    cases hr : SetAct.hrun f bor hs a s with
    | ub =>
      rw [hr] at h
      exact h.2 (hm (hfit (by cases a <;> first | exact h.1.elim | rfl)))
    | panic msg =>
      rw [hr] at h
      exact fun hl hm' => h hl (hm hm')
    | ok r =>
      rw [hr] at h
      obtain ⟨g, y, hy⟩ := h
      refine ⟨g, y, ?_⟩
      cases y with
      | none =>
        obtain ⟨h1, h2⟩ := fact_sep.1 hy
        exact fact_sep.2 ⟨⟨h1.1, fun hl hm' => h1.2 hl (hm hm')⟩, h2⟩
      | some y =>
        obtain ⟨h1, h2⟩ := fact_sep.1 hy
        exact fact_sep.2 ⟨⟨h1.1, h1.2.1, h1.2.2.1, h1.2.2.2.1⟩, h2⟩
  needs := fun _ h h' => h h'
  looks := by
    intro ls a x ls' hl h
    cases a with
    | act a =>
      obtain ⟨y, rfl, h⟩ := h
      exact ⟨y, rfl, act_looks hl h⟩
    | ask a =>
      obtain ⟨t, rfl, h1, h2, _⟩ := h
      exact ⟨t, rfl, h1, h2, rfl⟩
    | operator i j k fk => simp [setApi, Spec.SetAct.looks] at hl
  calm := by
    intro a x hl h
    cases a with
    | act a =>
      obtain ⟨y, rfl, h⟩ := h
      exact act_calm hl h
    | ask a => exact h
    | operator i j k fk => exact h
  makes := by
    intro hs p s hp hv hm hg hw a hfit hmk
    cases a with
    | act a =>
      cases a with
      | op o =>
        have h := opMade (f := f) (mem := mem) hlaw hp hv hm hg hw o (by rw [← makes_copies]; exact hmk)
        have e : SetAct.hrun f bor hs (.act (.op o)) s = (Act.hrun f bor hs (.op o) s).bind fun r => .ok ((.ans r.1.1, r.1.2), r.2) := by
          simp only [SetAct.hrun]
          show HM.bind _ _ s = _
          unfold HM.bind
          cases Act.hrun f bor hs (.op o) s <;> rfl
        show EndsWell _ _ (SetAct.hrun f bor hs (.act (.op o)) s)
        rw [e]
        revert h
        cases Act.hrun f bor hs (.op o) s with
        | ub => exact id
        | panic msg => exact id
        | ok r =>
          rintro ⟨v, x, h1, h2, h3, h4⟩
          exact ⟨v, x, h1, h2, ⟨_, rfl, h3⟩, h4⟩
      | _ => simp [setApi, Spec.SetAct.makes, Spec.Act.makes] at hmk
    | ask a => simp [setApi, Spec.SetAct.makes] at hmk
    | operator i j k fk =>
      have hl : hs.length = p.length := (fact_sep.1 (pool_length _ hw)).1
      have hmem : mem := hfit rfl
      have skip : p[i]? = none ∨ p[j]? = none → EndsWell (fun _ => lawful → ¬ mem) (Made lawful (SetAct.Right f bor lawful ¬mem) hs p s.cells (.operator i j k fk))
          (.ok ((.skipped, hs), s)) := by
        intro h
        refine ⟨fun _ => none, [], fun _ => .inl rfl, (both_none_left _).symm, ?_, by simp, by simp, ?_⟩
        · simp only [SetAct.Right, List.getElem?_map, List.append_nil]
          rcases h with h | h <;> rw [h]
          · cases p[j]? <;> simp
          · cases p[i]? <;> simp
        · rw [List.drop_length, pool_nil]
          rfl
      have none_of : ∀ {i : Nat}, hs[i]? = none → p[i]? = none := fun h => by
        rw [List.getElem?_eq_none_iff] at h ⊢
        omega
      show EndsWell _ _ (SetAct.hrun f bor hs (.operator i j k fk) s)
      simp only [SetAct.hrun]
      cases hi : hs[i]? with
      | none => exact skip (.inl (none_of hi))
      | some m =>
        cases hj : hs[j]? with
        | none => exact skip (.inr (none_of hj))
        | some n =>
          obtain ⟨M, N, hM, hN, P, M', al', e2, h⟩ := operatorP_run hp hg hw (hm hmem) hi hj fk k
          have h2 := (h emp s hg (start_whole rfl rfl)).whole
          rw [operatorP_whole] at h2
          dsimp only
          rw [bind_run]
          cases hr : m.operator n fk k s with
          | ub => rw [hr] at h2; exact h2.elim
          | panic msg => rw [hr] at h2; exact h2.elim
          | ok r =>
            rw [hr] at h2
            obtain ⟨r, s'⟩ := r
            obtain ⟨_, v, h1, h3, h4⟩ := h2
            rw [sep_emp] at h4
            obtain ⟨c, h4⟩ := h4
            obtain ⟨h5, h6⟩ := fact_sep.1 h4
            obtain rfl : r = some c := h5
            have h8 := sched_off (s := ⟨v, 0, s'.alloc, fun _ => 0⟩) h6
            obtain ⟨g1, g2, g3, _⟩ := made_right (f := f) (bor := bor) (refuses := ¬ mem) hlaw hp hv hM hN P fk k e2
            refine ⟨v, [M'], h1, h3, g1, fun m hm => g2 m (by simp_all), fun hl m hm => g3 hl m (by simp_all), ?_⟩
            show pool ((hs ++ [c]).drop hs.length) [M'] _
            rw [List.drop_left, pool_cons, pool_nil, sep_emp]
            exact h8

/-- An operator, or the lack of its sets, taken apart. -/
noncomputable def operateP (p : List HMap) (i j : Nat) (k : AlgKind) (fk : T → T) : Prog T Unit (SetAns T S × List HMap) :=
  match p[i]?, p[j]? with
  | some m, some n => (m.operatorP n fk k).bind fun r =>
    match r with
    | some m' => .done (.made, p ++ [m'])
    | none => .done (.panicked, p)
  | _, _ => .done (.skipped, p)

theorem operateP_whole (p : List HMap) (i j : Nat) (k : AlgKind) (fk : T → T) : (operateP (S := S) p i j k fk).whole = SetAct.hrun f bor p (.operator i j k fk : SetAct T Q) := by
  unfold operateP
  simp only [SetAct.hrun]
  cases p[i]? with
  | none => rfl
  | some m =>
    cases p[j]? with
    | none => rfl
    | some n =>
      dsimp only
      rw [Prog.whole_bind, operatorP_whole]
      congr 1; funext r
      cases r <;> rfl

/-- An operator keeps what it makes to itself. -/
theorem operateP_spares {p : List HMap} {s : Heap T Unit} (hg : s.Good) (h : HoldsJust p s) (ha : s.alloc.Good) (i j : Nat) (k : AlgKind) (fk : T → T) :
    (operateP (S := S) p i j k fk).Spares (fun x => s.cells x ≠ none) s := by
  obtain ⟨ms, hwf, hp⟩ := h
  unfold operateP
  cases hi : p[i]? with
  | none => exact spares_ended (by exact trivial) _
  | some m =>
    cases hj : p[j]? with
    | none => exact spares_ended (by exact trivial) _
    | some n =>
      obtain ⟨_, _, _, _, _, _, _, _, h⟩ := operatorP_run hwf hg hp ha hi hj fk k
      have h1 : LTriple s.cells (fun _ => False) (sched s.alloc) ((m.operatorP n fk k).bind fun r => match r with
          | some m' => .done ((.made : SetAns T S), p ++ [m'])
          | none => .done (.panicked, p)) (fun _ => anything) := by
        refine LTriple.seq h fun r => ?_
        cases r <;> exact LTriple.ofPure fun _ _ => trivial
      exact (h1 emp s hg (start_whole rfl rfl)).spares

/-- Everything can be taken apart. -/
theorem set_apart (f : Orders T Unit S) (bor : T → Q) : ∃ d : List HMap → SetAct T Q → Prog T Unit (SetAns T S × List HMap), (setApi (Q := Q) f bor).TakesApart d := by
  obtain ⟨d0, hd0⟩ := map_apart (V := Unit) f bor
  have h : ∀ x : List HMap × SetAct T Q, ∃ t : Prog T Unit (SetAns T S × List HMap), t.whole = SetAct.hrun f bor x.1 x.2 ∧ (x.2.looks = true → t.OnlyReads) ∧
      (∀ o, x.2 = .act (.op o) → Op.copies o = true → t = (copyP x.1 o).bind fun r => .done (.ans (.out r.1), r.2)) ∧
      ∀ i j k fk, x.2 = .operator i j k fk → t = operateP x.1 i j k fk := by
    intro ⟨p, a⟩
    by_cases hs : a.looks = true
    · obtain ⟨t, h1, h2⟩ := (SetAct.hrun_looks f bor p a hs).ex
      refine ⟨t, h1, fun _ => h2 rfl, ?_, ?_⟩
      · intro o ho h
        dsimp only at ho
        subst ho
        cases o <;> simp [Spec.SetAct.looks, Spec.Act.looks, Spec.Op.looks, Op.copies] at hs h
      · intro i j k fk ho
        dsimp only at ho
        subst ho
        simp [Spec.SetAct.looks] at hs
    · by_cases hc : a.makes = true
      · cases a with
        | act a =>
          cases a with
          | op o =>
            refine ⟨(copyP p o).bind fun r => .done (.ans (.out r.1), r.2), ?_, fun h => absurd h hs, ?_, fun _ _ _ _ ho => by cases ho⟩
            · have hc' : Op.copies o = true := by rw [← makes_copies]; exact hc
              rw [Prog.whole_bind, copyP_whole bor p hc']
              funext s
              simp only [SetAct.hrun, Act.hrun]
              show HM.bind _ _ s = HM.bind (HM.bind _ _) _ s
              unfold HM.bind
              cases Op.hrun bor p o s <;> rfl
            · intro o' ho _
              obtain rfl := Act.op.inj (SetAct.act.inj ho)
              rfl
          | _ => simp [Spec.SetAct.makes, Spec.Act.makes] at hc
        | ask a => simp [Spec.SetAct.makes] at hc
        | operator i j k fk =>
          refine ⟨operateP p i j k fk, operateP_whole .., (fun h => absurd h hs), (fun _ ho => by cases ho), ?_⟩
          intro i' j' k' fk' ho
          cases ho
          rfl
      · obtain ⟨t, h1, _⟩ := (SetAct.hrun_steps f bor p a).ex
        refine ⟨t, h1, fun h => absurd h hs, ?_, ?_⟩
        · intro o ho h
          dsimp only at ho
          subst ho
          exact absurd (by rw [← makes_copies] at h; exact h) hc
        · intro i j k fk ho
          dsimp only at ho
          subst ho
          exact absurd rfl hc
  obtain ⟨d, hd⟩ := Classical.axiomOfChoice h
  refine ⟨fun p a => d (p, a), fun p a => (hd (p, a)).1, fun p a h => (hd (p, a)).2.1 h, ?_⟩
  intro p s hg hj a hmk hn
  cases a with
  | act a =>
    cases a with
    | op o =>
      have hc' : Op.copies o = true := by rw [← makes_copies]; exact hmk
      rw [(hd (p, .act (.op o))).2.2.1 o rfl hc']
      exact copyAct_spares bor hg hj o hc' _
    | _ => simp [setApi, Spec.SetAct.makes, Spec.Act.makes] at hmk
  | ask a => simp [setApi, Spec.SetAct.makes] at hmk
  | operator i j k fk =>
    rw [(hd (p, .operator i j k fk)).2.2.2 i j k fk rfl]
    exact operateP_spares hg hj (hn rfl) i j k fk

end Verif.Heap
