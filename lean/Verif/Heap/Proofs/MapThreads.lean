import Verif.Heap.Proofs.ConcWhole
import Verif.Heap.Proofs.StepsWhole
/-
Threads that use the whole API of maps: each call does what it should.
-/
namespace Verif.Heap
open Verif Verif.Spec
open Verif.BTree (Map Loose)

variable {K V Q S : Type} [Ord K] [Ord Q] {f : Orders K V S} {bor : K → Q} {lawful mem : Prop}

omit [Ord K] [Ord Q] in
theorem onList_same {ls : List (List (K × V))} {i : Nat} {g : List (K × V) → Out K V × List (K × V)} (h : ∀ l, (g l).2 = l) : (Spec.onList ls i g).2 = ls := by
  unfold Spec.onList
  cases hi : ls[i]? with
  | none => rfl
  | some l =>
    dsimp only
    rw [h]
    obtain ⟨hl, he⟩ := List.getElem?_eq_some_iff.1 hi
    rw [← he]; exact List.set_getElem_self hl

theorem looks_same (bor : K → Q) (o : Op K V Q) (h : o.looks = true) (ls : List (List (K × V))) : (o.spec bor ls).2 = ls := by
  cases o <;> first | (simp [Spec.Op.looks] at h; done) | (simp only [Op.spec]; (repeat' split) <;> first | rfl | exact onList_same fun _ => rfl)

omit [Ord K] [Ord Q] in
theorem makes_copies (o : Op K V Q) : o.makes = Op.copies o := by cases o <;> rfl

omit [Ord K] [Ord Q] in
theorem looks_shared (o : Op K V Q) : o.looks = Op.shared o := by cases o <;> rfl

/-- A call that has ended without a failed insertion: what it answers and leaves. -/
theorem run_right (hlaw : lawful → Lawful (K := K) bor) {p : List (Map K V)} (hp : ∀ m ∈ p, m.WF) (hv : lawful → ∀ m ∈ p, m.Valid) {al al' : Alloc} {refuses : Prop}
    (href : lawful → ¬ al.Good → refuses) {o : Op K V Q} {x : Out K V} {p' : List (Map K V)} (hx : BTree.Op.run bor p al o = .ok (x, p', al')) (hsp : ¬ Op.spoils o x = true) :
    (∀ m ∈ p', m.WF) ∧ (lawful → ∀ m ∈ p', m.Valid) ∧
      (lawful → (x, p'.map Map.toList) = o.spec bor (p.map Map.toList) ∨ (x = .failed ∧ refuses ∧ p'.map Map.toList = p.map Map.toList)) := by
  have hins : o.inserting.isSome = o.inserts := by cases o <;> rfl
  have hns : ¬ (o.inserting.isSome = true ∧ x = .failed) := fun h => hsp (spoils_iff.2 ⟨by rw [← hins]; exact h.1, h.2⟩)
  have hw' : ∀ m ∈ p', m.WF := by
    rcases BTree.Op.run_wf bor hp al o with ⟨msg, h⟩ | ⟨o2, p2, a2, h, h2⟩
    · rw [hx] at h; cases h
    · rw [hx] at h
      simp only [Exec.ok.injEq, Prod.mk.injEq] at h
      obtain ⟨rfl, rfl, rfl⟩ := h
      rcases h2 with h2 | h2
      · exact absurd (spoils_iff.2 h2) hsp
      · exact h2
  have hval : lawful → (∀ m ∈ p', m.Valid) ∧ ((x, p'.map Map.toList) = o.spec bor (p.map Map.toList) ∨ (x = .failed ∧ refuses ∧ p'.map Map.toList = p.map Map.toList)) := by
    intro hl
    obtain ⟨_, _, hbo⟩ := hlaw hl
    rcases BTree.Op.run_agrees hbo (hv hl) al o with ⟨⟨msg, h⟩, _⟩ | ⟨o', p2, a2, h1, h2, h3⟩
    · rw [hx] at h; cases h
    · rw [hx] at h1
      simp only [Exec.ok.injEq, Prod.mk.injEq] at h1
      obtain ⟨rfl, rfl, rfl⟩ := h1
      rcases h3 with ⟨rfl, h2⟩ | ⟨h1, h2, h3⟩
      · have hni : o.inserting = none := by
          cases h : o.inserting with
          | none => rfl
          | some z => exact absurd ⟨by rw [h]; rfl, rfl⟩ hns
        have ht : o.trusts [] = false := by cases o <;> rfl
        rcases BTree.Op.run_allowed hbo (bad := []) (Loose.ofAll (hv hl)) al o ht with ⟨msg, h⟩ | ⟨o2, p2, a2, h, h3, h4⟩
        · rw [hx] at h; cases h
        · rw [hx] at h
          simp only [Exec.ok.injEq, Prod.mk.injEq] at h
          obtain ⟨rfl, rfl, rfl⟩ := h
          refine ⟨fun m hm => ?_, ?_⟩
          · obtain ⟨j, hj⟩ := List.mem_iff_getElem?.1 hm
            obtain ⟨z, h5, h6⟩ := h3 j m hj
            have : z = 0 := h6 (by simp [Op.mark, hni])
            subst this
            exact h5
          · unfold Op.allowed at h4
            rw [if_neg (by rw [ht]; simp)] at h4
            rcases h4 with h4 | ⟨_, h4⟩ | ⟨h4, _⟩
            · exact .inl h4
            · simp only [Op.leaves, hni] at h4
              exact .inr ⟨rfl, href hl h2, h4⟩
            · exfalso
              cases o <;> simp_all [Op.miscounts]
      · exact ⟨h1, .inl (by rw [h2, h3])⟩
  exact ⟨hw', fun hl => (hval hl).1, fun hl => (hval hl).2⟩

omit [Ord K] [Ord Q] in
theorem start_whole {ro : Cells K V} {al : Alloc} {s : Heap K V} (hc : s.cells = ro) (ha : s.alloc = al) : Over ro (sched al ∗ emp) s := by
  subst hc; subst ha
  exact ⟨fun _ => none, fun _ => .inl rfl, by funext x; simp [both], by rw [sep_emp]; rfl⟩

/-- `clone` and `try_clone`, in memory. -/
theorem opMade (hlaw : lawful → Lawful (K := K) bor) {hs : List HMap} {p : List (Map K V)} (hp : ∀ m ∈ p, m.WF) (hv : lawful → ∀ m ∈ p, m.Valid) {s : Heap K V}
    (hm : mem → s.alloc.Good) (hg : s.Good) (hw : pool hs p ⟨s.cells, none⟩) (o : Op K V Q) (hc : Op.copies o = true) :
    EndsWell (fun _ => lawful → ¬ mem) (Made lawful (Act.Right f bor lawful ¬mem) hs p s.cells (.op o)) (Act.hrun f bor hs (.op o) s) := by
  have hp1 : ∀ msg, BTree.Op.run bor p s.alloc o = .panic msg → lawful → ¬ mem := fun msg h hl hm' => by
    obtain ⟨_, _, hbo⟩ := hlaw hl
    rcases BTree.Op.run_agrees hbo (hv hl) s.alloc o with ⟨_, h2⟩ | ⟨o, p', a', h1, _⟩
    · exact h2 (hm hm')
    · rw [h] at h1; cases h1
  have h := copyP_look (ro := s.cells) (E := fun _ => lawful → ¬ mem) (bor := bor) (hs := hs) ⟨s.cells, fun _ _ h => h, hw⟩ hp hc hp1 emp s hg (start_whole rfl rfl)
  have h2 := h.whole
  rw [copyP_whole bor hs hc] at h2
  have e : Act.hrun f bor hs (.op o) s = (Op.hrun bor hs o s).bind fun r => .ok ((.out r.1.1, r.1.2), r.2) := by
    simp only [Act.hrun]
    show HM.bind _ _ s = _
    unfold HM.bind
    cases Op.hrun bor hs o s <;> rfl
  rw [e]
  revert h2
  cases Op.hrun bor hs o s with
  | ub => exact id
  | panic msg => exact id
  | ok r =>
    rintro ⟨_, v, h1, h3, h4⟩
    rw [sep_emp] at h4
    obtain ⟨⟨x, al'⟩, h5⟩ := h4
    obtain ⟨h6, h7⟩ := fact_sep.1 h5
    rw [sep_comm] at h7
    have h8 := sched_off (s := ⟨v, 0, r.2.alloc, fun _ => 0⟩) h7
    have hsp : ¬ Op.spoils o r.1.1 = true := fun h => by
      have := (spoils_iff.1 h).1
      cases o <;> simp_all [Op.copies, Op.inserts]
    obtain ⟨g1, g2, g3⟩ := run_right (refuses := ¬ mem) hlaw hp hv (fun _ h h' => h (hm h')) h6 hsp
    exact ⟨v, x, h1, h3, ⟨_, rfl, g3⟩, fun m hm => g1 m (by simp [hm]), fun hl m hm => g2 hl m (by simp [hm]), h8⟩

/-- What only looks leaves the lists as they are. -/
theorem act_looks {refuses : Prop} {ls : List (List (K × V))} {a : Act K V Q} {x : Ans K V S} {ls' : List (List (K × V))} (hl : a.looks = true) (h : Act.Right f bor lawful refuses ls a x ls') :
    Act.Right f bor lawful refuses ls a x ls := by
  cases a with
  | op o =>
    obtain ⟨x', rfl, h⟩ := h
    refine ⟨x', rfl, fun hlw => ?_⟩
    rcases h hlw with h | ⟨h1, h2, _⟩
    · left
      have := looks_same bor o hl ls
      rw [← h] at this
      dsimp only at this
      rw [← h, this]
    · exact .inr ⟨h1, h2, rfl⟩
  | ask q =>
    obtain ⟨t, rfl, h, _⟩ := h
    exact ⟨t, rfl, h, rfl⟩
  | _ => simp [Spec.Act.looks] at hl

omit [Ord K] [Ord Q] in
/-- … and is no failed insertion. -/
theorem act_calm {a : Act K V Q} {x : Ans K V S} (hl : a.looks = true) : ¬ a.stops x := by
  intro h
  cases a with
  | op o =>
    obtain ⟨h, _⟩ := h
    cases o <;> simp_all [Spec.Act.looks, Spec.Op.looks, Op.inserting]
  | ask q => exact h
  | _ => simp [Spec.Act.looks] at hl

/-- Every call does what it should. -/
theorem map_obeys (hlaw : lawful → Lawful (K := K) bor) :
    Obeys lawful mem (Act.Right f bor lawful ¬mem) Act.stops (mapApi (V := V) (Q := Q) f bor) (fun _ => True) where
  stops_iff := stops_iff
  runs := by
    intro hs p al s hp hv hm hg hw a _
    have h := act_ref (f := f) (bor := bor) (lawful := lawful) (refuses := ¬ mem) hlaw hp hv (fun _ h h' => h (hm h')) hg hw a
    show RunsTo _ (Act.hrun f bor hs a) _ s
    unfold RunsTo at h ⊢
    cases hr : Act.hrun f bor hs a s with
    | ub => rw [hr] at h; exact h.elim
    | panic msg =>
      rw [hr] at h
      exact fun hl hm' => h hl (hm hm')
    | ok r =>
      rw [hr] at h
      obtain ⟨g, y, hy⟩ := h
      refine ⟨g, y, ?_⟩
      cases y with
      | none =>
        obtain ⟨h1, h2⟩ := fact_sep.1 hy
        exact fact_sep.2 ⟨⟨h1.1, fun hl hm' => h1.2 hl (hm hm')⟩, h2⟩
      | some y =>
        obtain ⟨h1, h2⟩ := fact_sep.1 hy
        exact fact_sep.2 ⟨⟨h1.1, h1.2.1, h1.2.2.1, h1.2.2.2.1⟩, h2⟩
  needs := fun _ _ h => by cases h
  looks := fun ls a x ls' hl h => act_looks hl h
  calm := fun a x hl h => act_calm hl h
  makes := by
    intro hs p s hp hv hm hg hw a _ hmk
    cases a with
    | op o => exact opMade hlaw hp hv hm hg hw o (by rw [← makes_copies]; exact hmk)
    | _ => simp [mapApi, Spec.Act.makes] at hmk

/-- A `clone` keeps its answers to itself. -/
theorem copyAct_spares (bor : K → Q) {p : List HMap} {s : Heap K V} (hg : s.Good) (h : HoldsJust p s) (o : Op K V Q) (hc : Op.copies o = true) {X : Type} (g : Out K V × List HMap → X) :
    ((copyP p o).bind fun r => .done (g r)).Spares (fun x => s.cells x ≠ none) s := by
  obtain ⟨ms, hwf, hp⟩ := h
  have h1 : LTriple s.cells (fun _ => True) (sched s.alloc) ((copyP p o).bind fun r => .done (g r)) (fun _ => anything) := by
    refine LTriple.seq (copyP_look (ro := s.cells) (E := fun _ => True) (bor := bor) ⟨s.cells, fun _ _ h => h, hp⟩ hwf hc fun _ _ => trivial) fun r => ?_
    exact LTriple.ofPure fun _ _ => trivial
  exact (h1 emp s hg (start_whole rfl rfl)).spares

/-- Every call can be taken apart. -/
theorem map_apart (f : Orders K V S) (bor : K → Q) : ∃ d : List HMap → Act K V Q → Prog K V (Ans K V S × List HMap), (mapApi (V := V) (Q := Q) f bor).TakesApart d := by
  have h : ∀ x : List HMap × Act K V Q, ∃ t : Prog K V (Ans K V S × List HMap), t.whole = Act.hrun f bor x.1 x.2 ∧ (x.2.looks = true → t.OnlyReads) ∧
      ∀ o, x.2 = .op o → Op.copies o = true → t = (copyP x.1 o).bind fun r => .done (.out r.1, r.2) := by
    intro ⟨p, a⟩
    by_cases hs : a.looks = true
    · obtain ⟨t, h1, h2⟩ := (Act.hrun_looks f bor p a hs).ex
      refine ⟨t, h1, fun _ => h2 rfl, ?_⟩
      intro o ho h
      dsimp only at ho
      subst ho
      cases o <;> simp [Spec.Act.looks, Spec.Op.looks, Op.copies] at hs h
    · by_cases hc : a.makes = true
      · cases a with
        | op o =>
          refine ⟨(copyP p o).bind fun r => .done (.out r.1, r.2), ?_, fun h => absurd h hs, ?_⟩
          · have hc' : Op.copies o = true := by rw [← makes_copies]; exact hc
            rw [Prog.whole_bind, copyP_whole bor p hc']
            rfl
          · intro o' ho _
            obtain rfl := Act.op.inj ho
            rfl
        | _ => simp [Spec.Act.makes] at hc
      · obtain ⟨t, h1, _⟩ := (Act.hrun_steps f bor p a).ex
        refine ⟨t, h1, fun h => absurd h hs, ?_⟩
        intro o ho h
        dsimp only at ho
        subst ho
        exact absurd (by rw [← makes_copies] at h; exact h) hc
  obtain ⟨d, hd⟩ := Classical.axiomOfChoice h
  refine ⟨fun p a => d (p, a), fun p a => (hd (p, a)).1, fun p a h => (hd (p, a)).2.1 h, ?_⟩
  intro p s hg hj a hmk _
  cases a with
  | op o =>
    have hc' : Op.copies o = true := by rw [← makes_copies]; exact hmk
    rw [(hd (p, .op o)).2.2 o rfl hc']
    exact copyAct_spares bor hg hj o hc' _
  | _ => simp [mapApi, Spec.Act.makes] at hmk

end Verif.Heap
