import Verif.Heap.Proofs.Copy
import Verif.Heap.Proofs.SetAlg
import Verif.Heap.Proofs.StepsWhole
/-
The operators of sets, taken apart into accesses: the nodes of the two sets are looked at and nothing else.
-/
namespace Verif.Heap
open Verif
open Verif.BTree (Map BSet Difference TwoIters)
open Verif.Spec (AlgKind)

variable {T S : Type} [Ord T]

/-- `hcollectSet`, taken apart. -/
noncomputable def collectP (next : S → Prog T Unit (Option T × S)) (fk : T → T) : Nat → S → HMap → Prog T Unit (Bool × HMap)
  | 0, _, _ => .panic "fuel"
  | fuel + 1, s, m => (next s).bind fun r =>
    match r.1 with
    | none => .done (true, m)
    | some x => (progOf (m.tryInsert (fk x) ())).bind fun p =>
      match p.1 with
      | none => .done (false, p.2)
      | some _ => collectP next fk fuel r.2 p.2

theorem collectP_whole {next : S → Prog T Unit (Option T × S)} {next' : S → HM T Unit (Option T × S)} (h : ∀ s, (next s).whole = next' s) (fk : T → T) : ∀ (n : Nat) (s : S) (m : HMap),
    (collectP next fk n s m).whole = hcollectSet next' fk n s m
  | 0, s, m => rfl
  | n + 1, s, m => by
    unfold collectP hcollectSet
    rw [Prog.whole_bind, h]
    congr 1; funext r
    cases r.1 with
    | none => rfl
    | some x =>
      simp only [Prog.whole_bind, progOf_whole]
      congr 1; funext p
      cases p.1 with
      | none => rfl
      | some _ => exact collectP_whole h fk n r.2 p.2

/-- An operator, taken apart. -/
noncomputable def HMap.operatorP (s o : HMap) (fk : T → T) : AlgKind → Prog T Unit (Option HMap)
  | .difference => (lookOf (s.difference o)).bind fun d => (collectP (fun d => lookOf (HDifference.next d)) fk (s.length + 1) d HMap.new).bind fun x => progOf (hcollectEnd x)
  | .symmetricDifference =>
    (lookOf (s.twoIters o)).bind fun d => (collectP (fun d => lookOf (HTwoIters.symDiffNext d)) fk (s.length + o.length + 1) d HMap.new).bind fun x => progOf (hcollectEnd x)
  | .intersection => (lookOf (s.intersection o)).bind fun d => (collectP (fun d => lookOf (HIntersection.next d)) fk (s.length + 1) d HMap.new).bind fun x => progOf (hcollectEnd x)
  | .union => (lookOf (s.twoIters o)).bind fun d => (collectP (fun d => lookOf (HTwoIters.unionNext d)) fk (s.length + o.length + 1) d HMap.new).bind fun x => progOf (hcollectEnd x)

theorem operatorP_whole (s o : HMap) (fk : T → T) (k : AlgKind) : (s.operatorP o fk k).whole = s.operator o fk k := by
  cases k <;> simp only [HMap.operatorP, HMap.operator, Prog.whole_bind, lookOf_whole] <;> congr 1 <;> funext d <;> rw [collectP_whole fun _ => lookOf_whole _] <;> congr 1 <;>
    funext x <;> exact progOf_whole _

variable {E : String → Prop} {s₀ : Heap T Unit} {Kn : HProp T Unit → Prop}

omit [Ord T] in
/-- What only looks, and computes `x` from what is known of the nodes, does so whatever else is there. -/
theorem LTriple.refines {α β : Type} {f : HM T Unit α} [Steps true f] {x : Exec β} {R : α → β → Prop} (h : Refines s₀ f x R) {b : β} (hx : x = .ok b) :
    LTriple s₀.cells E emp (lookOf f) (fun a => Heap.fact (R a b)) := by
  obtain ⟨a, h1, h2⟩ := h b hx
  rintro P s hg ⟨w, h3, h4, h5⟩
  have hin : ∀ x nd, s₀.cells x = some nd → s.cells x = some nd := fun x nd hx => by
    rw [h4]; unfold both
    rcases h3 x with h | h
    · rw [h, hx]; rfl
    · rw [hx] at h; cases h
  refine (safe_of_looks (E := E) (F := fun a => R a b) (lookOf_reads f) hin ?_).weaken ?_
  · rw [lookOf_whole, h1]; exact h2
  · rintro a s' ⟨ha, rfl⟩
    refine ⟨hg, w, h3, h4, ?_⟩
    rw [emp_sep] at h5
    exact fact_sep.2 ⟨ha, h5⟩

theorem collectP_look {S U : Type} {hnext : S → HM T Unit (Option T × S)} [∀ x, Steps true (hnext x)] {next : U → Exec (Option T × U)} {Rel : S → U → Prop} {I : U → List T → Prop}
    (hy : BTree.Yields next I) (hstep : ∀ {x y}, Rel x y → Refines s₀ (hnext x) (next y) (ItemAt Rel)) (fk : T → T) :
    ∀ (out : List T) (fuel : Nat) {x : S} {y : U} {m : HMap} {M M' : Map T Unit} {al al' : Alloc}, M.WF → Rel x y → I y out → out.length < fuel →
      M.extend (out.map fun t => (fk t, ())) al = .ok (M', al') →
      LTriple s₀.cells E (rep m M ∗ sched al) (collectP (fun x => lookOf (hnext x)) fk fuel x m) (fun r => Heap.fact (r.1 = true) ∗ rep r.2 M' ∗ sched al')
  | out, 0, _, _, _, _, _, _, _, _, _, _, hf, _ => by omega
  | out, fuel + 1, x, y, m, M, M', al, al', hM, hxy, hI, hf, he => by
    obtain ⟨y', h1, h2⟩ := hy y out hI
    have hl := (LTriple.refines (E := E) (hstep hxy) h1).frame (rep m M ∗ sched al)
    rw [emp_sep] at hl
    unfold collectP
    refine LTriple.seq hl fun r => LTriple.getFact fun hr => ?_
    obtain ⟨h4, h5⟩ := hr
    dsimp only at h4 h5
    cases out with
    | nil =>
      rw [h4]
      simp only [List.map_nil, Map.extend, Exec.ok.injEq, Prod.mk.injEq] at he
      obtain ⟨rfl, rfl⟩ := he
      exact LTriple.ofPure (Ent.putFact rfl (Ent.refl _))
    | cons t out =>
      rw [h4]
      dsimp only [List.head?_cons]
      obtain ⟨res, M1, al1, g1, g2, _⟩ := BTree.Map.tryInsert_wf hM (fk t) () al
      refine LTriple.seq (LTriple.prog (tryInsert_rep g1)) fun p => ?_
      rw [List.map_cons, Map.extend, g1] at he
      cases res with
      | error e => simp at he
      | ok old =>
        rw [insertPost_ok]
        refine LTriple.getFact fun hp => ?_
        rw [hp]
        refine LTriple.pre (P := rep p.2 M1 ∗ sched al1) ?_ (by ent_ac)
        exact collectP_look hy hstep fk out fuel g2.1 h5 h2 (by simpa using hf) (by simpa using he)

/-- An operator, with enough memory: what it makes, and that it does nothing else. -/
theorem operatorP_look {b o : BSet T} {m n : HMap} (hK : Knows s₀ Kn) (h : SetAt Kn b m) (h' : SetAt Kn o n) (p : BTree.AlgPlan b o) (fk : T → T) (k : AlgKind) {al al' : Alloc} {M' : Map T Unit}
    (he : Map.fromIter ((p.outs k).map fun t => (fk t, ())) al = .ok (M', al')) :
    LTriple s₀.cells E (sched al) (m.operatorP n fk k) (fun r => hex fun c => Heap.fact (r = some c) ∗ rep c M' ∗ sched al') := by
  have l1 := h.len
  have l2 := h'.len
  rw [BSet.len_spec h.1] at l1
  rw [BSet.len_spec h'.1] at l2
  have go : ∀ {S U : Type} {open_ : HM T Unit S} [Steps true open_] {x : Exec U} {Rel : S → U → Prop} {hnext : S → HM T Unit (Option T × S)} [∀ x, Steps true (hnext x)]
      {next : U → Exec (Option T × U)} {I : U → List T → Prop} {fuel : Nat}, Refines s₀ open_ x Rel → BTree.Yields next I →
      (∀ {x y}, Rel x y → Refines s₀ (hnext x) (next y) (ItemAt Rel)) → (∃ d, x = .ok d ∧ I d (p.outs k)) → (p.outs k).length < fuel →
      LTriple s₀.cells E (sched al) ((lookOf open_).bind fun d => (collectP (fun d => lookOf (hnext d)) fk fuel d HMap.new).bind fun x => progOf (hcollectEnd x))
        (fun r => hex fun c => Heap.fact (r = some c) ∗ rep c M' ∗ sched al') := by
    intro S U open_ _ x Rel hnext _ next I fuel h1 hy hst h2 hf
    obtain ⟨d, h2, h3⟩ := h2
    have hl := (LTriple.refines (E := E) h1 h2).frame (sched al)
    rw [emp_sep] at hl
    refine LTriple.seq hl fun c => LTriple.getFact fun hc => ?_
    have h5 := collectP_look (E := E) (m := HMap.new) hy hst fk (p.outs k) fuel Map.WF_new hc h3 hf he
    rw [rep_new, emp_sep] at h5
    refine LTriple.seq h5 fun r => LTriple.getFact fun hr => ?_
    refine LTriple.prog ?_
    unfold hcollectEnd
    rw [if_pos hr]
    exact Triple.ofPure (Ent.hex_right r.2 (Ent.putFact rfl (Ent.refl _)))
  obtain ⟨q1, q2, q3, q4⟩ := p.len
  cases k with
  | difference => exact go (difference_ref hK h h') (Difference.yields o p.c p.has _) (differenceNext_ref hK) p.diff (by omega)
  | symmetricDifference =>
    obtain ⟨t, t1, t2, t3⟩ := p.two
    exact go (twoIters_ref hK h h') TwoIters.symYields (symDiffNext_ref hK) ⟨t, t1, t2⟩ (by omega)
  | intersection => exact go (intersection_ref hK h h') (BTree.Intersection.yields p.other p.ci p.hasi) (intersectionNext_ref hK) p.inter (by omega)
  | union =>
    obtain ⟨t, t1, t2, t3⟩ := p.two
    exact go (twoIters_ref hK h h') TwoIters.unionYields (unionNext_ref hK) ⟨t, t1, t3⟩ (by omega)

end Verif.Heap
