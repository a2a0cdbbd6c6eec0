import Verif.Heap.Proofs.AlgUnwind
import Verif.Heap.Proofs.StepsWhole
import Verif.Heap.Proofs.ConcWhole
/-
The predicates and the operators of sets in memory when a comparison of elements panics: each is what it is when undisturbed, or was unwound, and then the memory is as it was.
-/
namespace Verif.Heap
open Verif
open Verif.BTree (Map BSet cmpOpt cmpP CAPACITY)
open Verif.Spec (AlgKind)

variable {T S σ τ α β : Type} {E : String → Prop}

/-! ### code that only reads, cut short -/

/-- In the state `s`, `mU` is `m`, which only reads, cut short when the next comparison panics, with something left over; `m` makes at most `n` comparisons. -/
def CutAt (n c : Nat) (mU : HM T Unit (BTree.Outcome σ (α × Nat))) (m : HM T Unit α) (s : Heap T Unit) : Prop :=
  match mU s with
  | .ok (.done (x, f), s') => s' = s ∧ m s = .ok (x, s) ∧ c ≤ f + n
  | .ok (.unwound _ _, s') => s' = s ∧ c < n
  | .panic e => m s = .panic e
  | .ub => m s = .ub

/-- The same in any state. -/
def CutsO (n c : Nat) (mU : HM T Unit (BTree.Outcome σ (α × Nat))) (m : HM T Unit α) : Prop := ∀ s, CutAt n c mU m s

/-- `nextU` is `next`, which only reads, cut short. -/
def NextCuts (nextU : S → Nat → HM T Unit (BTree.Outcome σ (α × Nat))) (next : S → HM T Unit α) : Prop := ∀ d s, ∃ n, ∀ c, CutAt n c (nextU d c) (next d) s

theorem CutsO.ret {n c : Nat} (x : α) : CutsO n c (pure (.done (x, c)) : HM T Unit (BTree.Outcome σ _)) (pure x) := fun _ => ⟨rfl, rfl, by omega⟩

theorem CutsO.unwind {n c : Nat} {x : σ} {w : BTree.Why} {m : HM T Unit α} (h : c < n) : CutsO n c (pure (.unwound x w)) m := fun _ => ⟨rfl, h⟩

theorem CutsO.panic {n c : Nat} (msg : String) : CutsO n c (HM.panic msg : HM T Unit (BTree.Outcome σ (α × Nat))) (HM.panic msg) := fun _ => rfl

theorem CutsO.mono {n n' c c' : Nat} {mU : HM T Unit (BTree.Outcome σ (α × Nat))} {m : HM T Unit α} (h : CutsO n c mU m) (hc : ∀ f, c ≤ f + n → c' ≤ f + n') (hn : c < n → c' < n') :
    CutsO n' c' mU m := by
  intro s
  have := h s
  unfold CutAt at this ⊢
  split at this
  · exact ⟨this.1, this.2.1, hc _ this.2.2⟩
  · exact ⟨this.1, hn this.2⟩
  · exact this
  · exact this

theorem CutsO.read {n c : Nat} {r : HM T Unit β} {kU : β → HM T Unit (BTree.Outcome σ (α × Nat))} {k : β → HM T Unit α} [hr : Steps true r] (h : ∀ y, CutsO n c (kU y) (k y)) :
    CutsO n c (r >>= kU) (r >>= k) := by
  intro s
  unfold CutAt
  rw [bind_run, bind_run]
  cases e : r s with
  | ok x =>
    obtain ⟨y, s'⟩ := x
    have := (Steps.reads (m := r)) _ _ _ e
    subst this
    exact h y s'
  | panic m => rfl
  | ub => rfl

theorem CutsO.look {n n' c : Nat} {mU : HM T Unit (Option (β × Nat))} {m : HM T Unit β} {kU : Option (β × Nat) → HM T Unit (BTree.Outcome σ (α × Nat))} {k : β → HM T Unit α} {y : σ}
    {w : BTree.Why} (h : Cuts n c mU m) (h0 : kU none = pure (.unwound y w)) (h1 : ∀ x f, CutsO n' f (kU (some (x, f))) (k x)) : CutsO (n + n') c (mU >>= kU) (m >>= k) := by
  intro s
  unfold CutAt
  rw [bind_run, bind_run]
  have hs := h s
  cases e : mU s with
  | ok x =>
    obtain ⟨y, s'⟩ := x
    rw [e] at hs
    cases y with
    | none =>
      dsimp only at hs ⊢
      rw [h0]
      exact ⟨hs.1, by omega⟩
    | some y =>
      obtain ⟨x, f⟩ := y
      dsimp only at hs ⊢
      obtain ⟨rfl, e1, e2⟩ := hs
      rw [e1]
      dsimp only
      have := h1 x f s'
      unfold CutAt at this
      split at this
      · rename_i hk; rw [hk]; exact ⟨this.1, this.2.1, by omega⟩
      · rename_i hk; rw [hk]; exact ⟨this.1, by omega⟩
      · rename_i hk; rw [hk]; exact this
      · rename_i hk; rw [hk]; exact this
  | panic m => rw [e] at hs; dsimp only at hs ⊢; rw [hs]
  | ub => rw [e] at hs; dsimp only at hs ⊢; rw [hs]

section
variable [Ord T]

theorem setContainsU_cuts (m : HMap) (x : T) (c : Nat) : Cuts (11 * (m.root.height + 1)) c (m.setContainsU x c) (m.setContains x) := by
  unfold HMap.setContainsU HMap.setContains
  exact Cuts.seq (n' := 0) (getKeyValueU_cuts m id x c) rfl fun r f => Cuts.ret _

theorem cmpP_cmpOpt (x y : Option T) (short long : Ordering) (c : Nat) :
    (cmpP x y short long c = none ∧ c = 0) ∨ ∃ c', cmpP x y short long c = some (cmpOpt x y short long, c') ∧ c ≤ c' + 1 := by
  cases x with
  | none => exact .inr ⟨c, by cases y <;> rfl, by omega⟩
  | some x =>
    cases y with
    | none => exact .inr ⟨c, by cases c <;> rfl, by omega⟩
    | some y =>
      cases c with
      | zero => exact .inl ⟨rfl, rfl⟩
      | succ c => exact .inr ⟨c, rfl, by omega⟩

theorem differenceStitchU_cuts : ∀ (fuel : Nat) (x : T) (i : HSetIter) (j : HPeekable T) (c : Nat), CutsO fuel c (hdifferenceStitchU fuel x i j c) (hdifferenceStitch fuel x i j)
  | 0, _, _, _, _ => CutsO.panic _
  | fuel + 1, x, i, j, c => by
    unfold hdifferenceStitchU hdifferenceStitch
    refine CutsO.read fun p => ?_
    have hm : p.1.elim Ordering.lt (fun y => compare x y) = cmpOpt (some x) p.1 .lt .lt := by cases p.1 <;> rfl
    rw [hm]
    rcases cmpP_cmpOpt (some x) p.1 .lt .lt c with ⟨e, rfl⟩ | ⟨c', e, hc⟩
    · rw [e]; exact CutsO.unwind (by omega)
    · rw [e]
      refine CutsO.mono (n := fuel) (c := c') ?_ (fun f h => by omega) (fun h => by omega)
      cases cmpOpt (some x) p.1 .lt .lt with
      | lt => exact CutsO.ret _
      | eq =>
        refine CutsO.read fun n => ?_
        cases n.1 with
        | none => exact CutsO.ret _
        | some x' => exact CutsO.read fun q => differenceStitchU_cuts fuel x' n.2 q.2 c'
      | gt => exact CutsO.read fun q => differenceStitchU_cuts fuel x i q.2 c'

theorem differenceSearchU_cuts (o : HMap) : ∀ (fuel : Nat) (i : HSetIter) (c : Nat), CutsO (11 * (o.root.height + 1) * fuel) c (hdifferenceSearchU (T := T) o fuel i c) (hdifferenceSearch o fuel i)
  | 0, _, _ => CutsO.panic _
  | fuel + 1, i, c => by
    unfold hdifferenceSearchU hdifferenceSearch
    refine CutsO.read fun n => ?_
    cases n.1 with
    | none => exact CutsO.ret _
    | some x =>
      rw [Nat.mul_succ, Nat.add_comm]
      refine CutsO.look (setContainsU_cuts o x c) rfl fun b f => ?_
      cases b with
      | true => exact differenceSearchU_cuts o fuel n.2 f
      | false => exact CutsO.ret _

theorem differenceNextU_cuts : NextCuts (T := T) HDifference.nextU HDifference.next := by
  intro d s
  cases d with
  | stitch i j =>
    refine ⟨j.len + 1, fun c => ?_⟩
    refine (?_ : CutsO _ _ _ _) s
    unfold HDifference.nextU HDifference.next
    refine CutsO.read fun n => ?_
    cases n.1 with
    | none => exact CutsO.ret _
    | some x => exact differenceStitchU_cuts _ x n.2 j c
  | search i o => exact ⟨11 * (o.root.height + 1) * (i.len + 1), fun c => differenceSearchU_cuts o _ i c s⟩

theorem symDiffLoopU_cuts : ∀ (fuel : Nat) (t : HTwoIters T) (c : Nat), CutsO fuel c (hsymDiffLoopU fuel t c) (hsymDiffLoop fuel t)
  | 0, _, _ => CutsO.panic _
  | fuel + 1, t, c => by
    unfold hsymDiffLoopU hsymDiffLoop
    refine CutsO.read fun p => CutsO.read fun q => ?_
    rcases cmpP_cmpOpt p.1 q.1 .gt .lt c with ⟨e, rfl⟩ | ⟨c', e, hc⟩
    · rw [e]; exact CutsO.unwind (by omega)
    · rw [e]
      refine CutsO.mono (n := fuel) (c := c') ?_ (fun f h => by omega) (fun h => by omega)
      cases cmpOpt p.1 q.1 .gt .lt with
      | lt => exact CutsO.read fun n => CutsO.ret _
      | eq => exact CutsO.read fun n => CutsO.read fun n' => symDiffLoopU_cuts fuel ⟨n.2, n'.2⟩ c'
      | gt => exact CutsO.read fun n => CutsO.ret _

theorem symDiffNextU_cuts : NextCuts (T := T) HTwoIters.symDiffNextU HTwoIters.symDiffNext := fun t s => ⟨t.a.len + t.b.len + 1, fun c => symDiffLoopU_cuts _ t c s⟩

theorem unionNextU_cuts : NextCuts (T := T) HTwoIters.unionNextU HTwoIters.unionNext := by
  intro t s
  refine ⟨1, fun c => ?_⟩
  refine (?_ : CutsO _ _ _ _) s
  unfold HTwoIters.unionNextU HTwoIters.unionNext
  refine CutsO.read fun p => CutsO.read fun q => ?_
  rcases cmpP_cmpOpt p.1 q.1 .gt .lt c with ⟨e, rfl⟩ | ⟨c', e, hc⟩
  · rw [e]; exact CutsO.unwind (by omega)
  · rw [e]
    refine CutsO.mono (n := 0) (c := c') ?_ (fun f h => by omega) (fun h => by omega)
    cases cmpOpt p.1 q.1 .gt .lt with
    | lt => exact CutsO.read fun n => CutsO.ret _
    | eq => exact CutsO.read fun n => CutsO.read fun n' => CutsO.ret _
    | gt => exact CutsO.read fun n => CutsO.ret _

theorem intersectionStitchU_cuts : ∀ (fuel : Nat) (x y : T) (i j : HSetIter) (c : Nat), CutsO fuel c (hintersectionStitchU fuel x y i j c) (hintersectionStitch fuel x y i j)
  | 0, _, _, _, _, _ => CutsO.panic _
  | fuel + 1, x, y, i, j, c => by
    unfold hintersectionStitchU hintersectionStitch
    have hm : compare x y = cmpOpt (some x) (some y) .lt .lt := rfl
    rw [hm]
    rcases cmpP_cmpOpt (some x) (some y) .lt .lt c with ⟨e, rfl⟩ | ⟨c', e, hc⟩
    · rw [e]; exact CutsO.unwind (by omega)
    · rw [e]
      refine CutsO.mono (n := fuel) (c := c') ?_ (fun f h => by omega) (fun h => by omega)
      cases cmpOpt (some x) (some y) .lt .lt with
      | lt =>
        refine CutsO.read fun n => ?_
        cases n.1 with
        | none => exact CutsO.ret _
        | some x' => exact intersectionStitchU_cuts fuel x' y n.2 j c'
      | gt =>
        refine CutsO.read fun n => ?_
        cases n.1 with
        | none => exact CutsO.ret _
        | some y' => exact intersectionStitchU_cuts fuel x y' i n.2 c'
      | eq => exact CutsO.ret _

theorem intersectionSearchU_cuts (o : HMap) : ∀ (fuel : Nat) (i : HSetIter) (c : Nat),
    CutsO (11 * (o.root.height + 1) * fuel) c (hintersectionSearchU (T := T) o fuel i c) (hintersectionSearch o fuel i)
  | 0, _, _ => CutsO.panic _
  | fuel + 1, i, c => by
    unfold hintersectionSearchU hintersectionSearch
    refine CutsO.read fun n => ?_
    cases n.1 with
    | none => exact CutsO.ret _
    | some x =>
      rw [Nat.mul_succ, Nat.add_comm]
      refine CutsO.look (setContainsU_cuts o x c) rfl fun b f => ?_
      cases b with
      | true => exact CutsO.ret _
      | false => exact intersectionSearchU_cuts o fuel n.2 f

theorem intersectionNextU_cuts : NextCuts (T := T) HIntersection.nextU HIntersection.next := by
  intro d s
  cases d with
  | search i o => exact ⟨11 * (o.root.height + 1) * (i.len + 1), fun c => intersectionSearchU_cuts o _ i c s⟩
  | stitch i j =>
    unfold CutAt HIntersection.nextU HIntersection.next
    simp only [bind_run]
    cases e : (i.next : HM T Unit _) s with
    | ub => exact ⟨0, fun c => rfl⟩
    | panic msg => exact ⟨0, fun c => rfl⟩
    | ok n =>
      obtain ⟨n, s1⟩ := n
      obtain rfl : s1 = s := Steps.reads (m := (i.next : HM T Unit _)) _ _ _ e
      dsimp only
      cases n.1 with
      | none => exact ⟨0, fun c => CutsO.ret (σ := HIntersection) (n := 0) _ s1⟩
      | some x =>
        simp only [bind_run]
        cases e' : (j.next : HM T Unit _) s1 with
        | ub => exact ⟨0, fun c => rfl⟩
        | panic msg => exact ⟨0, fun c => rfl⟩
        | ok k =>
          obtain ⟨k, s2⟩ := k
          obtain rfl : s2 = s1 := Steps.reads (m := (j.next : HM T Unit _)) _ _ _ e'
          dsimp only
          cases k.1 with
          | none => exact ⟨0, fun c => CutsO.ret (σ := HIntersection) (n := 0) _ s2⟩
          | some y => exact ⟨n.2.len + k.2.len + 1, fun c => intersectionStitchU_cuts _ x y n.2 k.2 c s2⟩

/-! ### predicates -/

/-- In the state `s`, `mU` is `m`, which only reads, cut short when the next comparison panics; `m` makes at most `n` comparisons. -/
def CutsIn (n c : Nat) (mU : HM T Unit (Option (α × Nat))) (m : HM T Unit α) (s : Heap T Unit) : Prop :=
  match mU s with
  | .ok (some (x, f), s') => s' = s ∧ m s = .ok (x, s) ∧ c ≤ f + n
  | .ok (none, s') => s' = s ∧ c < n
  | .panic e => m s = .panic e
  | .ub => m s = .ub

omit [Ord T] in
theorem Cuts.at {n c : Nat} {mU : HM T Unit (Option (α × Nat))} {m : HM T Unit α} (h : Cuts n c mU m) (s : Heap T Unit) : CutsIn n c mU m s := by
  have h := h s
  unfold CutsIn
  revert h
  generalize mU s = z
  intro h
  match z, h with
  | .ok (some _, _), h => exact h
  | .ok (none, _), h => exact h
  | .panic _, h => exact h
  | .ub, h => exact h

theorem isDisjointU_cuts (m o : HMap) (s : Heap T Unit) : ∃ n, ∀ c, CutsIn n c (m.isDisjointU (T := T) o c) (m.isDisjoint (T := T) o) s := by
  unfold CutsIn HMap.isDisjointU HMap.isDisjoint
  simp only [bind_run]
  cases e : (m.intersection o : HM T Unit _) s with
  | ub => exact ⟨0, fun c => rfl⟩
  | panic msg => exact ⟨0, fun c => rfl⟩
  | ok d =>
    obtain ⟨d, s1⟩ := d
    obtain rfl : s1 = s := Steps.reads (m := (m.intersection o : HM T Unit _)) _ _ _ e
    obtain ⟨n, hn⟩ := intersectionNextU_cuts (T := T) d s1
    refine ⟨n, fun c => ?_⟩
    have h := hn c
    unfold CutAt at h
    dsimp only
    match e2 : (d.nextU c : HM T Unit _) s1, h with
    | .ok (.done ((x, d'), f), s'), h =>
      obtain ⟨rfl, h1, h2⟩ := h
      rw [h1]
      exact ⟨rfl, rfl, h2⟩
    | .ok (.unwound _ _, s'), h => exact h
    | .panic e, h => dsimp only at h ⊢; rw [h]
    | .ub, h => dsimp only at h ⊢; rw [h]

omit [Ord T] in
theorem Cuts.step {n c : Nat} {mU : HM T Unit (Option (α × Nat))} {m : HM T Unit α} (h : Cuts n c mU m) : Cuts (n + 1) (c + 1) mU m := by
  intro s
  have := h s
  split at this
  · exact ⟨this.1, this.2.1, by omega⟩
  · exact ⟨this.1, by omega⟩
  · exact this
  · exact this

theorem subsetStitchU_cuts : ∀ (fuel : Nat) (a b : Option T) (x y : HSetIter) (c : Nat), Cuts fuel c (hsubsetStitchU fuel a b x y c) (hsubsetStitch fuel a b x y)
  | 0, _, _, _, _, _ => Cuts.panic _
  | fuel + 1, a, b, x, y, c => by
    unfold hsubsetStitchU hsubsetStitch
    cases a with
    | none => exact Cuts.ret _
    | some a1 =>
      cases b with
      | none => exact Cuts.ret _
      | some b1 =>
        cases c with
        | zero => exact fun s => ⟨rfl, by omega⟩
        | succ c =>
          dsimp only
          refine Cuts.step ?_
          cases compare b1 a1 with
          | lt => exact Cuts.read Steps.reads fun n => subsetStitchU_cuts fuel _ _ _ _ _
          | gt => exact Cuts.ret _
          | eq => exact Cuts.read Steps.reads fun n => Cuts.read Steps.reads fun n' => subsetStitchU_cuts fuel _ _ _ _ _

theorem subsetSearchU_cuts (o : HMap) : ∀ (fuel : Nat) (i : HSetIter) (c : Nat), Cuts (11 * (o.root.height + 1) * fuel) c (hsubsetSearchU (T := T) o fuel i c) (hsubsetSearch o fuel i)
  | 0, _, _ => Cuts.panic _
  | fuel + 1, i, c => by
    unfold hsubsetSearchU hsubsetSearch
    refine Cuts.read Steps.reads fun n => ?_
    cases n.1 with
    | none => exact Cuts.ret _
    | some x =>
      rw [Nat.mul_succ, Nat.add_comm]
      refine Cuts.seq (setContainsU_cuts o x c) rfl fun b f => ?_
      cases b with
      | true => exact subsetSearchU_cuts o fuel n.2 f
      | false => exact Cuts.ret _

theorem isSubsetU_cuts (m o : HMap) (s : Heap T Unit) : ∃ n, ∀ c, CutsIn n c (m.isSubsetU (T := T) o c) (m.isSubset (T := T) o) s := by
  unfold HMap.isSubsetU HMap.isSubset
  by_cases h1 : o.length < m.length
  · refine ⟨0, fun c => ?_⟩
    rw [if_pos h1, if_pos h1]
    exact (Cuts.ret _).at s
  · by_cases h2 : o.length / BTree.TIPPING < m.length
    · refine ⟨o.length + 1, fun c => ?_⟩
      rw [if_neg h1, if_neg h1, if_pos h2, if_pos h2]
      refine Cuts.at ?_ s
      exact Cuts.read Steps.reads fun x => Cuts.read Steps.reads fun y => Cuts.read Steps.reads fun a => Cuts.read Steps.reads fun b => subsetStitchU_cuts _ _ _ _ _ _
    · refine ⟨11 * (o.root.height + 1) * (m.length + 1), fun c => ?_⟩
      rw [if_neg h1, if_neg h1, if_neg h2, if_neg h2]
      refine Cuts.at ?_ s
      exact Cuts.read Steps.reads fun x => subsetSearchU_cuts o _ _ _

/-! ### the operators -/

omit [Ord T] in
/-- Unwinding drops what there is of the new set: then there is nothing of it left. -/
theorem collectEndU_drops {m : HMap} {M : Map T Unit} {al : Alloc} {R : HProp T Unit} {s : Heap T Unit} (hM : M.WF) (hg : s.Good) (hw : ((rep m M ∗ sched al) ∗ R) s.world) :
    ∃ s', hcollectEndU (none, m) s = .ok (none, s') ∧ s'.Good ∧ (sched al ∗ R) s'.world := by
  rw [sep_assoc] at hw
  obtain ⟨l, s1, h1, h2, h3⟩ := Triple.returns (mapDrop_spec (E := fun _ => False) (hM.len.trans (Nat.add_zero _))) hg hw
  refine ⟨s1, ?_, h2, (fact_sep.1 h3).2⟩
  show HM.bind m.drop _ s = _
  unfold HM.bind
  rw [h1]
  rfl

/-- `collect` is what it is when undisturbed, or was unwound, and then the set so far is a set like any other. -/
theorem hcollectSetU_judge {S U : Type} {hnextU : S → Nat → HM T Unit (BTree.Outcome S ((Option T × S) × Nat))} {hnext : S → HM T Unit (Option T × S)} (hc : NextCuts hnextU hnext)
    {next : U → Exec (Option T × U)} {Rel : S → U → Prop} {I : U → List T → Prop} {A : HProp T Unit} {Kn : HProp T Unit → Prop}
    (hy : BTree.Yields next I) (hk : ∀ {s : Heap T Unit} {F}, s.Good → (A ∗ F) s.world → Knows s Kn)
    (hstep : ∀ {s : Heap T Unit}, Knows s Kn → ∀ {x y}, Rel x y → Refines s (hnext x) (next y) (ItemAt Rel)) (fk : T → T) :
    ∀ (out : List T) (fuel : Nat) {x : S} {y : U} {m : HMap} {M : Map T Unit} {al : Alloc} {s : Heap T Unit} (c : Nat), M.WF → s.Good →
      ((rep m M ∗ sched al) ∗ A) s.world → Rel x y → I y out →
      Judge (fun z : Bool × Nat => z.1) (hcollectSetU hnextU fk fuel x m c s) (hcollectSet hnext fk fuel x m s)
        (fun m' s' => s'.Good ∧ ∃ (M' : Map T Unit) (al' : Alloc), M'.WF ∧ ((rep m' M' ∗ sched al') ∗ A) s'.world)
  | out, 0, _, _, _, _, _, _, _, _, _, _, _, _ => rfl
  | out, fuel + 1, x, y, m, M, al, s, c, hM, hg, hw, hxy, hI => by
    have hA : (A ∗ (rep m M ∗ sched al)) s.world := by rw [sep_comm]; exact hw
    obtain ⟨y', h1, h2⟩ := hy y out hI
    obtain ⟨⟨o, x'⟩, h3, h4, h5⟩ := hstep (hk hg hA) hxy _ h1
    dsimp only at h4 h5
    subst h4
    obtain ⟨n, hn⟩ := hc x s
    have hn := hn c
    unfold CutAt at hn
    unfold hcollectSetU hcollectSet
    rw [bind_run, bind_run, h3]
    match e : hnextU x c s, hn with
    | .panic msg, hn => rw [h3] at hn; cases hn
    | .ub, hn => rw [h3] at hn; cases hn
    | .ok (.unwound _ _, s'), hn =>
      obtain ⟨rfl, _⟩ := hn
      exact ⟨hg, M, al, hM, hw⟩
    | .ok (.done ((o, x2), f), s'), hn =>
      obtain ⟨rfl, hn, _⟩ := hn
      rw [h3] at hn
      simp only [Exec.ok.injEq, Prod.mk.injEq, and_true] at hn
      obtain ⟨rfl, rfl⟩ := hn
      cases out with
      | nil => rfl
      | cons t out =>
        dsimp only [List.head?_cons]
        rw [bind_run, bind_run]
        obtain ⟨res, M1, al1, g1, g2, _⟩ := BTree.Map.tryInsert_wf hM (fk t) () al
        obtain ⟨⟨r, m1⟩, s1, g3, g4, g5⟩ := Triple.returns (tryInsert_rep (E := fun _ => False) g1) hg hw
        have hj := tryInsertU_cut m (fk t) () f s'
        rw [g3] at hj ⊢
        match e2 : m.tryInsertU (fk t) () f s', hj with
        | .panic msg, hj => cases hj
        | .ub, hj => cases hj
        | .ok ((none, m2), s2), hj =>
          obtain ⟨_, ⟨rfl, rfl⟩ | hj⟩ := hj
          · exact ⟨hg, M, al, hM, hw⟩
          · have hw2 := hw
            unfold rep at hw2
            rw [hex_sep, hex_sep] at hw2
            obtain ⟨ta, hw2⟩ := hw2
            obtain ⟨o', s3, k1, k2, k3⟩ := Triple.returns (ensureRoot_spec (E := fun _ => False)) hg hw2
            rw [hj] at k1
            simp only [Exec.ok.injEq, Prod.mk.injEq] at k1
            obtain ⟨rfl, rfl⟩ := k1
            obtain ⟨r', m', a', k4, k5, _, _, _, k6, _⟩ := Map.ensureRoot_spec hM al
            rw [k4] at k3
            dsimp only at k3
            cases r' with
            | error e =>
              exfalso
              dsimp only at k3
              have k3 : (fact (some m2 = none) ∗ sched a' ∗ own m m' ta ∗ A) s2.world := by
                have e1 : (fact (some m2 = none) ∗ sched a' ∗ own m m' ta ∗ A) = ((sched a' ∗ fact (some m2 = none) ∗ own m m' ta) ∗ A) := by ac_rfl
                rw [e1]; exact k3
              have := (fact_sep.1 k3).1
              cases this
            | ok u =>
              dsimp only at k3
              rw [sep_comm (sched a'), hex_sep, hex_sep] at k3
              obtain ⟨⟨mm, tb⟩, k3⟩ := k3
              dsimp only at k3
              rw [sep_assoc, sep_assoc] at k3
              obtain ⟨⟨k7, _⟩, k3⟩ := fact_sep.1 k3
              simp only [Option.some.injEq] at k7
              subst k7
              refine ⟨k2, m', a', k5, ?_⟩
              unfold rep
              rw [hex_sep, hex_sep]
              exact ⟨tb, by show ((own m2 m' tb ∗ sched a') ∗ A) s2.world; rw [sep_assoc]; exact k3⟩
        | .ok ((some (r', f'), m2), s2), hj =>
          have hj : (Exec.ok ((r, m1), s1) : Exec _) = .ok ((r', m2), s2) := hj
          simp only [Exec.ok.injEq, Prod.mk.injEq] at hj
          obtain ⟨⟨rfl, rfl⟩, rfl⟩ := hj
          dsimp only
          cases res with
          | error e =>
            rw [insertPost_error, sep_comm (sched al1), sep_assoc, sep_assoc] at g5
            obtain ⟨g6, _⟩ := fact_sep.1 g5
            dsimp only at g6
            subst g6
            rfl
          | ok old =>
            rw [insertPost_ok, sep_comm (sched al1), sep_assoc, sep_assoc] at g5
            obtain ⟨g7, g6⟩ := fact_sep.1 g5
            dsimp only at g7 g6
            rw [← sep_assoc (rep m1 M1)] at g6
            subst g7
            exact hcollectSetU_judge hc hy hk hstep fk out fuel f' g2.1 g4 g6 h5 h2

/-- When enough comparisons return, `collect` is not unwound. -/
theorem hcollectSetU_enough {S : Type} {hnextU : S → Nat → HM T Unit (BTree.Outcome S ((Option T × S) × Nat))} {hnext : S → HM T Unit (Option T × S)} (hc : NextCuts hnextU hnext)
    (fk : T → T) : ∀ (fuel : Nat) (x : S) (m : HMap) (s : Heap T Unit), ∃ N, ∀ c, N ≤ c → ∀ m' s', hcollectSetU hnextU fk fuel x m c s ≠ .ok ((none, m'), s')
  | 0, _, _, _ => ⟨0, fun c _ m' s' h => by cases h⟩
  | fuel + 1, x, m, s => by
    obtain ⟨n, hn⟩ := hc x s
    have hN : ∃ N, ∀ t x' r m1 s1, hnext x s = .ok ((some t, x'), s) → m.tryInsert (fk t) () s = .ok ((some r, m1), s1) →
        ∀ c, N ≤ c → ∀ m' s', hcollectSetU hnextU fk fuel x' m1 c s1 ≠ .ok ((none, m'), s') := by
      by_cases h : ∃ t x' r m1 s1, hnext x s = .ok ((some t, x'), s) ∧ m.tryInsert (fk t) () s = .ok ((some r, m1), s1)
      · obtain ⟨t, x', r, m1, s1, h1, h2⟩ := h
        obtain ⟨N, hN⟩ := hcollectSetU_enough hc fk fuel x' m1 s1
        refine ⟨N, fun t' x2 r' m1' s1' h1' h2' => ?_⟩
        rw [h1] at h1'
        cases h1'
        rw [h2] at h2'
        cases h2'
        exact hN
      · exact ⟨0, fun t x' r m1 s1 h1 h2 => absurd ⟨t, x', r, m1, s1, h1, h2⟩ h⟩
    obtain ⟨N, hN⟩ := hN
    refine ⟨n + 11 * (m.root.height + 1) + N, fun c hle m' s' h => ?_⟩
    have hn := hn c
    unfold CutAt at hn
    unfold hcollectSetU at h
    rw [bind_run] at h
    match e : hnextU x c s, hn with
    | .panic msg, hn => rw [e] at h; cases h
    | .ub, hn => rw [e] at h; cases h
    | .ok (.unwound _ _, s1), hn => have := hn.2; omega
    | .ok (.done ((none, x2), f), s1), hn => rw [e] at h; cases h
    | .ok (.done ((some t, x2), f), s1), hn =>
      rw [e] at h
      obtain ⟨rfl, hn, hf⟩ := hn
      dsimp only at h
      rw [bind_run] at h
      have hj := tryInsertU_cut m (fk t) () f s1
      match e2 : m.tryInsertU (fk t) () f s1, hj with
      | .panic msg, hj => rw [e2] at h; cases h
      | .ub, hj => rw [e2] at h; cases h
      | .ok ((none, m2), s2), hj => have := hj.1; omega
      | .ok ((some (none, f'), m2), s2), hj => rw [e2] at h; cases h
      | .ok ((some (some r, f'), m2), s2), hj =>
        rw [e2] at h
        have := tryInsertU_left e2
        exact hN t x2 r m2 s2 hn hj f' (by omega) m' s' h

/-- What an operator came to: what it comes to when undisturbed, or it was unwound, and then the memory is as it was. -/
def OperatorCut (r : Exec (Option (Option HMap) × Heap T Unit)) (x : Exec (Option HMap × Heap T Unit)) (s : Heap T Unit) : Prop :=
  match r with
  | .ok (some y, s') => x = .ok (y, s')
  | .ok (none, s') => s'.Good ∧ s'.cells = s.cells
  | .panic e => x = .panic e
  | .ub => x = .ub

theorem operatorU_go {S U : Type} {hnextU : S → Nat → HM T Unit (BTree.Outcome S ((Option T × S) × Nat))} {hnext : S → HM T Unit (Option T × S)} (hc : NextCuts hnextU hnext)
    {next : U → Exec (Option T × U)} {Rel : S → U → Prop} {I : U → List T → Prop} {A : HProp T Unit} {Kn : HProp T Unit → Prop}
    (hy : BTree.Yields next I) (hk : ∀ {s : Heap T Unit} {F}, s.Good → (A ∗ F) s.world → Knows s Kn)
    (hstep : ∀ {s : Heap T Unit}, Knows s Kn → ∀ {x y}, Rel x y → Refines s (hnext x) (next y) (ItemAt Rel)) (fk : T → T) {al : Alloc} {R : HProp T Unit} {s : Heap T Unit} (hg : s.Good)
    (hw : (A ∗ sched al ∗ R) s.world) {open_ : HM T Unit S} {x : Exec U} {out : List T} {fuel : Nat} (ho : Refines s open_ x Rel) (hx : ∃ d, x = .ok d ∧ I d out) (c : Nat) :
    OperatorCut ((do let d ← open_; let x ← hcollectSetU hnextU fk fuel d HMap.new c; hcollectEndU x : HM T Unit _) s)
      ((do let d ← open_; let x ← hcollectSet hnext fk fuel d HMap.new; hcollectEnd x : HM T Unit _) s) s := by
  obtain ⟨d, h2, h3⟩ := hx
  obtain ⟨e, h4, h5⟩ := ho d h2
  have hAR : (A ∗ R) ⟨s.cells, none⟩ := by
    refine sched_off (al := al) ?_
    have : ((A ∗ R) ∗ sched al) = (A ∗ sched al ∗ R) := by ac_rfl
    rw [this]; exact hw
  let A1 : HProp T Unit := fun w => w = ⟨s.cells, none⟩
  have hk1 : ∀ {s' : Heap T Unit} {F}, s'.Good → (A1 ∗ F) s'.world → Knows s' Kn := by
    rintro s' F hg' ⟨w1, w2, hd, hu, h1, h2⟩
    refine hk (F := R ∗ F) hg' ?_
    rw [← sep_assoc]
    exact ⟨w1, w2, hd, hu, (show w1 = _ from h1) ▸ hAR, h2⟩
  have hw1 : ((rep HMap.new (Map.new : Map T Unit) ∗ sched s.alloc) ∗ A1) s.world := by
    rw [rep_new, emp_sep, sep_comm]
    obtain ⟨cells, nxt, al', pl⟩ := s
    exact world_sched (P := A1) rfl nxt al' pl
  have hj := hcollectSetU_judge hc hy hk1 hstep fk out fuel c (BTree.Map.WF_new) hg hw1 h5 h3
  rw [bind_run, bind_run, h4]
  dsimp only
  rw [bind_run, bind_run]
  unfold Judge at hj
  match e1 : hcollectSetU hnextU fk fuel e HMap.new c s, hj with
  | .panic msg, hj => rw [hj]; rfl
  | .ub, hj => rw [hj]; rfl
  | .ok ((some (b, f), m'), s'), hj =>
    rw [hj]
    dsimp only
    show OperatorCut ((hcollectEnd (b, m') >>= fun r => pure (some r)) s') _ _
    rw [bind_run]
    cases hcollectEnd (b, m') s' <;> rfl
  | .ok ((none, m'), s'), hj =>
    obtain ⟨g1, M', al', g2, g3⟩ := hj
    obtain ⟨s2, g4, g5, g6⟩ := collectEndU_drops g2 g1 g3
    dsimp only
    rw [g4]
    refine ⟨g5, ?_⟩
    rw [sep_comm] at g6
    exact congrArg World.cells (show _ = _ from sched_off (P := A1) g6)

/-- An operator is what it is when undisturbed, or it was unwound, and then the memory is as it was. -/
theorem operatorU_cut {A R : HProp T Unit} {Kn : HProp T Unit → Prop} {al : Alloc} {s : Heap T Unit} (hk : ∀ {s : Heap T Unit} {F}, s.Good → (A ∗ F) s.world → Knows s Kn)
    (hg : s.Good) (hw : (A ∗ sched al ∗ R) s.world) {b o : BSet T} {m n : HMap} (h : SetAt Kn b m) (h' : SetAt Kn o n) (fk : T → T) (k : AlgKind) (c : Nat) :
    OperatorCut (m.operatorU n fk k c s) (m.operator n fk k s) s := by
  have hK := hk hg hw
  obtain ⟨p⟩ := BTree.algPlan h.1 h'.1
  cases k with
  | difference => exact operatorU_go differenceNextU_cuts (BTree.Difference.yields o p.c p.has _) hk (fun hg => differenceNext_ref hg) fk hg hw (difference_ref hK h h') p.diff c
  | symmetricDifference =>
    obtain ⟨t, t1, t2, t3⟩ := p.two
    exact operatorU_go symDiffNextU_cuts BTree.TwoIters.symYields hk (fun hg => symDiffNext_ref hg) fk hg hw (twoIters_ref hK h h') ⟨t, t1, t2⟩ c
  | intersection => exact operatorU_go intersectionNextU_cuts (BTree.Intersection.yields p.other p.ci p.hasi) hk (fun hg => intersectionNext_ref hg) fk hg hw (intersection_ref hK h h') p.inter c
  | union =>
    obtain ⟨t, t1, t2, t3⟩ := p.two
    exact operatorU_go unionNextU_cuts BTree.TwoIters.unionYields hk (fun hg => unionNext_ref hg) fk hg hw (twoIters_ref hK h h') ⟨t, t1, t3⟩ c

theorem operatorU_enough_go {S : Type} {hnextU : S → Nat → HM T Unit (BTree.Outcome S ((Option T × S) × Nat))} {hnext : S → HM T Unit (Option T × S)} (hc : NextCuts hnextU hnext)
    (fk : T → T) (fuel : Nat) (open_ : HM T Unit S) (s : Heap T Unit) :
    ∃ N, ∀ c, N ≤ c → ∀ s', (do let d ← open_; let x ← hcollectSetU hnextU fk fuel d HMap.new c; hcollectEndU x : HM T Unit _) s ≠ .ok (none, s') := by
  cases e : open_ s with
  | ub => exact ⟨0, fun c _ s' h => by rw [bind_run, e] at h; cases h⟩
  | panic msg => exact ⟨0, fun c _ s' h => by rw [bind_run, e] at h; cases h⟩
  | ok d =>
    obtain ⟨d, s1⟩ := d
    obtain ⟨N, hN⟩ := hcollectSetU_enough hc fk fuel d HMap.new s1
    refine ⟨N, fun c hle s' h => ?_⟩
    rw [bind_run, e] at h
    dsimp only at h
    obtain ⟨⟨x, m'⟩, s2, h1, h⟩ := run_bind.1 h
    cases x with
    | none => exact hN c hle m' s2 h1
    | some x =>
      obtain ⟨r, s3, _, h⟩ := run_bind.1 h
      obtain ⟨h, _⟩ := run_pure.1 h
      cases h

/-- When enough comparisons return, an operator is not unwound. -/
theorem operatorU_enough (m n : HMap) (fk : T → T) (k : AlgKind) (s : Heap T Unit) : ∃ N, ∀ c, N ≤ c → ∀ s', m.operatorU n fk k c s ≠ .ok (none, s') := by
  cases k with
  | difference => exact operatorU_enough_go differenceNextU_cuts fk _ _ s
  | symmetricDifference => exact operatorU_enough_go symDiffNextU_cuts fk _ _ s
  | intersection => exact operatorU_enough_go intersectionNextU_cuts fk _ _ s
  | union => exact operatorU_enough_go unionNextU_cuts fk _ _ s

end

end Verif.Heap
