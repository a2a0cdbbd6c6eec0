import Verif.Heap.Compare
import Verif.Heap.SetAlg
import Verif.Heap.Proofs.StepsAll
/-
Threads that only read.
-/
namespace Verif.Heap
open Verif
open Verif.BTree (TIPPING cmpOpt)
open Verif.Spec (End AlgKind AlgAct AlgSeen Shown SetAsk SetTold Orders Ask Told)

variable {K V Q S T α : Type} {ro : Bool}

/-! ### comparing, hashing, printing and indexing only read -/

instance hzipAll_steps {eq : K × V → K × V → Bool} {h h' : Nat} : ∀ {n : Nat} {i j : HIter}, Steps ro (hzipAll eq h h' n i j)
  | 0, i, j => by unfold hzipAll; steps
  | n + 1, i, j => by
    haveI := fun i j => hzipAll_steps (eq := eq) (h := h) (h' := h') (n := n) (i := i) (j := j)
    unfold hzipAll; steps

instance hlexPartial_steps {cmp : K × V → K × V → Option Ordering} {h h' : Nat} : ∀ {n : Nat} {i j : HIter}, Steps ro (hlexPartial cmp h h' n i j)
  | 0, i, j => by unfold hlexPartial; steps
  | n + 1, i, j => by
    haveI := fun i j => hlexPartial_steps (cmp := cmp) (h := h) (h' := h') (n := n) (i := i) (j := j)
    unfold hlexPartial; steps

instance hlexCmp_steps {cmp : K × V → K × V → Ordering} {h h' : Nat} : ∀ {n : Nat} {i j : HIter}, Steps ro (hlexCmp cmp h h' n i j)
  | 0, i, j => by unfold hlexCmp; steps
  | n + 1, i, j => by
    haveI := fun i j => hlexCmp_steps (cmp := cmp) (h := h) (h' := h') (n := n) (i := i) (j := j)
    unfold hlexCmp; steps

instance hfeed_steps {feed : S → K × V → S} {h : Nat} : ∀ {n : Nat} {i : HIter} {st : S}, Steps ro (hfeed feed h n i st)
  | 0, i, st => by unfold hfeed; steps
  | n + 1, i, st => by
    haveI := fun i st => hfeed_steps (feed := feed) (h := h) (n := n) (i := i) (st := st)
    unfold hfeed; steps

instance {m o : HMap} {eqK : K → K → Bool} {eqV : V → V → Bool} : Steps ro (m.eq o eqK eqV) := by unfold HMap.eq; steps
instance {m o : HMap} {cmpK : K → K → Option Ordering} {cmpV : V → V → Option Ordering} : Steps ro (m.partialCmp o cmpK cmpV) := by unfold HMap.partialCmp; steps
instance {m o : HMap} {cmpK : K → K → Ordering} {cmpV : V → V → Ordering} : Steps ro (m.cmp o cmpK cmpV) := by unfold HMap.cmp; steps
instance {m : HMap} {feed : S → K × V → S} {st : S} : Steps ro (m.hash feed st) := by unfold HMap.hash; steps
instance {m : HMap} : Steps ro (m.debug : HM K V (List (K × V))) := by unfold HMap.debug; steps
instance [Ord Q] {m : HMap} {bor : K → Q} {q : Q} : Steps ro (m.index bor q : HM K V V) := by unfold HMap.index; steps

instance [Ord Q] {f : Orders K V S} {bor : K → Q} {p : List HMap} {a : Ask Q} : Steps ro (Ask.hrun f bor p a) := by
  cases a <;> simp only [Ask.hrun] <;> steps

instance asks_steps' [Ord Q] {f : Orders K V S} {bor : K → Q} {p : List HMap} : ∀ {as : List (Ask Q)}, Steps ro (Ask.hruns f bor p as)
  | [] => by unfold Ask.hruns; steps
  | a :: as => by
    haveI := asks_steps' (f := f) (bor := bor) (p := p) (as := as)
    unfold Ask.hruns; steps

/-! ### so does the set algebra -/

instance {m : HMap} : Steps ro (m.setIter : HM T Unit HSetIter) := by unfold HMap.setIter; steps
instance {i : HSetIter} : Steps ro (i.next : HM T Unit (Option T × HSetIter)) := by unfold HSetIter.next; steps
instance [Ord T] {m : HMap} {x : T} : Steps ro (m.setContains x) := by unfold HMap.setContains; steps
instance {p : HPeekable T} : Steps ro p.next := by unfold HPeekable.next; steps
instance {p : HPeekable T} : Steps ro p.peek := by unfold HPeekable.peek; steps
instance {s o : HMap} : Steps ro (s.difference o : HM T Unit (HDifference T)) := by unfold HMap.difference; steps
instance hdifferenceStitch_steps [Ord T] : ∀ {n : Nat} {x : T} {i : HSetIter} {j : HPeekable T}, Steps ro (hdifferenceStitch n x i j)
  | 0, x, i, j => by unfold hdifferenceStitch; steps
  | n + 1, x, i, j => by
    haveI := fun x i j => hdifferenceStitch_steps (n := n) (x := x) (i := i) (j := j)
    unfold hdifferenceStitch; steps

instance hdifferenceSearch_steps [Ord T] {o : HMap} : ∀ {n : Nat} {i : HSetIter}, Steps ro (hdifferenceSearch o n i : HM T Unit _)
  | 0, i => by unfold hdifferenceSearch; steps
  | n + 1, i => by
    haveI := fun i => hdifferenceSearch_steps (o := o) (n := n) (i := i)
    unfold hdifferenceSearch; steps

instance [Ord T] {d : HDifference T} : Steps ro d.next := by unfold HDifference.next; steps
instance {s o : HMap} : Steps ro (s.twoIters o : HM T Unit (HTwoIters T)) := by unfold HMap.twoIters; steps
instance hsymDiffLoop_steps [Ord T] : ∀ {n : Nat} {t : HTwoIters T}, Steps ro (hsymDiffLoop n t)
  | 0, t => by unfold hsymDiffLoop; steps
  | n + 1, t => by
    haveI := fun t => hsymDiffLoop_steps (n := n) (t := t)
    unfold hsymDiffLoop; steps

instance [Ord T] {t : HTwoIters T} : Steps ro t.symDiffNext := by unfold HTwoIters.symDiffNext; steps
instance [Ord T] {t : HTwoIters T} : Steps ro t.unionNext := by unfold HTwoIters.unionNext; steps
instance {s o : HMap} : Steps ro (s.intersectionOf o : HM T Unit HIntersection) := by unfold HMap.intersectionOf; steps
instance {s o : HMap} : Steps ro (s.intersection o : HM T Unit HIntersection) := by unfold HMap.intersection; steps
instance hintersectionStitch_steps [Ord T] : ∀ {n : Nat} {x y : T} {i j : HSetIter}, Steps ro (hintersectionStitch n x y i j)
  | 0, x, y, i, j => by unfold hintersectionStitch; steps
  | n + 1, x, y, i, j => by
    haveI := fun x y i j => hintersectionStitch_steps (n := n) (x := x) (y := y) (i := i) (j := j)
    unfold hintersectionStitch; steps

instance hintersectionSearch_steps [Ord T] {o : HMap} : ∀ {n : Nat} {i : HSetIter}, Steps ro (hintersectionSearch o n i : HM T Unit _)
  | 0, i => by unfold hintersectionSearch; steps
  | n + 1, i => by
    haveI := fun i => hintersectionSearch_steps (o := o) (n := n) (i := i)
    unfold hintersectionSearch; steps

instance [Ord T] {d : HIntersection} : Steps ro (d.next : HM T Unit _) := by unfold HIntersection.next; steps
instance [Ord T] {s o : HMap} : Steps ro (s.isDisjoint o : HM T Unit Bool) := by unfold HMap.isDisjoint; steps
instance hsubsetStitch_steps [Ord T] : ∀ {n : Nat} {a b : Option T} {x y : HSetIter}, Steps ro (hsubsetStitch n a b x y)
  | 0, a, b, x, y => by unfold hsubsetStitch; steps
  | n + 1, a, b, x, y => by
    haveI := fun a b x y => hsubsetStitch_steps (n := n) (a := a) (b := b) (x := x) (y := y)
    unfold hsubsetStitch; steps

instance hsubsetSearch_steps [Ord T] {o : HMap} : ∀ {n : Nat} {i : HSetIter}, Steps ro (hsubsetSearch o n i : HM T Unit Bool)
  | 0, i => by unfold hsubsetSearch; steps
  | n + 1, i => by
    haveI := fun i => hsubsetSearch_steps (o := o) (n := n) (i := i)
    unfold hsubsetSearch; steps

instance [Ord T] {s o : HMap} : Steps ro (s.isSubset o : HM T Unit Bool) := by unfold HMap.isSubset; steps
instance [Ord T] {s o : HMap} : Steps ro (s.isSuperset o : HM T Unit Bool) := by unfold HMap.isSuperset; steps
instance setDrain_steps : ∀ {n : Nat} {i : HSetIter}, Steps ro (i.drain n : HM T Unit (List T))
  | 0, i => by unfold HSetIter.drain; steps
  | n + 1, i => by
    haveI := fun i => setDrain_steps (n := n) (i := i)
    unfold HSetIter.drain; steps

instance {i : HSetIter} : Steps ro (i.debug : HM T Unit (List T)) := by unfold HSetIter.debug; steps
instance {p : HPeekable T} : Steps ro p.debug := by unfold HPeekable.debug; steps
instance {d : HDifference T} : Steps ro d.debug := by unfold HDifference.debug; steps
instance {d : HIntersection} : Steps ro (d.debug : HM T Unit (List (Shown T))) := by unfold HIntersection.debug; steps
instance {t : HTwoIters T} : Steps ro t.debug := by unfold HTwoIters.debug; steps
instance {m : HMap} : Steps ro (m.setDebug : HM T Unit (List T)) := by unfold HMap.setDebug; steps
instance {s o : HMap} {k : AlgKind} : Steps ro (s.algView o k : HM T Unit (HAlgView T)) := by unfold HMap.algView; steps
instance [Ord T] {v : HAlgView T} : Steps ro v.next := by unfold HAlgView.next; steps
instance {v : HAlgView T} : Steps ro v.debug := by unfold HAlgView.debug; steps

theorem onHAlg_steps {p : List (HAlgView T)} {i : Nat} {f : HAlgView T → HM T Unit (AlgSeen T × List (HAlgView T))} (h : ∀ v, Steps ro (f v)) : Steps ro (onHAlg p i f) := by
  unfold onHAlg; steps

instance [Ord T] {s o : HMap} {p : List (HAlgView T)} {a : AlgAct} : Steps ro (AlgAct.hrun s o p a) := by
  cases a <;> simp only [AlgAct.hrun] <;> first | (apply onHAlg_steps; intro v; steps; done) | steps

instance algRuns_steps [Ord T] {s o : HMap} : ∀ {as : List AlgAct} {p : List (HAlgView T)}, Steps ro (AlgAct.hruns s o as p)
  | [], p => by unfold AlgAct.hruns; steps
  | a :: as, p => by
    haveI := fun p => algRuns_steps (s := s) (o := o) (as := as) (p := p)
    unfold AlgAct.hruns; steps

instance [Ord T] {p : List HMap} {a : SetAsk} : Steps ro (SetAsk.hrun p a : HM T Unit (SetTold T)) := by
  cases a <;> simp only [SetAsk.hrun] <;> steps

instance setAsks_steps [Ord T] {p : List HMap} : ∀ {as : List SetAsk}, Steps ro (SetAsk.hruns p as : HM T Unit (List (SetTold T)))
  | [] => by unfold SetAsk.hruns; steps
  | a :: as => by
    haveI := setAsks_steps (p := p) (as := as)
    unfold SetAsk.hruns; steps

/-! ### threads that only read -/

/-- How many accesses it still makes, if nothing changes. -/
def Prog.left (s : Heap K V) : Prog K V α → Nat
  | .read a k =>
    match s.cells a with
    | some n => (k n).left s + 1
    | none => 0
  | _ => 0

theorem Prog.OnlyReads.step {t : Prog K V α} {s : Heap K V} (h : t.OnlyReads) (hu : t.whole s ≠ .ub) :
    ∃ t', t.step s = some (t', s) ∧ t'.OnlyReads ∧ t'.whole s = t.whole s ∧ t'.left s = t.left s - 1 := by
  cases t with
  | done a => exact ⟨.done a, rfl, trivial, rfl, rfl⟩
  | panic msg => exact ⟨.panic msg, rfl, trivial, rfl, rfl⟩
  | ub => exact absurd rfl hu
  | read a k =>
    have hw : (Prog.read a k).whole s = if a = SHARED then .ub else match s.cells a with
      | some n => (k n).whole s
      | none => .ub := getNode_bind ..
    rw [hw] at hu ⊢
    by_cases ha : a = SHARED
    · rw [if_pos ha] at hu; exact absurd rfl hu
    · rw [if_neg ha] at hu ⊢
      simp only [Prog.step, if_neg ha, Prog.left]
      cases hc : s.cells a with
      | none => rw [hc] at hu; exact absurd rfl hu
      | some n => exact ⟨k n, rfl, h n, rfl, rfl⟩
  | write a n k => exact h.elim
  | alloc lay k => exact h.elim
  | free a lay k => exact h.elim

theorem Prog.OnlyReads.ended {t : Prog K V α} {s : Heap K V} (h : t.OnlyReads) (hu : t.whole s ≠ .ub) (hl : t.left s = 0) : t.Ended := by
  cases t with
  | done a => trivial
  | panic msg => trivial
  | ub => exact absurd rfl hu
  | read a k =>
    have hw : (Prog.read a k).whole s = if a = SHARED then .ub else match s.cells a with
      | some n => (k n).whole s
      | none => .ub := getNode_bind ..
    rw [hw] at hu
    by_cases ha : a = SHARED
    · rw [if_pos ha] at hu; exact absurd rfl hu
    · rw [if_neg ha] at hu
      cases hc : s.cells a with
      | none => rw [hc] at hu; exact absurd rfl hu
      | some n => simp only [Prog.left, hc] at hl; omega
  | write a n k => exact h.elim
  | alloc lay k => exact h.elim
  | free a lay k => exact h.elim

/-- Threads that only read take turns: the memory stays, every thread goes on as if it were alone. -/
theorem readers_run {s : Heap K V} : ∀ (js : List Nat) {ts : List (Prog K V α)}, (∀ t ∈ ts, t.OnlyReads ∧ t.whole s ≠ .ub) →
    ∃ ts', interleave js ts s = some (ts', s) ∧ ts'.length = ts.length ∧
      ∀ j t, ts[j]? = some t → ∃ t', ts'[j]? = some t' ∧ t'.OnlyReads ∧ t'.whole s = t.whole s ∧ t'.left s = t.left s - js.count j
  | [], ts, h => ⟨ts, rfl, rfl, fun j t ht => ⟨t, ht, (h t (List.mem_of_getElem? ht)).1, rfl, by simp⟩⟩
  | i :: js, ts, h => by
    cases hi : ts[i]? with
    | none =>
      obtain ⟨ts', h1, h2, h3⟩ := readers_run js h
      refine ⟨ts', by simp only [interleave, stepAt, hi, h1], h2, fun j t ht => ?_⟩
      obtain ⟨t', g1, g2, g3, g4⟩ := h3 j t ht
      have : i ≠ j := by rintro rfl; rw [hi] at ht; cases ht
      exact ⟨t', g1, g2, g3, by rw [g4, List.count_cons_of_ne this]⟩
    | some u =>
      obtain ⟨hu1, hu2⟩ := h u (List.mem_of_getElem? hi)
      obtain ⟨u', e1, e2, e3, e4⟩ := hu1.step hu2
      have hlt : i < ts.length := (List.getElem?_eq_some_iff.1 hi).1
      have h' : ∀ t ∈ ts.set i u', t.OnlyReads ∧ t.whole s ≠ .ub := by
        intro t ht
        rcases List.mem_or_eq_of_mem_set ht with ht | rfl
        · exact h t ht
        · exact ⟨e2, by rw [e3]; exact hu2⟩
      obtain ⟨ts', h1, h2, h3⟩ := readers_run js h'
      refine ⟨ts', by simp only [interleave, stepAt, hi, e1, h1], by rw [h2, List.length_set], fun j t ht => ?_⟩
      by_cases hij : i = j
      · subst hij
        rw [hi] at ht
        obtain rfl := Option.some.inj ht
        obtain ⟨t', g1, g2, g3, g4⟩ := h3 i u' (List.getElem?_set_self hlt)
        exact ⟨t', g1, g2, by rw [g3, e3], by rw [g4, e4, List.count_cons_self]; omega⟩
      · obtain ⟨t', g1, g2, g3, g4⟩ := h3 j t (by rw [List.getElem?_set_ne hij]; exact ht)
        exact ⟨t', g1, g2, g3, by rw [g4, List.count_cons_of_ne hij]⟩

end Verif.Heap
