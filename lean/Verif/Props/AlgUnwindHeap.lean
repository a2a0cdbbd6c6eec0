import Verif.Props.AlgUnwind
import Verif.Props.EverySet
import Verif.Heap.Proofs.AlgUnwindOps
/-
C90: set-algebra iterators, predicates and operators in memory when a comparison of elements panics.
-/
namespace Verif.Props
open Verif Verif.Heap Verif.Spec
open Verif.BTree (Map BSet)

variable {T Q S : Type} {pl : Nat → Heap.Addr}

theorem lengths_of {p : List HMap} {ms : List (Map T Unit)} {R : HProp T Unit} {w : World T Unit} (hw : (pool p ms ∗ R) w) : p.length = ms.length := by
  have := Ent.frame pool_length _ _ hw
  rw [sep_assoc] at this
  exact (fact_sep.1 this).1

section
variable [Ord T] [Ord Q] {f : Orders T Unit S} {bor : T → Q}

/-- **C90** After any program that uses the set API in any way, take any two of its sets (or one twice), call `next` of a set-algebra iterator over them any number of times, let any
comparison panic in any of the calls, and catch the panics.  Nothing is undefined and the memory is left as it is.  The calls that return hand out elements of the operation's
result, each at most once, in order, followed by `None` for ever; at most one element is missing in the end for every panic for difference and intersection, and none for union and
symmetric difference.  Calls made from then on that are left undisturbed hand out the remaining elements, and a call in which enough comparisons return does return. -/
theorem C90_iterators [Std.TransOrd T] [Std.TransOrd Q] (hbo : BorrowOK bor) {acts : List (SetAct T Q)} {al : Alloc} {xs : List (SetAns T S)} {p : List HMap} {s : Heap T Unit}
    (hr : SetAct.hprog f bor acts [] (Heap.start al pl) = .ok ((xs, true, p), s)) :
    ∃ ls, SetAct.Rights f bor True (¬ al.Good) acts [] xs ls ∧ ∀ (i j : Nat) m n, p[i]? = some m → p[j]? = some n → ∃ l r, ls[i]? = some l ∧ ls[j]? = some r ∧
      ∀ k : AlgKind, ∃ v out, m.algView n k s = .ok (v, s) ∧ k.Out (l.map Prod.fst) (r.map Prod.fst) out ∧
        ∀ cmps : List Nat, ∃ answered v' items a rest, v.callsU cmps s = .ok ((answered, v'), s) ∧ answered.length = cmps.length ∧
          answered.filterMap id = items.map some ++ List.replicate a none ∧ (a ≠ 0 → rest = []) ∧ (items ++ rest).Sublist out ∧
          out.length ≤ (items ++ rest).length + (if k = .difference ∨ k = .intersection then answered.countP Option.isNone else 0) ∧
          (∀ b, v'.rest b s = .ok (answers b rest, s)) ∧
          (∃ N, ∀ c, N ≤ c → ∃ v'' c', v'.nextU c s = .ok (.done ((rest.head?, v''), c'), s)) := by
  have := setActs_ref (f := f) (bor := bor) (lawful := True) (refuses := ¬ al.Good) (fun _ => ⟨inferInstance, inferInstance, hbo⟩) acts (hs := []) (p := []) (by simp) (fun _ => by simp)
    (al := al) (fun _ h => h) (start_good (pl := pl) al) (by simpa only [sep_emp] using start_world (pl := pl) al)
  rw [hr] at this
  obtain ⟨hg, p', al', h1, hp, hv, _, hw⟩ := this
  refine ⟨_, h1, fun i j m n hm hn => ?_⟩
  obtain ⟨M, N, hM, hN, A, R, Kn, hSM, hSN, hA, hk⟩ := pool_known hp hw (lengths_of hw) hm hn
  have hK : Knows s Kn := hk hg hA
  refine ⟨M.toList, N.toList, by simp [hM], by simp [hN], fun k => ?_⟩
  obtain ⟨w, out, e1, e2, e3⟩ := algebra_unwind_valid (s := ⟨M⟩) (o := ⟨N⟩) (hv trivial M (List.mem_of_getElem? hM)) (hv trivial N (List.mem_of_getElem? hN)) k
  obtain ⟨v, g1, g2⟩ := algView_ref hK hSM hSN k w e1
  refine ⟨v, out, g1, e2, fun cmps => ?_⟩
  obtain ⟨answered, w', items, a, rest, q1, q2, q3, q4, q5, q6, q7, N', q8⟩ := e3 cmps
  obtain ⟨⟨answered', v'⟩, g3, g4, g5⟩ := callsU_ref hK cmps g2 _ q1
  dsimp only at g4 g5
  subst g4
  refine ⟨_, v', items, a, rest, g3, q2, q3, q4, q5, q6, fun b => ?_, N', fun c hc => ?_⟩
  · obtain ⟨w'', q7⟩ := q7 b
    obtain ⟨ys, g6, rfl⟩ := rest_ref hK b g5 _ q7
    exact g6
  · obtain ⟨w'', c', q8⟩ := q8 c hc
    obtain ⟨z, g6, g7⟩ := algNextU_ref hK g5 c _ q8
    match z, g7 with
    | .done ((x, v''), c''), g7 =>
      obtain ⟨⟨g8, _⟩, g9⟩ := g7
      dsimp only at g8 g9
      subst g8 g9
      exact ⟨v'', _, g6⟩

/-- **C90** For union and symmetric difference this needs no lawful order: whatever the comparison function, leaving out the calls that panicked there remain exactly the answers of
an iterator that was never disturbed. -/
theorem C90_peeking_any_ord {acts : List (SetAct T Q)} {al : Alloc} {xs : List (SetAns T S)} {p : List HMap} {s : Heap T Unit}
    (hr : SetAct.hprog f bor acts [] (Heap.start al pl) = .ok ((xs, true, p), s)) {i j : Nat} {m n : HMap} (hm : p[i]? = some m) (hn : p[j]? = some n)
    {k : AlgKind} (hk : k = .union ∨ k = .symmetricDifference) :
    ∃ v, m.algView n k s = .ok (v, s) ∧ ∀ cmps : List Nat, ∃ answered v', v.callsU cmps s = .ok ((answered, v'), s) ∧
      v.rest (answered.filterMap id).length s = .ok (answered.filterMap id, s) := by
  have := setActs_ref (f := f) (bor := bor) (lawful := False) (refuses := True) False.elim acts (hs := []) (p := []) (by simp) (fun _ => by simp)
    (al := al) (fun _ _ => trivial) (start_good (pl := pl) al) (by simpa only [sep_emp] using start_world (pl := pl) al)
  rw [hr] at this
  obtain ⟨hg, p', al', _, hp, _, _, hw⟩ := this
  obtain ⟨M, N, hM, hN, A, R, Kn, hSM, hSN, hA, hkn⟩ := pool_known hp hw (lengths_of hw) hm hn
  have hK : Knows s Kn := hkn hg hA
  obtain ⟨w, e1, e3⟩ := peeking_any_wf hSM.1 hSN.1 k hk
  obtain ⟨v, g1, g2⟩ := algView_ref hK hSM hSN k w e1
  refine ⟨v, g1, fun cmps => ?_⟩
  obtain ⟨answered, w', w'', q1, q2⟩ := e3 cmps
  obtain ⟨⟨answered', v'⟩, g3, g4, g5⟩ := callsU_ref hK cmps g2 _ q1
  dsimp only at g4 g5
  subst g4
  obtain ⟨ys, g6, rfl⟩ := rest_ref hK _ g2 _ q2
  exact ⟨_, v', g3, g6⟩

/-- **C90** A predicate in which a comparison panics has changed nothing; otherwise its answer is the usual one, and that is so whenever enough comparisons return.  (Whatever the
comparison function.) -/
theorem C90_predicates {acts : List (SetAct T Q)} {al : Alloc} {xs : List (SetAns T S)} {p : List HMap} {s : Heap T Unit}
    (hr : SetAct.hprog f bor acts [] (Heap.start al pl) = .ok ((xs, true, p), s)) {i j : Nat} {m n : HMap} (hm : p[i]? = some m) (hn : p[j]? = some n) :
    (∃ b N, m.isSubset n s = .ok (b, s) ∧ ∀ c, (c < N ∧ m.isSubsetU n c s = .ok (none, s)) ∨ ∃ left, c ≤ left + N ∧ m.isSubsetU n c s = .ok (some (b, left), s)) ∧
    (∃ b N, m.isSuperset n s = .ok (b, s) ∧ ∀ c, (c < N ∧ m.isSupersetU n c s = .ok (none, s)) ∨ ∃ left, c ≤ left + N ∧ m.isSupersetU n c s = .ok (some (b, left), s)) ∧
    (∃ b N, m.isDisjoint n s = .ok (b, s) ∧ ∀ c, (c < N ∧ m.isDisjointU n c s = .ok (none, s)) ∨ ∃ left, c ≤ left + N ∧ m.isDisjointU n c s = .ok (some (b, left), s)) := by
  have := setActs_ref (f := f) (bor := bor) (lawful := False) (refuses := True) False.elim acts (hs := []) (p := []) (by simp) (fun _ => by simp)
    (al := al) (fun _ _ => trivial) (start_good (pl := pl) al) (by simpa only [sep_emp] using start_world (pl := pl) al)
  rw [hr] at this
  obtain ⟨hg, p', al', _, hp, _, _, hw⟩ := this
  obtain ⟨M, N, hM, hN, A, R, Kn, hSM, hSN, hA, hkn⟩ := pool_known hp hw (lengths_of hw) hm hn
  have hK : Knows s Kn := hkn hg hA
  have go : ∀ {mU : Nat → HM T Unit (Option (Bool × Nat))} {q : HM T Unit Bool} {b : Bool}, q s = .ok (b, s) → (∃ N, ∀ c, CutsIn N c (mU c) q s) →
      ∃ b N, q s = .ok (b, s) ∧ ∀ c, (c < N ∧ mU c s = .ok (none, s)) ∨ ∃ left, c ≤ left + N ∧ mU c s = .ok (some (b, left), s) := by
    rintro mU q b hq ⟨N, hN⟩
    refine ⟨b, N, hq, fun c => ?_⟩
    have h := hN c
    unfold CutsIn at h
    rw [hq] at h
    revert h
    generalize mU c s = z
    intro h
    match z, h with
    | .ok (none, s'), h =>
      have h : s' = s ∧ c < N := h
      exact .inl ⟨h.2, by rw [h.1]⟩
    | .ok (some (x, left), s'), h =>
      have h : s' = s ∧ Exec.ok (b, s) = Exec.ok (x, s) ∧ c ≤ left + N := h
      obtain ⟨h0, h1, h2⟩ := h
      cases h1
      exact .inr ⟨left, h2, by rw [h0]⟩
  have sub : ∀ {a b : HMap} {M N : Map T Unit}, SetAt Kn ⟨M⟩ a → SetAt Kn ⟨N⟩ b → ∃ x, a.isSubset b s = .ok (x, s) := fun h h' => by
    obtain ⟨x, e⟩ := BSet.isSubset_total h.1 h'.1
    obtain ⟨x', e1, rfl⟩ := isSubset_ref hK h h' x e
    exact ⟨x', e1⟩
  obtain ⟨b1, e1⟩ := sub hSM hSN
  obtain ⟨b2, e2⟩ := sub hSN hSM
  obtain ⟨b3, e3⟩ : ∃ x, m.isDisjoint n s = .ok (x, s) := by
    obtain ⟨P⟩ := BTree.algPlan hSM.1 hSN.1
    obtain ⟨x', e1, _⟩ := isDisjoint_ref hK hSM hSN _ P.disjoint
    exact ⟨x', e1⟩
  exact ⟨go e1 (isSubsetU_cuts m n s), go e2 (isSubsetU_cuts n m s), go e3 (isDisjointU_cuts m n s)⟩

/-- **C90** An operator in which a comparison panics, in reading the two sets or in inserting into the new one, has dropped what there was of the new set: all memory is as it was, and dropping the sets
hands over their elements and leaves nothing allocated.  Otherwise it did what it does when left undisturbed, and that is so whenever enough comparisons return.  (Whatever the comparison function
and the allocator.) -/
theorem C90_operators {acts : List (SetAct T Q)} {al : Alloc} {xs : List (SetAns T S)} {p : List HMap} {s : Heap T Unit}
    (hr : SetAct.hprog f bor acts [] (Heap.start al pl) = .ok ((xs, true, p), s)) :
    ∃ ls, SetAct.Rights f bor False True acts [] xs ls ∧ ∀ (i j : Nat) m n, p[i]? = some m → p[j]? = some n → ∀ (k : AlgKind) (fk : T → T), ∃ N, ∀ c,
      match m.operatorU n fk k c s with
      | .ok (some x, s') => m.operator n fk k s = .ok (x, s')
      | .ok (none, s') => c < N ∧ s'.cells = s.cells ∧ ∃ s'', dropAll p s' = .ok (ls, s'') ∧ ∀ a, s''.cells a = none
      | .panic e => m.operator n fk k s = .panic e
      | .ub => m.operator n fk k s = .ub := by
  have := setActs_ref (f := f) (bor := bor) (lawful := False) (refuses := True) False.elim acts (hs := []) (p := []) (by simp) (fun _ => by simp)
    (al := al) (fun _ _ => trivial) (start_good (pl := pl) al) (by simpa only [sep_emp] using start_world (pl := pl) al)
  rw [hr] at this
  obtain ⟨hg, p', al', h1, hp, _, _, hw⟩ := this
  refine ⟨_, h1, fun i j m n hm hn k fk => ?_⟩
  obtain ⟨M, N, hM, hN, A, R, Kn, hSM, hSN, hA, hkn⟩ := pool_known hp hw (lengths_of hw) hm hn
  obtain ⟨N', hN'⟩ := operatorU_enough m n fk k s
  refine ⟨N', fun c => ?_⟩
  have h := operatorU_cut hkn hg hA hSM hSN fk k c
  unfold OperatorCut at h
  match e : m.operatorU n fk k c s, h with
  | .ok (some x, s'), h => exact h
  | .panic msg, h => exact h
  | .ub, h => exact h
  | .ok (none, s'), h =>
    refine ⟨Nat.lt_of_not_le fun hle => hN' c hle s' e, h.2, ?_⟩
    exact all_freed (dropAll_spec hp) h.1 (sched_swap hw h.2)

/-- **C90** With a lawful order and no refused request, the operators: unwound with nothing changed, which happens only if few comparisons return, or there is a new set of the clones of just the
elements that the operation asks for, beside the old ones. -/
theorem C90_operators_memory [Std.TransOrd T] [Std.TransOrd Q] (hbo : BorrowOK bor) {acts : List (SetAct T Q)} {al : Alloc} (hal : al.Good) {xs : List (SetAns T S)} {p : List HMap}
    {s : Heap T Unit} (hr : SetAct.hprog f bor acts [] (Heap.start al pl) = .ok ((xs, true, p), s)) :
    ∃ ls, SetAct.Rights f bor True False acts [] xs ls ∧ ∀ (i j : Nat) m n, p[i]? = some m → p[j]? = some n → ∃ l r, ls[i]? = some l ∧ ls[j]? = some r ∧
      ∀ k : AlgKind, ∃ out, k.Out (l.map Prod.fst) (r.map Prod.fst) out ∧ ∀ fk : T → T, (∀ x, compare x (fk x) = .eq) → ∃ N, ∀ c,
        (c < N ∧ ∃ s', m.operatorU n fk k c s = .ok (none, s') ∧ s'.cells = s.cells ∧ ∃ s'', dropAll p s' = .ok (ls, s'') ∧ ∀ a, s''.cells a = none) ∨
        (∃ m' s', m.operatorU n fk k c s = .ok (some (some m'), s') ∧ m'.length = out.length ∧
          ∃ s'', dropAll (p ++ [m']) s' = .ok (ls ++ [out.map fun x => (fk x, ())], s'') ∧ ∀ a, s''.cells a = none) := by
  have := setActs_ref (f := f) (bor := bor) (lawful := True) (refuses := False) (fun _ => ⟨inferInstance, inferInstance, hbo⟩) acts (hs := []) (p := []) (by simp) (fun _ => by simp)
    (al := al) (fun _ h => h hal) (start_good (pl := pl) al) (by simpa only [sep_emp] using start_world (pl := pl) al)
  rw [hr] at this
  obtain ⟨hg, p', al', h1, hp, hv, hgood, hw⟩ := this
  have hl := lengths_of hw
  refine ⟨_, h1, fun i j m n hm hn => ?_⟩
  obtain ⟨M, N, hM, hN, A, R, Kn, hSM, hSN, hA, hkn⟩ := pool_known hp hw hl hm hn
  refine ⟨M.toList, N.toList, by simp [hM], by simp [hN], fun k => ?_⟩
  obtain ⟨P⟩ := BTree.algPlan hSM.1 hSN.1
  obtain ⟨hc, ho⟩ := P.lawful (hv trivial M (List.mem_of_getElem? hM)) (hv trivial N (List.mem_of_getElem? hN))
  refine ⟨P.outs k, ho k, fun fk hfk => ?_⟩
  have hasc : Ascending (P.outs k) := by
    have := ho k
    cases k with
    | difference => exact this.1
    | symmetricDifference => exact this.1
    | union => exact this.1
    | intersection =>
      have h2 : if (BSet.elems ⟨M⟩).length ≤ (BSet.elems ⟨N⟩).length then IsIntersection (BSet.elems ⟨M⟩) (BSet.elems ⟨N⟩) (P.outs .intersection)
        else IsIntersection (BSet.elems ⟨N⟩) (BSet.elems ⟨M⟩) (P.outs .intersection) := this
      split at h2 <;> exact h2.1
  obtain ⟨m', s1, f1, f2, f3⟩ : ∃ m' s1, m.operator n fk k s = .ok (some m', s1) ∧ m'.length = (P.outs k).length ∧
      ∃ s'', dropAll (p ++ [m']) s1 = .ok (p'.map Map.toList ++ [(P.outs k).map fun x => (fk x, ())], s'') ∧ ∀ a, s''.cells a = none := by
    rw [operator_eq hkn hg hA hSM hSN P fk k]
    rcases BSet.fromAscending (BTree.ascending_map hasc hfk) al' with ⟨_, hb⟩ | ⟨t, a2, g1, g2, g3⟩
    · exact absurd (hgood trivial hal) hb
    · rw [BSet.extend_eq] at g1
      obtain ⟨⟨M1, a1⟩, g4, g5⟩ := Exec.bind_eq_ok.1 g1
      simp only [Exec.ok.injEq, Prod.mk.injEq] at g5
      obtain ⟨rfl, rfl⟩ := g5
      rw [List.map_map] at g4
      obtain ⟨m', s', f1, f2, f3⟩ := fromIterU_pool hp hl hg hw g4
      have hlist : M1.toList = (P.outs k).map fun x => (fk x, ()) := by
        have : M1.toList = (M1.toList.map Prod.fst).map fun x => (x, ()) := by
          rw [List.map_map]; exact (List.map_id _).symm
        rw [this, show M1.toList.map Prod.fst = _ from g3, List.map_map]; rfl
      refine ⟨m', s', f1, ?_, ?_⟩
      · have := g2.toShaped.len
        rw [f2]; simp [hlist] at this; exact this
      · rw [← hlist]; exact f3
  obtain ⟨N', hN'⟩ := operatorU_enough m n fk k s
  refine ⟨N', fun c => ?_⟩
  have h := operatorU_cut hkn hg hA hSM hSN fk k c
  unfold OperatorCut at h
  rw [f1] at h
  match e : m.operatorU n fk k c s, h with
  | .ok (some x, s'), h =>
    cases h
    exact .inr ⟨m', s1, rfl, f2, f3⟩
  | .ok (none, s'), h => exact .inl ⟨Nat.lt_of_not_le fun hle => hN' c hle s' e, s', rfl, h.2, all_freed (dropAll_spec hp) h.1 (sched_swap hw h.2)⟩

end

/-! ### Examples -/

/-- The two sets {3, 4, 9, 10, 11, …, 30} and {9, 10, 40}. -/
def twoSets : List (SetAct Nat Nat) :=
  [.act (.op .new), .act (.op .new), .act (.op (.extend 0 (unitsOf ([3, 4] ++ (List.range 22).map (· + 9))))), .act (.op (.extend 1 (unitsOf [9, 10, 40])))]

def onTwoSets {α : Type} (g : HMap → HMap → HM Nat Unit α) : Option (α × Nat) :=
  match SetAct.hprog setOrders id twoSets [] (Heap.Heap.start allOk reuse) with
  | .ok ((_, true, [m, n]), s) =>
    match g m n s with
    | .ok (x, s') =>
      match dropAll (V := Unit) [m, n] s' with
      | .ok (_, s'') => some (x, (tally s'').2)
      | _ => none
    | _ => none
  | _ => none

/-- The first call panics and 3 is lost, as is 9, which was not to come. -/
example : onTwoSets (fun m n => do
      let v ← m.algView n .difference
      let r ← v.callsU [0, 5, 0, 5, 5]
      pure r.1) = some ([none, some (some 4), none, some (some 11), some (some 12)], 0) ∧
    onTwoSets (fun m n => do
      let v ← m.algView n .union
      let r ← v.callsU [0, 1, 0, 1, 1, 0]
      let xs ← r.2.rest 3
      pure (r.1, xs)) = some (([none, some (some 3), none, some (some 4), some (some 9), none], [some 10, some 11, some 12]), 0) := by decide +kernel

/-- Predicates: unwound, and with just enough comparisons. -/
example : onTwoSets (fun m n => m.isDisjointU n 2) = some (none, 0) ∧ onTwoSets (fun m n => m.isDisjointU n 3) = some (some (false, 0), 0) ∧
    onTwoSets (fun m n => n.isSubsetU m 23) = some (none, 0) ∧ onTwoSets (fun m n => n.isSubsetU m 24) = some (some (false, 0), 0) := by decide +kernel

/-- Operators: unwound, when the new set has nodes already, or none, and left undisturbed. -/
example : onTwoSets (fun m n => do let r ← m.operatorU n id .union 200; pure r.isNone) = some (true, 0) ∧
    onTwoSets (fun m n => do let r ← m.operatorU n id .union 0; pure r.isNone) = some (true, 0) ∧
    onTwoSets (fun m n => do
      let r ← m.operatorU n id .union 1000
      match r with
      | some (some m') => m'.setDebug
      | _ => pure []) = some ([3, 4] ++ (List.range 22).map (· + 9) ++ [40], 4) := by decide +kernel

end Verif.Props
