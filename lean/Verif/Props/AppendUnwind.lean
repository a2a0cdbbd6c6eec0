import Verif.Heap.Proofs.UnwindAppend
import Verif.Heap.Proofs.UnwindMap
import Verif.Props.AfterFail
import Verif.Props.Budget
import Verif.Props.Unwind
/-
C65: `append` that unwinds, in memory.
-/
namespace Verif.Props
open Verif Verif.Heap Verif.Spec
open Verif.BTree (Map Why mergeIter)

variable {K V Q : Type} {pl : Nat → Heap.Addr}

/-- `append` of two maps of any program, then dropping every map there is. -/
theorem append_unwinds [Ord K] [Ord Q] {bor : K → Q} {ops : List (Op K V Q)} {al : Alloc} {os : List (Out K V)} {p : List HMap} {s : Heap K V}
    (hr : Op.hprog bor ops [] (Heap.start al pl) = .ok ((os, true, p), s)) {i j : Nat} (hij : i ≠ j) {m o : HMap} (hm : p[i]? = some m) (ho : p[j]? = some o)
    (fuel : Nat) :
    ∃ ms M O, BTree.Op.runs bor ops [] al = .ok (os, ms, s.alloc) ∧ (∀ m ∈ ms, m.WF) ∧ ms[i]? = some M ∧ ms[j]? = some O ∧
    ∃ why m' o' d s' M' O', m.appendU o fuel s = .ok ((why, m', o', d), s') ∧ m'.length = M'.toList.length ∧ o'.length = O'.toList.length ∧
      (M'.toList ++ O'.toList ++ d).Perm (M.toList ++ O.toList) ∧
      ((why = none ∧ ∃ al' f, M.appendP O s.alloc fuel = .ok (.done ((M', O', al'), f))) ∨
       (∃ w, why = some w ∧ O' = Map.new ∧ o' = HMap.new ∧ M.appendP O s.alloc fuel = .ok (.unwound (M', O') w))) ∧
      ∃ s2, dropAll ((p.set i m').set j o') s' = .ok (((ms.map Map.toList).set i M'.toList).set j O'.toList, s2) ∧ (why ≠ some .mem → ∀ a, s2.cells a = none) := by
  obtain ⟨ms, h1, h2, hp⟩ := hprog_alloc hr
  obtain ⟨hg, _⟩ := hprog_ok hr
  have hw : (pool p ms ∗ sched s.alloc) s.world := ⟨⟨s.cells, none⟩, ⟨fun _ => none, some s.alloc⟩, ⟨fun _ => .inr rfl, .inl rfl⟩, by
    simp [World.union, Heap.world], hp, rfl⟩
  have hlen : p.length = ms.length := by
    have := Ent.frame pool_length _ _ hw
    rw [sep_assoc] at this
    exact (fact_sep.1 this).1
  have hlt : i < ms.length := by rw [← hlen]; exact (List.getElem?_eq_some_iff.1 hm).1
  obtain ⟨M, hM⟩ : ∃ M, ms[i]? = some M := ⟨_, List.getElem?_eq_getElem hlt⟩
  have hlt' : j < ms.length := by rw [← hlen]; exact (List.getElem?_eq_some_iff.1 ho).1
  obtain ⟨O, hO⟩ : ∃ O, ms[j]? = some O := ⟨_, List.getElem?_eq_getElem hlt'⟩
  obtain ⟨F, e1, e2⟩ := pool_two hlen hM hO hm ho hij
  refine ⟨ms, M, O, h1, h2, hM, hO, ?_⟩
  have hw' : ((rep m M ∗ rep o O ∗ sched s.alloc) ∗ F) s.world := by
    rw [e1] at hw
    have : ((rep m M ∗ rep o O ∗ sched s.alloc) ∗ F) = ((rep m M ∗ rep o O ∗ F) ∗ sched s.alloc) := by ac_rfl
    rw [this]; exact hw
  obtain ⟨⟨why, m', o', d⟩, s', k1, k2, k3⟩ := Triple.returns (appendU_ref (E := fun _ => False) (fuel := fuel) (h2 M (List.mem_of_getElem? hM))
    (h2 O (List.mem_of_getElem? hO))) hg hw'
  unfold AppendPost at k3
  rw [hex_sep] at k3
  obtain ⟨⟨⟨M', O'⟩, al'⟩, k3⟩ := k3
  rw [sep_assoc] at k3
  obtain ⟨⟨f1, f2, f3, f4⟩, k4⟩ := fact_sep.1 k3
  dsimp only at f1 f2 f3 f4 k4
  have l1 : m'.length = M'.length := rep_length (R := (rep o' O' ∗ sched al' ∗ leak (why != some .mem)) ∗ F) (by rw [← sep_assoc]; exact k4)
  have l2 : o'.length = O'.length := rep_length (R := (rep m' M' ∗ sched al' ∗ leak (why != some .mem)) ∗ F) (by
    have : (rep o' O' ∗ (rep m' M' ∗ sched al' ∗ leak (why != some .mem)) ∗ F) = ((rep m' M' ∗ rep o' O' ∗ sched al' ∗ leak (why != some .mem)) ∗ F) := by ac_rfl
    rw [this]; exact k4)
  refine ⟨why, m', o', d, s', M', O', k1, by rw [l1, f2], by rw [l2, f3], f1, ?_, ?_⟩
  · rcases f4 with ⟨f4, f, f5⟩ | f4
    · exact .inl ⟨f4, al', f, f5⟩
    · exact .inr f4
  · have k5 : (pool ((p.set i m').set j o') ((ms.set i M').set j O') ∗ (sched al' ∗ leak (why != some .mem))) s'.world := by
      rw [e2]
      have : ((rep m' M' ∗ rep o' O' ∗ F) ∗ (sched al' ∗ leak (why != some .mem))) = ((rep m' M' ∗ rep o' O' ∗ sched al' ∗ leak (why != some .mem)) ∗ F) := by ac_rfl
      rw [this]; exact k4
    have hlens : ∀ N ∈ (ms.set i M').set j O', N.length = N.toList.length := by
      intro N hN
      rcases List.mem_or_eq_of_mem_set hN with hN | rfl
      · rcases List.mem_or_eq_of_mem_set hN with hN | rfl
        · exact (h2 N hN).len.trans (Nat.add_zero _)
        · exact f2
      · exact f3
    have hx : ((ms.set i M').set j O').map Map.toList = ((ms.map Map.toList).set i M'.toList).set j O'.toList := by
      rw [List.map_set, List.map_set]
    by_cases hwhy : why = some .mem
    · obtain ⟨ls, s2, g1, _, g3⟩ := Triple.returns (dropAll_len (E := fun _ => False) hlens) k2 k5
      obtain ⟨rfl, _⟩ := fact_sep.1 g3
      exact ⟨s2, by rw [g1, hx], fun h => absurd hwhy h⟩
    · have : leak (K := K) (V := V) (why != some .mem) = emp := by
        rw [show (why != some Why.mem) = true by simp [hwhy]]; rfl
      rw [this, sep_emp] at k5
      obtain ⟨s2, g1, g2⟩ := all_freed (dropAll_len (E := fun _ => False) hlens) k2 k5
      exact ⟨s2, by rw [g1, hx], fun _ => g2⟩

/-- **C65** `append` of two maps of any program, with any key order, whichever comparison panics and whichever request for memory is refused: neither the call nor
the unwinding is undefined behaviour.  Afterwards every pair the two maps held is in `self`, in `other`, or has been dropped, exactly once;
if the call unwound, `other` is the new map.  Every map of the program can then be dropped, which drops the entries it had (`self`: as many as `len()` says), and
nothing stays allocated unless it was memory that was refused. -/
theorem C65_append [Ord K] [Ord Q] {bor : K → Q} {ops : List (Op K V Q)} {al : Alloc} {os : List (Out K V)} {p : List HMap} {s : Heap K V}
    (hr : Op.hprog bor ops [] (Heap.start al pl) = .ok ((os, true, p), s)) {i j : Nat} (hij : i ≠ j) {m o : HMap} (hm : p[i]? = some m) (ho : p[j]? = some o)
    (fuel : Nat) :
    ∃ (before : List (List (K × V))) (l r : List (K × V)), (∃ s0, dropAll p s = .ok (before, s0)) ∧ before[i]? = some l ∧ before[j]? = some r ∧
    ∃ why m' o' dropped s' l' r', m.appendU o fuel s = .ok ((why, m', o', dropped), s') ∧ m'.length = l'.length ∧ o'.length = r'.length ∧
      (l' ++ r' ++ dropped).Perm (l ++ r) ∧ (why ≠ none → o' = HMap.new ∧ r' = []) ∧
      ∃ s2, dropAll ((p.set i m').set j o') s' = .ok ((before.set i l').set j r', s2) ∧ (why ≠ some .mem → ∀ a, s2.cells a = none) := by
  obtain ⟨ms, M, O, h1, _, h2, h3, why, m', o', d, s', M', O', h4, h5, h6, h7, h8, h9⟩ := append_unwinds hr hij hm ho fuel
  obtain ⟨ms', al', g1, s0, g2, _⟩ := C51_drop hr
  rw [h1] at g1
  simp only [Exec.ok.injEq, Prod.mk.injEq, true_and] at g1
  obtain ⟨rfl, _⟩ := g1
  refine ⟨ms.map Map.toList, M.toList, O.toList, ⟨s0, g2⟩, by simp [h2], by simp [h3], why, m', o', d, s', M'.toList, O'.toList, h4, h5, h6, h7, fun hw => ?_, h9⟩
  rcases h8 with ⟨h8, _⟩ | ⟨w, _, rfl, h8, _⟩
  · exact absurd h8 hw
  · exact ⟨h8, rfl⟩

/-- **C65** … and if the order is lawful: what is left in `self` is, in terms of the lists the answers of the program determine, the union of the two (the
pairs of `other` win) if the call returned, and a first part of it if it unwound; if it was a comparison that panicked, the part is as long as
the number of comparisons that were answered; it unwinds for want of memory only if a request was refused. -/
theorem C65_append_history [Ord K] [Std.TransOrd K] [Ord Q] [Std.TransOrd Q] {bor : K → Q} (hbo : BorrowOK bor) {ops : List (Op K V Q)} {al : Alloc}
    {os : List (Out K V)} {p : List HMap} {s : Heap K V} (hr : Op.hprog bor ops [] (Heap.start al pl) = .ok ((os, true, p), s)) (hf : .failed ∉ os) {i j : Nat} (hij : i ≠ j)
    {m o : HMap} (hm : p[i]? = some m) (ho : p[j]? = some o) (fuel : Nat) :
    ∃ l r u why m' o' dropped s' l' r' s2, (Op.specs bor ops []).2[i]? = some l ∧ (Op.specs bor ops []).2[j]? = some r ∧ Spec.union l r u ∧
      m.appendU o fuel s = .ok ((why, m', o', dropped), s') ∧
      dropAll ((p.set i m').set j o') s' = .ok (((Op.specs bor ops []).2.set i l').set j r', s2) ∧
      (l' ++ r' ++ dropped).Perm (l ++ r) ∧ m'.length = l'.length ∧ o'.length = r'.length ∧ r' = [] ∧
      (why = none → l' = u) ∧ (why ≠ none → l' <+: u) ∧ (why = some .cmp → l'.length = fuel) ∧ (why = some .mem → ∃ n, s.alloc n = false) := by
  obtain ⟨ms, M, O, h1, hwf, h2, h3, why, m', o', d, s', M', O', h4, h5, h6, h7, h8, s2, h9, _⟩ := append_unwinds hr hij hm ho fuel
  rcases runs_agree hbo ops [] (by simp) al with ⟨h, _⟩ | ⟨p3, a3, e1, e2, e3⟩
  · exact absurd ⟨os, ms, _, h1, hf⟩ h
  rw [h1] at e1
  simp only [Exec.ok.injEq, Prod.mk.injEq, List.map_nil] at e1 e3
  obtain ⟨_, rfl, _⟩ := e1
  have hM := e2 M (List.mem_of_getElem? h2)
  have hO := e2 O (List.mem_of_getElem? h3)
  have key : ∃ u, Spec.union M.toList O.toList u ∧ O'.toList = [] ∧ (why = none → M'.toList = u) ∧ (why ≠ none → M'.toList <+: u) ∧
      (why = some .cmp → M'.toList.length = fuel) ∧ (why = some .mem → ∃ n, s.alloc n = false) := by
    rcases h8 with ⟨rfl, al', f, h8⟩ | ⟨w, rfl, rfl, _, h8⟩
    · rcases Map.appendP_spec hM.toShaped hO.toShaped s.alloc fuel with ⟨m1, w1, q1, _⟩ | ⟨m1, o1, a1, f, q1, q2⟩
      · rw [h8] at q1; simp at q1
      · rw [h8] at q1
        simp only [Exec.ok.injEq, BTree.Outcome.done.injEq, Prod.mk.injEq] at q1
        obtain ⟨⟨rfl, rfl, rfl⟩, rfl⟩ := q1
        rcases Map.append_ordered hM hO s.alloc with ⟨⟨msg, q3⟩, _⟩ | ⟨m2, o2, a2, q3, q4, q5, q6, _, q7⟩
        · rw [q2] at q3; cases q3
        · obtain ⟨rfl, rfl, rfl⟩ := by simpa using BTree.Exec.ok_unique q2 q3
          exact ⟨M'.toList, q7, by first | exact q6 | simpa using q6, fun _ => rfl, by simp, by simp, by simp⟩
    · obtain ⟨_, _, ⟨u, q1, q2⟩, _, _, q3, q4⟩ := appendP_ordered hM hO h8
      refine ⟨u, q1, rfl, by simp, fun _ => q2, fun e => q4 (Option.some.inj e), fun e => ?_⟩
      refine Classical.byContradiction fun hn => q3 (Option.some.inj e) fun n => ?_
      cases hc : s.alloc n with
      | true => rfl
      | false => exact absurd ⟨n, hc⟩ hn
  obtain ⟨u, k1, k2, k3, k4, k5, k6⟩ := key
  rw [← e3]
  exact ⟨M.toList, O.toList, u, why, m', o', d, s', M'.toList, O'.toList, s2, by simp [h2], by simp [h3], k1, h4, h9, h7, h5, h6, k2, k3, k4, k5, k6⟩

/-- Even numbers below 60 in one map, multiples of three below 60 in the other. -/
def evensAndThrees : List (Op Nat Nat Nat) :=
  [.new, .new] ++ (List.range 30).map (fun i => .insert 0 (2 * i) 0) ++ (List.range 20).map (fun i => .insert 1 (3 * i) 1)

/-- Their `append` with `fuel` comparisons answered and `n` nodes granted (9 were used to fill the maps): why it unwound, how many pairs it left, dropped
early, and how many nodes are allocated when all is dropped. -/
def tryAppend (n fuel : Nat) : Option (Option Why × Nat × Nat × Nat) :=
  match Op.hprog id evensAndThrees [] (Heap.Heap.start (fun i => i < n) reuse) with
  | .ok ((_, true, [m, o]), s) => match m.appendU o fuel s with
    | .ok ((why, m', o', d), s') => match dropAll [m', o'] s' with
      | .ok ([l, []], s2) => if l.length == m'.length then some (why, l.length, d.length, (tally s2).2) else none
      | _ => none
    | _ => none
  | _ => none

/-- It returns, it unwinds in a comparison, it unwinds for want of memory: the fifty pairs are accounted for each time. -/
example : tryAppend 100 50 = some (none, 40, 10, 0) ∧ tryAppend 100 7 = some (some .cmp, 7, 43, 0) ∧
    tryAppend 12 50 = some (some .mem, 23, 27, 0) := by decide +kernel

end Verif.Props
