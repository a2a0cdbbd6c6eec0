import Verif.BTree.Proofs.AlgUnwind
import Verif.BTree.Proofs.SetAny
import Verif.Props.Set
import Verif.Props.SetAny
/-
C71: set-algebra iterators that are used on after a comparison of elements panicked in `next`.
-/
namespace Verif.Props
open Verif Verif.BTree Verif.Spec

variable {T : Type}

/-- C71 for any two sets whose trees are as they should be. -/
theorem algebra_unwind_valid [Ord T] [Std.TransOrd T] {s o : BSet T} (hs : s.map.Valid) (ho : o.map.Valid) (k : AlgKind) :
    ∃ v out, s.algView o k = .ok v ∧ k.Out s.elems o.elems out ∧
      ∀ cmps : List Nat, ∃ answered v' items n rest, v.callsP cmps = .ok (answered, v') ∧ answered.length = cmps.length ∧
        answered.filterMap id = items.map some ++ List.replicate n none ∧ (n ≠ 0 → rest = []) ∧
        (items ++ rest).Sublist out ∧
        out.length ≤ (items ++ rest).length + (if k = .difference ∨ k = .intersection then answered.countP Option.isNone else 0) ∧
        (∀ n, ∃ v'', runN AlgView.next n v' = .ok (answers n rest, v'')) ∧
        (∃ N, ∀ c, N ≤ c → ∃ v'' c', v'.nextP c = .ok (.done ((rest.head?, v''), c'))) := by
  obtain ⟨c, hc1, hc2⟩ := BSet.contains_has ho
  obtain ⟨small, other, hsm, hov, i1, i2⟩ : ∃ small other : BSet T, small.map.Valid ∧ other.map.Valid ∧
      (∀ out, IsIntersection small.elems other.elems out → AlgKind.Out s.elems o.elems .intersection out) ∧
      s.intersection o = (if other.len / TIPPING < small.len then do
          let i ← small.iter
          let j ← other.iter
          .ok (.stitch i j)
        else do
          let i ← small.iter
          .ok (.search i other)) := by
    have hls := BSet.len_spec hs.toShaped
    have hlo := BSet.len_spec ho.toShaped
    by_cases hle : s.len ≤ o.len
    · exact ⟨s, o, hs, ho, fun out h => by rw [AlgKind.Out, ← hls, ← hlo, if_pos hle]; exact h, by simp [BSet.intersection, hle]⟩
    · exact ⟨o, s, ho, hs, fun out h => by rw [AlgKind.Out, ← hls, ← hlo, if_neg hle]; exact h, by simp [BSet.intersection, hle]⟩
  obtain ⟨ci, ci1, ci2⟩ := BSet.contains_has hov
  have start : ∃ v out, s.algView o k = .ok v ∧ k.Out s.elems o.elems out ∧ AlgIsP o other c ci k v out := by
    have has := BSet.ascending hs
    have hao := BSet.ascending ho
    cases k with
    | difference =>
      obtain ⟨i, h1, h2⟩ := BSet.iter_spec hs.toShaped
      obtain ⟨j, h3, h4⟩ := BSet.iter_spec ho.toShaped
      by_cases ht : s.len > o.len / TIPPING
      · exact ⟨.difference (.stitch i j.peekable), _, by simp [BSet.algView, BSet.difference, ht, h1, h3], diffList_spec _ _ has hao,
          _, _, h2, h4.peekable, has, hao, rfl⟩
      · exact ⟨.difference (.search i o), _, by simp [BSet.algView, BSet.difference, ht, h1], filter_not_isDifference has hc2, rfl, _, h2, rfl⟩
    | symmetricDifference =>
      obtain ⟨t, t1, t2, t3⟩ := BSet.twoIters_spec hs.toShaped ho.toShaped
      exact ⟨.symmetricDifference t, _, by simp [BSet.algView, t1], symList_spec _ _ has hao, _, _, t2, t3, rfl⟩
    | intersection =>
      have hal := BSet.ascending hsm
      have haov := BSet.ascending hov
      obtain ⟨i, h1, h2⟩ := BSet.iter_spec hsm.toShaped
      obtain ⟨j, h3, h4⟩ := BSet.iter_spec hov.toShaped
      by_cases ht : other.len / TIPPING < small.len
      · exact ⟨.intersection (.stitch i j), _, by simp [BSet.algView, i2, ht, h1, h3], i1 _ (interList_spec _ _ hal haov),
          _, _, h2, h4, hal, haov, rfl⟩
      · exact ⟨.intersection (.search i other), _, by simp [BSet.algView, i2, ht, h1], i1 _ (filter_isIntersection hal ci2), rfl, _, h2, rfl⟩
    | union =>
      obtain ⟨t, t1, t2, t3⟩ := BSet.twoIters_spec hs.toShaped ho.toShaped
      exact ⟨.union t, _, by simp [BSet.algView, t1], unionList_spec _ _ has hao, _, _, t2, t3, rfl⟩
  obtain ⟨v, out, h1, h2, h3⟩ := start
  refine ⟨v, out, h1, h2, fun cs => ?_⟩
  have hI : ∀ v out, AlgIsP o other c ci k v out → ∃ N, ∀ n, ∃ z, v.nextP n = .ok z ∧ StepP (AlgIsP o other c ci k) (algLoss k) N n out z :=
    fun v out h => h.next ho.toShaped hov.toShaped hc1 ci1
  obtain ⟨xs, v', items, n, rest, g1, g2, g3, g4, g5, g6, g7⟩ := AlgView.callsP_spec hI cs h3
  refine ⟨xs, v', items, n, rest, g1, g2, g3, g4, g6, ?_, fun n => ?_, ?_⟩
  · cases k <;> simpa [algLoss] using g7
  · obtain ⟨v'', e, _⟩ := runN_spec (AlgIsW.yields hc1 ci1) n g5.weak
    exact ⟨v'', e⟩
  · obtain ⟨N, hN⟩ := hI v' rest g5
    refine ⟨N, fun c hle => ?_⟩
    obtain ⟨z, e, hz⟩ := hN c
    cases z with
    | done r =>
      obtain ⟨⟨x, v''⟩, c'⟩ := r
      obtain ⟨rfl, _⟩ := hz
      exact ⟨v'', c', e⟩
    | unwound v'' w =>
      have := hz.2.1
      omega

/-- **C71** Call `next` of a set-algebra iterator any number of times, let any comparison of elements panic in any of the calls, and catch the panics.  The
calls that return hand out elements of the operation's result, each at most once, in order, followed by `None` for ever; what is missing in the end is at most one
element for every panic for difference and intersection, and nothing at all for union and symmetric difference.  At any moment the iterator can still be used: the
calls made from then on, if undisturbed, hand out the remaining elements `rest`, and a call in which enough comparisons return does return. -/
theorem C71_algebra_unwind [Ord T] [Std.TransOrd T] {s o : BSet T} {l r} (hs : SetReach s) (ho : SetReach o) (hl : s.items = .ok l) (hr : o.items = .ok r)
    (k : AlgKind) :
    ∃ v out, s.algView o k = .ok v ∧ k.Out l r out ∧
      ∀ cmps : List Nat, ∃ answered v' items n rest, v.callsP cmps = .ok (answered, v') ∧ answered.length = cmps.length ∧
        answered.filterMap id = items.map some ++ List.replicate n none ∧ (n ≠ 0 → rest = []) ∧
        (items ++ rest).Sublist out ∧
        out.length ≤ (items ++ rest).length + (if k = .difference ∨ k = .intersection then answered.countP Option.isNone else 0) ∧
        (∀ n, ∃ v'', runN AlgView.next n v' = .ok (answers n rest, v'')) ∧
        (∃ N, ∀ c, N ≤ c → ∃ v'' c', v'.nextP c = .ok (.done ((rest.head?, v''), c'))) := by
  obtain rfl := BTree.Exec.ok_unique hl (BSet.items_spec hs.valid.toShaped)
  obtain rfl := BTree.Exec.ok_unique hr (BSet.items_spec ho.valid.toShaped)
  exact algebra_unwind_valid hs.valid ho.valid k

/-- The same for any two sets whose trees have the right shape. -/
theorem peeking_any_wf [Ord T] {s o : BSet T} (hs : s.map.WF) (ho : o.map.WF) (k : AlgKind) (hk : k = .union ∨ k = .symmetricDifference) :
    ∃ v, s.algView o k = .ok v ∧ ∀ cmps : List Nat, ∃ answered v' v'', v.callsP cmps = .ok (answered, v') ∧
      runN AlgView.next (answered.filterMap id).length v = .ok (answered.filterMap id, v'') := by
  obtain ⟨c, hc⟩ := BSet.contains_total (bor := id) ho
  obtain ⟨t, t1, t2, t3⟩ := BSet.twoIters_spec hs ho
  have start : ∃ v out, s.algView o k = .ok v ∧ AlgIsP o o c c k v out := by
    rcases hk with rfl | rfl
    · exact ⟨.union t, _, by simp [BSet.algView, t1], _, _, t2, t3, rfl⟩
    · exact ⟨.symmetricDifference t, _, by simp [BSet.algView, t1], _, _, t2, t3, rfl⟩
  have hk0 : algLoss k = 0 := by rcases hk with rfl | rfl <;> rfl
  obtain ⟨v, out, h1, h2⟩ := start
  refine ⟨v, h1, fun cs => ?_⟩
  obtain ⟨xs, v', items, n, rest, g1, g2, g3, g4, g5, g6⟩ :=
    AlgView.callsP_spec (I := AlgIsP o o c c k) (loss := 0) (fun v out h => h.next_peek hk0) cs h2
  obtain ⟨v'', e, _⟩ := runN_spec (AlgIsW.yields hc hc) (xs.filterMap id).length h2.weak
  refine ⟨xs, v', v'', g1, ?_⟩
  rw [e, g3]
  have hout : items ++ rest = out := g6.1.eq_of_length_le (by have := g6.2; omega)
  congr 2
  subst hout
  simp only [answers, List.length_append, List.length_map, List.length_replicate]
  by_cases hn : n = 0
  · subst hn
    simp
  · obtain rfl := g4 hn
    simp only [List.append_nil, List.length_nil, Nat.add_zero, Nat.add_sub_cancel_left]
    rw [List.take_of_length_le (by omega)]

/-- **C71** For union and symmetric difference this needs no lawful order: whatever the comparison function, leaving out the calls that panicked there remain
exactly the answers of an iterator that was never disturbed. -/
theorem C71_peeking_any_ord [Ord T] {s o : BSet T} (hs : SetReachAny s) (ho : SetReachAny o) (k : AlgKind) (hk : k = .union ∨ k = .symmetricDifference) :
    ∃ v, s.algView o k = .ok v ∧ ∀ cmps : List Nat, ∃ answered v' v'', v.callsP cmps = .ok (answered, v') ∧
      runN AlgView.next (answered.filterMap id).length v = .ok (answered.filterMap id, v'') := by
  exact peeking_any_wf hs.wf ho.wf k hk

/-- A run over two sets. -/
def algRun (a b : BSet Nat) (k : AlgKind) (cmps : List Nat) : Exec (List (Option (Option Nat))) := do
  let v ← a.algView b k
  let r ← v.callsP cmps
  .ok r.1

/-- {3, 4, 9, 10, 11, 70} without {9, 10}: the first call panics, and 3, already taken out of the set's own iterator, is lost; the third panics too, and only 9 is
lost, which was not to come anyway. -/
example : SetReach mid ∧ SetReach tiny ∧ algRun mid tiny .difference [0, 5, 0, 5, 5, 5, 0] =
    .ok [none, some (some 4), none, some (some 11), some (some 70), some none, some none] := ⟨mid_reach, tiny_reach, by decide +kernel⟩

/-- {9, 10} without the forty even numbers up to 78, by searching: a panic in the search loses the element searched for. -/
example : SetReach big ∧ algRun tiny big .difference [3, 50, 50] = .ok [none, some none, some none] ∧
    algRun tiny big .difference [50, 3, 50] = .ok [some (some 9), none, some none] := ⟨big_reach, by decide +kernel⟩

/-- The intersection loses an element for each panic, too. -/
example : algRun mid mid .intersection [1, 0, 1, 0, 1, 5] = .ok [some (some 3), none, some (some 9), none, some (some 11), some (some 70)] ∧
    algRun tiny big .intersection [3, 50, 50] = .ok [none, some (some 10), some none] := by decide +kernel

/-- Union and symmetric difference lose nothing. -/
example : algRun mid (setOf [1, 4, 10, 80]) .union [0, 1, 0, 1, 1, 0, 0, 1, 1, 1, 0, 1, 0, 0] =
      .ok [none, some (some 1), none, some (some 3), some (some 4), none, none, some (some 9), some (some 10), some (some 11), none, some (some 70),
        some (some 80), some none] ∧
    algRun mid (setOf [1, 4, 10, 80]) .symmetricDifference [0, 5, 5, 1, 1, 5, 5, 0, 0] =
      .ok [none, some (some 1), some (some 3), none, some (some 9), some (some 11), some (some 70), some (some 80), some none] := by decide +kernel

/-- With a comparison function that calls everything greater. -/
example : SetReachAny badSet ∧ (do
    let v ← badSet.algView tiny .union
    let r ← @AlgView.callsP Nat ⟨fun _ _ => .gt⟩ [0, 1, 0, 1, 1, 1, 1, 1] v
    .ok r.1 : Exec _) = .ok [none, some (some 9), none, some (some 10), some (some 9), some (some 7), some (some 7), some none] :=
  ⟨badSet_reach, by decide +kernel⟩

end Verif.Props
