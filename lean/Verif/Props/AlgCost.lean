import Verif.BTree.Proofs.AlgCost
import Verif.Props.SetAny
/-
C85: how many comparisons of elements the operations on two sets make.
-/
namespace Verif.Props
open Verif Verif.BTree Verif.Spec

variable {T : Type}

theorem searchCost_le {s : BSet T} (h : s.map.WF) : s.searchCost ≤ lookCost s.elems.length := by
  have := Heap.height_cost h
  simpa [BSet.searchCost, BSet.elems] using this

theorem tip {n m : Nat} : m / TIPPING < n ↔ m < 16 * n := by unfold TIPPING; omega

/-- Every one of the four starts with no more comparisons set aside than its cost. -/
theorem algPot_start [Ord T] {s o : BSet T} (hs : s.map.WF) (ho : o.map.WF) (k : AlgKind) :
    ∃ other c ci v out p, other.map.WF ∧ (∀ x, o.contains id x = .ok (c x)) ∧ (∀ x, other.contains id x = .ok (ci x)) ∧ s.algView o k = .ok v ∧
      AlgPot o other c ci v out p ∧ p ≤ k.cost s.elems.length o.elems.length ∧ out.length ≤ k.most s.elems.length o.elems.length := by
  have hls := BSet.len_spec hs
  have hlo := BSet.len_spec ho
  obtain ⟨c, hc⟩ := BSet.contains_total ho (id : T → T)
  cases k with
  | difference =>
    obtain ⟨i, h1, h2⟩ := BSet.iter_spec hs
    obtain ⟨j, h3, h4⟩ := BSet.iter_spec ho
    by_cases ht : o.len / TIPPING < s.len
    · refine ⟨o, c, c, .difference (.stitch i j.peekable), _, _, ho, hc, hc, by simp [BSet.algView, BSet.difference, ht, h1, h3],
        ⟨_, _, h2, h4.peekable, rfl, rfl⟩, ?_⟩
      rw [tip, hls, hlo] at ht
      exact ⟨by simp [AlgKind.cost, meetCost, ht], (length_diffList _ _).1⟩
    · refine ⟨o, c, c, .difference (.search i o), _, _, ho, hc, hc, by simp [BSet.algView, BSet.difference, ht, h1], ⟨rfl, _, h2, rfl, rfl⟩, ?_⟩
      rw [tip, hls, hlo] at ht
      simp only [AlgKind.cost, meetCost, if_neg ht]
      exact ⟨Nat.mul_le_mul_left _ (searchCost_le ho), List.length_filter_le ..⟩
  | symmetricDifference =>
    obtain ⟨t, t1, t2, t3⟩ := BSet.twoIters_spec hs ho
    exact ⟨o, c, c, .symmetricDifference t, _, _, ho, hc, hc, by simp [BSet.algView, t1], ⟨_, _, t2, t3, rfl, rfl⟩, Nat.le_refl _, length_symList _ _⟩
  | intersection =>
    obtain ⟨small, other, hsm, hov, hcost, hmost, i2⟩ : ∃ small other : BSet T, small.map.WF ∧ other.map.WF ∧
        AlgKind.cost s.elems.length o.elems.length .intersection = meetCost small.elems.length other.elems.length ∧
        AlgKind.most s.elems.length o.elems.length .intersection = small.elems.length ∧
        s.intersection o = (if other.len / TIPPING < small.len then do
            let i ← small.iter
            let j ← other.iter
            .ok (.stitch i j)
          else do
            let i ← small.iter
            .ok (.search i other)) := by
      by_cases hle : s.len ≤ o.len
      · exact ⟨s, o, hs, ho, by rw [AlgKind.cost, Nat.min_eq_left (by omega), Nat.max_eq_right (by omega)],
          by rw [AlgKind.most, Nat.min_eq_left (by omega)], by simp [BSet.intersection, hle]⟩
      · exact ⟨o, s, ho, hs, by rw [AlgKind.cost, Nat.min_eq_right (by omega), Nat.max_eq_left (by omega)],
          by rw [AlgKind.most, Nat.min_eq_right (by omega)], by simp [BSet.intersection, hle]⟩
    obtain ⟨ci, hci⟩ := BSet.contains_total hov (id : T → T)
    obtain ⟨i, h1, h2⟩ := BSet.iter_spec hsm
    obtain ⟨j, h3, h4⟩ := BSet.iter_spec hov
    rw [hcost, hmost]
    have hlsm := BSet.len_spec hsm
    have hlov := BSet.len_spec hov
    by_cases ht : other.len / TIPPING < small.len
    · refine ⟨other, c, ci, .intersection (.stitch i j), _, _, hov, hc, hci, by simp [BSet.algView, i2, ht, h1, h3],
        ⟨_, _, h2, h4, rfl, rfl⟩, ?_⟩
      rw [tip, hlsm, hlov] at ht
      exact ⟨by simp [meetCost, ht], length_interList _ _⟩
    · refine ⟨other, c, ci, .intersection (.search i other), _, _, hov, hc, hci, by simp [BSet.algView, i2, ht, h1], ⟨rfl, _, h2, rfl, rfl⟩, ?_⟩
      rw [tip, hlsm, hlov] at ht
      simp only [meetCost, if_neg ht]
      exact ⟨Nat.mul_le_mul_left _ (searchCost_le hov), List.length_filter_le ..⟩
  | union =>
    obtain ⟨t, t1, t2, t3⟩ := BSet.twoIters_spec hs ho
    exact ⟨o, c, c, .union t, _, _, ho, hc, hc, by simp [BSet.algView, t1], ⟨_, _, t2, t3, rfl, rfl⟩, Nat.le_refl _, (length_unionList _ _).1⟩

theorem AlgPot.weak [Ord T] {o oi : BSet T} {c ci : T → Bool} {v} {out : List T} {p : Nat} (h : AlgPot o oi c ci v out p) : AlgIsW o oi c ci v out := by
  cases v with
  | difference d =>
    cases d with
    | stitch i j => obtain ⟨l, r, h1, h2, h3, _⟩ := h; exact ⟨[], l, r, h1, h2, h3⟩
    | search i o' => obtain ⟨h0, l, h1, h2, _⟩ := h; exact ⟨l, h0, l, h1, List.suffix_refl _, h2⟩
  | symmetricDifference t => obtain ⟨l, r, h1, h2, h3, _⟩ := h; exact ⟨l, r, h1, h2, h3⟩
  | intersection d =>
    cases d with
    | stitch i j => obtain ⟨l, r, h1, h2, h3, _⟩ := h; exact ⟨l, r, h1, h2, h3⟩
    | search i o' => obtain ⟨h0, l, h1, h2, _⟩ := h; exact ⟨h0, l, h1, h2⟩
  | union t => obtain ⟨l, r, h1, h2, h3, _⟩ := h; exact ⟨l, r, h1, h2, h3⟩

/-- **C85** Whatever the comparison function: all the calls of `next` ever made on an iterator over the difference, symmetric difference, intersection or union of
two sets make, together, at most `k.cost n m` comparisons of elements, `n` and `m` being the sizes of the sets.  With that many comparisons to spend, `calls` calls
return the same answers as with no limit, and what they do not spend is left. -/
theorem C85_iterators [Ord T] {s o : BSet T} {l r} (hs : SetReachAny s) (ho : SetReachAny o) (hl : s.items = .ok l) (hr : o.items = .ok r) (k : AlgKind) :
    ∃ v, s.algView o k = .ok v ∧ ∀ calls cmps, k.cost l.length r.length ≤ cmps → ∃ answered v' v'' left,
      runN AlgView.next calls v = .ok (answered, v') ∧ v.runP calls cmps = .ok (some ((answered, v''), left)) ∧
      cmps ≤ left + k.cost l.length r.length := by
  have hs := hs.wf
  have ho := ho.wf
  obtain rfl := BTree.Exec.ok_unique hl (BSet.items_spec hs)
  obtain rfl := BTree.Exec.ok_unique hr (BSet.items_spec ho)
  obtain ⟨other, c, ci, v, out, p, how, hc, hci, hv, hp, hle, _⟩ := algPot_start hs ho k
  refine ⟨v, hv, fun calls cmps hcm => ?_⟩
  obtain ⟨v', e, _⟩ := runN_spec (AlgIsW.yields hc hci) calls (AlgPot.weak hp)
  obtain ⟨v'', left, e', hleft⟩ := AlgView.runP_cost (I := AlgPot o other c ci) (fun v out p c h hc' => h.next ho how hc hci hc') calls hp
    (c := cmps) (by omega)
  exact ⟨_, v', v'', left, e, e', by omega⟩

/-- **C85** The predicates on two sets. -/
theorem C85_predicates [Ord T] {s o : BSet T} {l r} (hs : SetReachAny s) (ho : SetReachAny o) (hl : s.items = .ok l) (hr : o.items = .ok r) :
    (∃ b, s.isSubset o = .ok b ∧ ∀ cmps, subsetCost l.length r.length ≤ cmps → ∃ left,
      s.isSubsetP o cmps = .ok (some (b, left)) ∧ cmps ≤ left + subsetCost l.length r.length) ∧
    (∃ b, s.isSuperset o = .ok b ∧ ∀ cmps, subsetCost r.length l.length ≤ cmps → ∃ left,
      s.isSupersetP o cmps = .ok (some (b, left)) ∧ cmps ≤ left + subsetCost r.length l.length) ∧
    (∃ b, s.isDisjoint o = .ok b ∧ ∀ cmps, disjointCost l.length r.length ≤ cmps → ∃ left,
      s.isDisjointP o cmps = .ok (some (b, left)) ∧ cmps ≤ left + disjointCost l.length r.length) := by
  have hs := hs.wf
  have ho := ho.wf
  obtain rfl := BTree.Exec.ok_unique hl (BSet.items_spec hs)
  obtain rfl := BTree.Exec.ok_unique hr (BSet.items_spec ho)
  have sub : ∀ {s o : BSet T}, s.map.WF → o.map.WF → ∃ b, s.isSubset o = .ok b ∧ ∀ cmps, subsetCost s.elems.length o.elems.length ≤ cmps → ∃ left,
      s.isSubsetP o cmps = .ok (some (b, left)) ∧ cmps ≤ left + subsetCost s.elems.length o.elems.length := by
    intro s o hs ho
    obtain ⟨b, hb⟩ := BSet.isSubset_total hs ho
    refine ⟨b, hb, fun cmps hcm => ?_⟩
    have hls := BSet.len_spec hs
    have hlo := BSet.len_spec ho
    obtain ⟨c, hc⟩ := BSet.contains_total ho (id : T → T)
    obtain ⟨i, h1, h2⟩ := BSet.iter_spec hs
    obtain ⟨j, h3, h4⟩ := BSet.iter_spec ho
    unfold BSet.isSubset at hb
    unfold BSet.isSubsetP
    unfold subsetCost at hcm ⊢
    simp only [← hls, ← hlo, ← tip] at hcm ⊢
    split
    · rename_i h
      rw [if_pos h] at hb
      simp at hb; subst hb
      exact ⟨cmps, rfl, by omega⟩
    · rename_i h
      rw [if_neg h] at hb hcm
      split
      · rename_i h'
        rw [if_pos h'] at hb hcm
        obtain ⟨i1, g1, g2⟩ := h2.next
        obtain ⟨j1, g3, g4⟩ := h4.next
        have hh : o.elems.tail.length + o.elems.head?.toList.length = o.len := by rw [hlo]; cases o.elems <;> simp
        simp only [h1, h3, g1, g3, Exec.ok_bind] at hb ⊢
        obtain ⟨left, e, hle⟩ := subsetStitchP_cost _ _ _ g2 g4 (by omega) (c := cmps) (by omega) hb
        exact ⟨left, e, by omega⟩
      · rename_i h'
        rw [if_neg h'] at hb hcm
        simp only [h1, Exec.ok_bind] at hb ⊢
        have hcost : s.elems.length * o.searchCost ≤ s.len * lookCost o.len := by
          rw [hls, hlo]; exact Nat.mul_le_mul_left _ (searchCost_le ho)
        obtain ⟨left, e, hle⟩ := subsetSearchP_cost o ho c hc _ h2 (by omega) (c := cmps) (by omega) hb
        exact ⟨left, e, by omega⟩
  refine ⟨sub hs ho, sub ho hs, ?_⟩
  obtain ⟨other, c, ci, v, out, p, how, hc, hci, hv, hp, hle, _⟩ := algPot_start hs ho .intersection
  simp only [BSet.algView] at hv
  obtain ⟨d, hd, hv⟩ := Exec.bind_eq_ok.1 hv
  simp at hv; subst hv
  obtain ⟨d', e1, _⟩ := Intersection.yields other ci hci d out (AlgPot.weak hp)
  refine ⟨out.head?.isNone, by simp only [BSet.isDisjoint, hd, e1, Exec.ok_bind], fun cmps hcm => ?_⟩
  have hcm : AlgKind.cost s.elems.length o.elems.length .intersection ≤ cmps := hcm
  obtain ⟨d'', left, p', e2, _, hle'⟩ := Intersection.nextP_cost other how ci hci hp (c := cmps) (by omega)
  refine ⟨left, by simp only [BSet.isDisjointP, hd, e2, Exec.ok_bind], ?_⟩
  show cmps ≤ left + AlgKind.cost s.elems.length o.elems.length .intersection
  omega

theorem op_extend [Ord T] {s o other : BSet T} {c ci : T → Bool} (hc : ∀ x, o.contains id x = .ok (c x)) (hci : ∀ x, other.contains id x = .ok (ci x))
    {k : AlgKind} {v : AlgView T} {out : List T} (hv : s.algView o k = .ok v) (h : AlgIsW o other c ci v out) (fk : T → T) (a : Alloc)
    (hb : out.length ≤ k.most s.len o.len) : s.op o k fk a = BSet.new.extend (out.map fk) a := by
  cases k <;> simp only [AlgKind.most] at hb <;> simp only [BSet.algView] at hv <;> obtain ⟨d, hd, hv⟩ := Exec.bind_eq_ok.1 hv <;> simp at hv <;> subst hv
  · obtain ⟨base, h⟩ := h
    simp only [BSet.op, BSet.sub, hd, Exec.ok_bind]
    exact collectSet_spec (Difference.yields o c hc base) fk _ h (by omega) _ _
  · simp only [BSet.op, BSet.bitxor, hd, Exec.ok_bind]
    exact collectSet_spec TwoIters.symYields fk _ h (by omega) _ _
  · simp only [BSet.op, BSet.bitand, hd, Exec.ok_bind]
    exact collectSet_spec (Intersection.yields other ci hci) fk _ h (by omega) _ _
  · simp only [BSet.op, BSet.bitor, hd, Exec.ok_bind]
    exact collectSet_spec TwoIters.unionYields fk _ h (by omega) _ _

/-- **C85** The operators `-`, `^`, `&` and `|`, which collect the elements, cloned, in a new set: if the call returns, it has made at most `k.opCost n m`
comparisons of elements. -/
theorem C85_operators [Ord T] {s o t : BSet T} {l r} (hs : SetReachAny s) (ho : SetReachAny o) (hl : s.items = .ok l) (hr : o.items = .ok r) (k : AlgKind)
    (clone : T → T) {a a' : Alloc} (h : s.op o k clone a = .ok (t, a')) (cmps : Nat) (hc : k.opCost l.length r.length ≤ cmps) :
    ∃ left, s.opP o k clone a cmps = .ok (some ((t, a'), left)) ∧ cmps ≤ left + k.opCost l.length r.length := by
  have hs := hs.wf
  have ho := ho.wf
  obtain rfl := BTree.Exec.ok_unique hl (BSet.items_spec hs)
  obtain rfl := BTree.Exec.ok_unique hr (BSet.items_spec ho)
  obtain ⟨other, c, ci, v, out, p, how, hc1, hci, hv, hp, hle, hb⟩ := algPot_start hs ho k
  have hls := BSet.len_spec hs
  have hlo := BSet.len_spec ho
  rw [op_extend hc1 hci hv (AlgPot.weak hp) clone a (by rw [hls, hlo]; exact hb)] at h
  have hm : k.most s.elems.length o.elems.length ≤ s.len + o.len := by cases k <;> simp only [AlgKind.most] <;> omega
  have hpay : out.length * lookCost (k.most s.elems.length o.elems.length) ≤
      k.most s.elems.length o.elems.length * lookCost (k.most s.elems.length o.elems.length) := Nat.mul_le_mul_right _ hb
  unfold AlgKind.opCost at hc ⊢
  obtain ⟨left, e, hleft⟩ := AlgView.collectP_cost (I := AlgPot o other c ci) (fun v out p c h hc' => h.next ho how hc1 hci hc') clone (s.len + o.len + 1) hp
    (by omega) (set := BSet.new) Map.WF_new a (n := k.most s.elems.length o.elems.length) (by simpa [BSet.new, Map.new, Map.toList, emptyLeaf] using hb)
    (c := cmps) (by omega) h
  exact ⟨left, by simp only [BSet.opP, hv, Exec.ok_bind, e], by omega⟩

/-- A set with a lawful history is one with some history. -/
theorem SetReach.any [Ord T] {s : BSet T} (h : SetReach s) : SetReachAny s := by
  induction h with
  | new => exact .new
  | insert _ e ih => exact .insert ih e
  | replace _ e ih => exact .replace ih e
  | remove _ _ e ih => exact .remove ih e
  | take _ _ e ih => exact .take ih e
  | appendSelf _ _ e ih ih' => exact .appendSelf ih ih' e
  | appendOther _ _ e ih ih' => exact .appendOther ih ih' e
  | splitSelf _ _ e ih => exact .splitSelf ih e
  | splitRight _ _ e ih => exact .splitRight ih e
  | extend _ e ih => exact .extend ih e
  | clone _ _ e ih => exact .clone ih e

/-- What is left of `cmps` comparisons after `calls` calls of `next`; `none` if there were not enough. -/
def leftOf (a b : BSet Nat) (k : AlgKind) (calls cmps : Nat) : Exec (Option Nat) := do
  let v ← a.algView b k
  let r ← v.runP calls cmps
  .ok (r.map (·.2))

/-- {3, 4, 9, 10, 11, 70} and {9, 10}: the bounds are 7, and the union of sets that interleave reaches its bound. -/
example : SetReachAny mid ∧ SetReachAny tiny ∧ AlgKind.cost 6 2 .union = 7 ∧ leftOf mid tiny .union 20 7 = .ok (some 3) ∧
    leftOf mid tiny .symmetricDifference 20 7 = .ok (some 3) ∧ leftOf mid tiny .difference 20 7 = .ok (some 3) ∧
    leftOf mid tiny .intersection 20 7 = .ok (some 3) ∧
    leftOf (setOf [1, 3, 5]) (setOf [2, 4, 6]) .union 20 5 = .ok (some 0) ∧ leftOf (setOf [1, 3, 5]) (setOf [2, 4, 6]) .union 20 4 = .ok none :=
  ⟨SetReach.any mid_reach, SetReach.any tiny_reach, by decide +kernel⟩

/-- {9, 10} and the forty even numbers up to 78: two searches, of at most 33 comparisons each, and not 41. -/
example : SetReachAny big ∧ AlgKind.cost 2 40 .intersection = 66 ∧ leftOf tiny big .intersection 20 66 = .ok (some 52) ∧
    leftOf big tiny .intersection 20 66 = .ok (some 52) ∧ leftOf tiny big .difference 20 66 = .ok (some 52) ∧
    tiny.isSubsetP big 66 = .ok (some (false, 59)) ∧ big.isSubsetP tiny 0 = .ok (some (false, 0)) ∧ tiny.isSubsetP mid 6 = .ok (some (true, 2)) :=
  ⟨SetReach.any big_reach, by decide +kernel⟩

/-- What is left of `cmps` comparisons after an operator. -/
def leftOp (a b : BSet Nat) (k : AlgKind) (cmps : Nat) : Exec (Option Nat) := do
  let r ← a.opP b k id allOk cmps
  .ok (r.map (·.2))

/-- {3, 4, 9, 10, 11, 70} | {9, 10}. -/
example : (∃ t a, mid.op tiny .union id allOk = .ok (t, a) ∧ t.items = .ok [3, 4, 9, 10, 11, 70]) ∧ AlgKind.opCost 6 2 .union = 183 ∧
    leftOp mid tiny .union 183 = .ok (some 164) ∧ leftOp mid tiny .union 19 = .ok (some 0) ∧ leftOp mid tiny .union 18 = .ok none :=
  ⟨⟨_, _, rfl, rfl⟩, by decide +kernel⟩

end Verif.Props
