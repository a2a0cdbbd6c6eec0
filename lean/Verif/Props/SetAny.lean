import Verif.BTree.Proofs.SetAny
import Verif.Props.Set
/-
C55: an arbitrary `Ord` cannot make the set algebra loop, run past an end or invent elements.
-/
namespace Verif.Props
open Verif Verif.BTree Verif.Spec

variable {T Q : Type}

/-- `n` calls of `next` return for every `n`; all the items that ever come are the finite list `out`. -/
def YieldsList {S : Type} (next : S → Exec (Option T × S)) (start : Exec S) (out : List T) : Prop :=
  ∃ d, start = .ok d ∧ ∀ n, ∃ d', runN next n d = .ok (answers n out, d')

/-- **C55** Whatever comparison functions the history and the call use: difference, intersection, union and symmetric
difference always return from `next`, come to an end, yield only stored elements and no more than there are; the
predicates and `contains`/`get` return. -/
theorem C55_set_any_ord [Ord T] [Ord Q] {s o : BSet T} (hs : SetReachAny s) (ho : SetReachAny o) (bor : T → Q) (q : Q) :
    ∃ l r, s.items = .ok l ∧ o.items = .ok r ∧ s.len = l.length ∧ o.len = r.length ∧
      (∃ out, YieldsList Difference.next (s.difference o) out ∧ out.length ≤ l.length ∧ ∀ x ∈ out, x ∈ l) ∧
      (∃ out, YieldsList Intersection.next (s.intersection o) out ∧ out.length ≤ min l.length r.length ∧
        ∀ x ∈ out, x ∈ l ∨ x ∈ r) ∧
      (∃ out, YieldsList TwoIters.unionNext (s.twoIters o) out ∧ out.length ≤ l.length + r.length ∧
        ∀ x ∈ out, x ∈ l ∨ x ∈ r) ∧
      (∃ out, YieldsList TwoIters.symDiffNext (s.twoIters o) out ∧ out.length ≤ l.length + r.length ∧
        ∀ x ∈ out, x ∈ l ∨ x ∈ r) ∧
      (∃ b, s.isSubset o = .ok b) ∧ (∃ b, s.isSuperset o = .ok b) ∧ (∃ b, s.isDisjoint o = .ok b) ∧
      (∃ b, s.contains bor q = .ok b) ∧ (∃ b, s.get bor q = .ok b) := by
  have hs := hs.wf
  have ho := ho.wf
  have hI : ∃ out d, s.intersection o = .ok d ∧ (∀ n, ∃ d', runN Intersection.next n d = .ok (answers n out, d')) ∧
      (∃ d', d.next = .ok (out.head?, d')) ∧ out.length ≤ min s.elems.length o.elems.length ∧
        ∀ x ∈ out, x ∈ s.elems ∨ x ∈ o.elems := by
    obtain ⟨small, other, h1, h2⟩ := BSet.intersection_spec hs ho
    have how : other.map.WF := by rcases h1 with ⟨_, _, rfl⟩ | ⟨_, _, rfl⟩ <;> assumption
    obtain ⟨c, hc⟩ := BSet.contains_total how (id : T → T)
    obtain ⟨d, out, g1, g2, g3⟩ := h2 c hc
    have hy := Intersection.yields other c hc
    have hmem : ∀ x ∈ out, x ∈ small.elems := by
      rcases g3 with rfl | rfl
      · exact mem_interList _ _
      · exact fun x hx => (List.mem_filter.1 hx).1
    have hlen : out.length ≤ small.elems.length := by
      rcases g3 with rfl | rfl
      · exact length_interList _ _
      · exact List.length_filter_le ..
    obtain ⟨d', k1, _⟩ := hy d out g2
    refine ⟨out, d, g1, fun n => ?_, ⟨d', k1⟩, ?_⟩
    · obtain ⟨d', g, _⟩ := runN_spec hy n g2; exact ⟨d', g⟩
    · rcases h1 with ⟨h, rfl, rfl⟩ | ⟨h, rfl, rfl⟩
      · exact ⟨by omega, fun x hx => .inl (hmem x hx)⟩
      · exact ⟨by omega, fun x hx => .inr (hmem x hx)⟩
  obtain ⟨c, hc⟩ := BSet.contains_total ho (id : T → T)
  obtain ⟨c', hc'⟩ := BSet.contains_total hs (id : T → T)
  refine ⟨_, _, BSet.items_spec hs, BSet.items_spec ho, BSet.len_spec hs, BSet.len_spec ho, ?_, ?_, ?_, ?_, ?_, ?_, ?_, ?_, ?_⟩
  · obtain ⟨d, out, h1, h2, h3⟩ := BSet.difference_spec hs ho c
    refine ⟨out, ⟨d, h1, fun n => ?_⟩, ?_, ?_⟩
    · obtain ⟨d', g, _⟩ := runN_spec (Difference.yields o c hc _) n h2; exact ⟨d', g⟩
    · rcases h3 with rfl | rfl
      · exact (length_diffList _ _).1
      · exact List.length_filter_le ..
    · rcases h3 with rfl | rfl
      · exact mem_diffList _ _
      · exact fun x hx => (List.mem_filter.1 hx).1
  · obtain ⟨out, d, h1, h2, _, h3⟩ := hI
    exact ⟨out, ⟨d, h1, h2⟩, h3⟩
  · obtain ⟨t, h1, h2, h3⟩ := BSet.twoIters_spec hs ho
    refine ⟨_, ⟨t, h1, fun n => ?_⟩, (length_unionList s.elems o.elems).1, mem_unionList _ _⟩
    obtain ⟨d', g, _⟩ := runN_spec TwoIters.unionYields n ⟨_, _, h2, h3, rfl⟩; exact ⟨d', g⟩
  · obtain ⟨t, h1, h2, h3⟩ := BSet.twoIters_spec hs ho
    refine ⟨_, ⟨t, h1, fun n => ?_⟩, length_symList s.elems o.elems, mem_symList _ _⟩
    obtain ⟨d', g, _⟩ := runN_spec TwoIters.symYields n ⟨_, _, h2, h3, rfl⟩; exact ⟨d', g⟩
  · rcases BSet.isSubset_wf hs ho hc with ⟨_, h⟩ | h | h <;> exact ⟨_, h⟩
  · rcases BSet.isSubset_wf ho hs hc' with ⟨_, h⟩ | h | h <;> exact ⟨_, h⟩
  · obtain ⟨out, d, h1, h2, ⟨d', h3⟩, _⟩ := hI
    exact ⟨out.head?.isNone, by simp only [BSet.isDisjoint, h1, h3, Exec.ok_bind]⟩
  · obtain ⟨c, hc⟩ := BSet.contains_total hs bor
    exact ⟨_, hc q⟩
  · rcases Map.search_wf hs bor q with ⟨hd, A, kv, B, h1, h2, h3⟩ | ⟨hd, A, B, h1, h2⟩
    · exact ⟨some kv.1, by simp [BSet.get, h1, h2.kvAt]⟩
    · exact ⟨none, by simp [BSet.get, h1]⟩

/-- A set built with an inconsistent order: everything is greater than everything. -/
def badSet : BSet Nat := ⟨⟨0, ⟨[(9, ()), (7, ()), (7, ())], []⟩, false, 3⟩⟩
theorem badSet_reach : SetReachAny badSet :=
  @SetReachAny.extend _ ⟨fun _ _ => .gt⟩ BSet.new [9, 7, 7] allOk badSet allOk .new rfl
example : badSet.items = .ok [9, 7, 7] := rfl
/-- With the usual order on these elements the algebra gives wrong but harmless answers. -/
example : ∃ d d', badSet.twoIters tiny = .ok d ∧ runN TwoIters.unionNext 6 d =
    .ok ([some 9, some 7, some 7, some 10, none, none], d') := ⟨_, _, rfl, rfl⟩

end Verif.Props
