import Verif.BTree.Proofs.AlgViews
import Verif.Props.Demo
/-
The properties of `BTreeSet` (C14, C26-C30), about every pair of reachable sets.

`SetReach s`: `s` was obtained from `new` by API calls none of which was an insertion that returned `Err`.
`s.items = .ok l`: iterating over `s` yields exactly the elements `l`.
`runN next n it = .ok (xs, it')`: `n` calls of `next` on `it` answer `xs` and leave the iterator `it'`.
-/
namespace Verif.Props
open Verif Verif.BTree Verif.Spec

variable {T Q : Type}

/-! ### concrete sets: 40 and 3 elements (stitching one way, searching the other way) -/

def evens : List Nat := (List.range 40).map (2 * ·)

def setOf (l : List Nat) : BSet Nat :=
  match BSet.fromIter l allOk with
  | .ok (s, _) => s
  | _ => BSet.new

def big : BSet Nat := setOf evens
def mid : BSet Nat := setOf [3, 4, 9, 10, 11, 70]
def tiny : BSet Nat := setOf [9, 10]

set_option maxRecDepth 10000 in
theorem big_built : (BSet.new : BSet Nat).extend evens allOk = .ok (big, allOk) := by rfl
theorem mid_built : (BSet.new : BSet Nat).extend [3, 4, 9, 10, 11, 70] allOk = .ok (mid, allOk) := by rfl
theorem tiny_built : (BSet.new : BSet Nat).extend [9, 10] allOk = .ok (tiny, allOk) := by rfl
theorem big_reach : SetReach big := .extend .new big_built
theorem mid_reach : SetReach mid := .extend .new mid_built
theorem tiny_reach : SetReach tiny := .extend .new tiny_built
set_option maxRecDepth 10000 in
theorem big_items : big.items = .ok evens := by rfl

/-! ### C26: the algebra -/

/-- **C26** `difference` yields exactly the elements of `s` that are not in `o`, in increasing order, then `None` for
ever. -/
theorem C26_difference [Ord T] [Std.TransOrd T] {s o : BSet T} {l r} (hs : SetReach s) (ho : SetReach o)
    (hl : s.items = .ok l) (hr : o.items = .ok r) :
    ∃ out, IsDifference l r out ∧ ∃ d, s.difference o = .ok d ∧
      ∀ n, ∃ d', runN Difference.next n d = .ok (answers n out, d') := by
  have hs := hs.valid
  have ho := ho.valid
  obtain rfl := BTree.Exec.ok_unique hl (BSet.items_spec hs.toShaped)
  obtain rfl := BTree.Exec.ok_unique hr (BSet.items_spec ho.toShaped)
  obtain ⟨c, hc1, hc2⟩ := BSet.contains_has ho
  obtain ⟨d, out, h1, h2, h3⟩ := BSet.difference_spec hs.toShaped ho.toShaped c
  refine ⟨out, ?_, d, h1, fun n => ?_⟩
  · rcases h3 with rfl | rfl
    · exact diffList_spec _ _ (BSet.ascending hs) (BSet.ascending ho)
    · exact filter_not_isDifference (BSet.ascending hs) hc2
  · obtain ⟨d', g, _⟩ := runN_spec (Difference.yields o c hc1 _) n h2
    exact ⟨d', g⟩

example : ∃ d d', mid.difference tiny = .ok d ∧ runN Difference.next 6 d =
    .ok ([some 3, some 4, some 11, some 70, none, none], d') := ⟨_, _, rfl, rfl⟩
example : ∃ i o d', tiny.difference big = .ok (.search i o) ∧ runN Difference.next 3 (.search i o) =
    .ok ([some 9, none, none], d') := ⟨_, _, _, rfl, rfl⟩

/-- **C26** `intersection` yields exactly the common elements in increasing order (as objects of the smaller set, of `s` if
the sizes are equal). -/
theorem C26_intersection [Ord T] [Std.TransOrd T] {s o : BSet T} {l r} (hs : SetReach s) (ho : SetReach o)
    (hl : s.items = .ok l) (hr : o.items = .ok r) :
    ∃ out, (if l.length ≤ r.length then IsIntersection l r out else IsIntersection r l out) ∧
      ∃ d, s.intersection o = .ok d ∧ ∀ n, ∃ d', runN Intersection.next n d = .ok (answers n out, d') := by
  have hs := hs.valid
  have ho := ho.valid
  obtain rfl := BTree.Exec.ok_unique hl (BSet.items_spec hs.toShaped)
  obtain rfl := BTree.Exec.ok_unique hr (BSet.items_spec ho.toShaped)
  obtain ⟨small, other, h1, h2⟩ := BSet.intersection_spec hs.toShaped ho.toShaped
  have key : ∀ {small other : BSet T}, small.map.Valid → other.map.Valid → (∀ c : T → Bool, (∀ x, other.contains id x = .ok (c x)) →
        ∃ d out, s.intersection o = .ok d ∧ Intersection.Left other c d out ∧
        (out = interList small.elems other.elems ∨ out = small.elems.filter (c ·))) →
      ∃ out, IsIntersection small.elems other.elems out ∧
      ∃ d, s.intersection o = .ok d ∧ ∀ n, ∃ d', runN Intersection.next n d = .ok (answers n out, d') := by
    intro small other hs ho h2
    obtain ⟨c, hc1, hc2⟩ := BSet.contains_has ho
    obtain ⟨d, out, g1, g2, g3⟩ := h2 c hc1
    refine ⟨out, ?_, d, g1, fun n => ?_⟩
    · rcases g3 with rfl | rfl
      · exact interList_spec _ _ (BSet.ascending hs) (BSet.ascending ho)
      · exact filter_isIntersection (BSet.ascending hs) hc2
    · obtain ⟨d', g, _⟩ := runN_spec (Intersection.yields other c hc1) n g2
      exact ⟨d', g⟩
  rcases h1 with ⟨h, rfl, rfl⟩ | ⟨h, rfl, rfl⟩
  · simpa [h] using key hs ho h2
  · simpa [h] using key ho hs h2

example : ∃ d d', big.intersection mid = .ok d ∧ runN Intersection.next 4 d =
    .ok ([some 4, some 10, some 70, none], d') := ⟨_, _, rfl, rfl⟩
example : ∃ i o d', tiny.intersection big = .ok (.search i o) ∧ runN Intersection.next 2 (.search i o) =
    .ok ([some 10, none], d') := ⟨_, _, _, rfl, rfl⟩

/-- **C26** `union` yields exactly the elements of either set in increasing order without duplicates (the object of `s` where
both have it). -/
theorem C26_union [Ord T] [Std.TransOrd T] {s o : BSet T} {l r} (hs : SetReach s) (ho : SetReach o)
    (hl : s.items = .ok l) (hr : o.items = .ok r) :
    ∃ out, IsUnion l r out ∧ ∃ d, s.twoIters o = .ok d ∧
      ∀ n, ∃ d', runN TwoIters.unionNext n d = .ok (answers n out, d') := by
  have hs := hs.valid
  have ho := ho.valid
  obtain rfl := BTree.Exec.ok_unique hl (BSet.items_spec hs.toShaped)
  obtain rfl := BTree.Exec.ok_unique hr (BSet.items_spec ho.toShaped)
  obtain ⟨t, h1, h2, h3⟩ := BSet.twoIters_spec hs.toShaped ho.toShaped
  refine ⟨_, unionList_spec _ _ (BSet.ascending hs) (BSet.ascending ho), t, h1, fun n => ?_⟩
  obtain ⟨d', g, _⟩ := runN_spec TwoIters.unionYields n ⟨_, _, h2, h3, rfl⟩
  exact ⟨d', g⟩

example : ∃ d d', mid.twoIters (setOf [1, 4, 80]) = .ok d ∧ runN TwoIters.unionNext 9 d =
    .ok ([some 1, some 3, some 4, some 9, some 10, some 11, some 70, some 80, none], d') := ⟨_, _, rfl, rfl⟩

/-- **C26** `symmetric_difference` yields exactly the elements of one set but not the other, in increasing order. -/
theorem C26_symmetric_difference [Ord T] [Std.TransOrd T] {s o : BSet T} {l r} (hs : SetReach s) (ho : SetReach o)
    (hl : s.items = .ok l) (hr : o.items = .ok r) :
    ∃ out, IsSymDiff l r out ∧ ∃ d, s.twoIters o = .ok d ∧
      ∀ n, ∃ d', runN TwoIters.symDiffNext n d = .ok (answers n out, d') := by
  have hs := hs.valid
  have ho := ho.valid
  obtain rfl := BTree.Exec.ok_unique hl (BSet.items_spec hs.toShaped)
  obtain rfl := BTree.Exec.ok_unique hr (BSet.items_spec ho.toShaped)
  obtain ⟨t, h1, h2, h3⟩ := BSet.twoIters_spec hs.toShaped ho.toShaped
  refine ⟨_, symList_spec _ _ (BSet.ascending hs) (BSet.ascending ho), t, h1, fun n => ?_⟩
  obtain ⟨d', g, _⟩ := runN_spec TwoIters.symYields n ⟨_, _, h2, h3, rfl⟩
  exact ⟨d', g⟩

example : ∃ d d', mid.twoIters (setOf [1, 4, 10, 80]) = .ok d ∧ runN TwoIters.symDiffNext 7 d =
    .ok ([some 1, some 3, some 9, some 11, some 70, some 80, none], d') := ⟨_, _, rfl, rfl⟩

/-- The four outputs are determined by the specification: an ascending list is determined by its members. -/
theorem C26_determined [Ord T] [Std.TransOrd T] {l r out out' : List T} :
    (IsDifference l r out → IsDifference l r out' → out = out') ∧
    (IsIntersection l r out → IsIntersection l r out' → out = out') ∧
    (IsUnion l r out → IsUnion l r out' → out = out') ∧
    (IsSymDiff l r out → IsSymDiff l r out' → out = out') :=
  ⟨fun h h' => Ascending.ext h.1 h'.1 fun x => by rw [h.2, h'.2], fun h h' => Ascending.ext h.1 h'.1 fun x => by rw [h.2, h'.2],
   fun h h' => Ascending.ext h.1 h'.1 fun x => by rw [h.2, h'.2], fun h h' => Ascending.ext h.1 h'.1 fun x => by rw [h.2, h'.2]⟩

example : IsUnion [1, 3] [2, 3] [1, 2, 3] := by
  refine ⟨by simp [Ascending]; decide, fun x => ?_⟩
  simp [Has]; omega

/-! ### C27: predicates -/

/-- **C27** `is_subset`, `is_superset` and `is_disjoint` answer exactly the mathematical question. -/
theorem C27_predicates [Ord T] [Std.TransOrd T] {s o : BSet T} {l r} (hs : SetReach s) (ho : SetReach o)
    (hl : s.items = .ok l) (hr : o.items = .ok r) :
    (∃ b, s.isSubset o = .ok b ∧ (b = true ↔ ∀ x ∈ l, Has x r)) ∧
    (∃ b, s.isSuperset o = .ok b ∧ (b = true ↔ ∀ x ∈ r, Has x l)) ∧
    (∃ b, s.isDisjoint o = .ok b ∧ (b = true ↔ ∀ x ∈ l, ¬ Has x r)) := by
  obtain rfl := BTree.Exec.ok_unique hl (BSet.items_spec hs.valid.toShaped)
  obtain rfl := BTree.Exec.ok_unique hr (BSet.items_spec ho.valid.toShaped)
  exact ⟨BSet.isSubset_valid hs.valid ho.valid, BSet.isSubset_valid ho.valid hs.valid, BSet.isDisjoint_valid hs.valid ho.valid⟩

example : tiny.isSubset mid = .ok true ∧ mid.isSubset tiny = .ok false ∧ tiny.isSubset big = .ok false ∧
    (setOf [4, 8]).isSubset big = .ok true ∧ big.isSuperset (setOf [4, 8]) = .ok true ∧
    (setOf [1, 3]).isDisjoint big = .ok true ∧ mid.isDisjoint big = .ok false := by decide +kernel

/-! ### C28: size hints -/

/-- **C28** At every point of a difference, intersection, union or symmetric difference the size hint holds: `rest` are the
items that are still to come after `n` calls of `next`. -/
theorem C28_size_hints [Ord T] [Std.TransOrd T] {s o : BSet T} (hs : SetReach s) (ho : SetReach o) (n : Nat) :
    (∃ d xs d' rest, s.difference o = .ok d ∧ runN Difference.next n d = .ok (xs, d') ∧
      (∀ k, ∃ d'', runN Difference.next k d' = .ok (answers k rest, d'')) ∧ HintHolds d'.sizeHint rest.length) ∧
    (∃ d xs d' rest, s.intersection o = .ok d ∧ runN Intersection.next n d = .ok (xs, d') ∧
      (∀ k, ∃ d'', runN Intersection.next k d' = .ok (answers k rest, d'')) ∧ HintHolds d'.sizeHint rest.length) ∧
    (∃ d xs d' rest, s.twoIters o = .ok d ∧ runN TwoIters.unionNext n d = .ok (xs, d') ∧
      (∀ k, ∃ d'', runN TwoIters.unionNext k d' = .ok (answers k rest, d'')) ∧ HintHolds d'.unionHint rest.length) ∧
    (∃ d xs d' rest, s.twoIters o = .ok d ∧ runN TwoIters.symDiffNext n d = .ok (xs, d') ∧
      (∀ k, ∃ d'', runN TwoIters.symDiffNext k d' = .ok (answers k rest, d'')) ∧ HintHolds d'.symDiffHint rest.length) := by
  have hs := hs.valid
  have ho := ho.valid
  refine ⟨?_, ?_, ?_, ?_⟩
  · obtain ⟨c, hc1, hc2⟩ := BSet.contains_has ho
    obtain ⟨d, out, h1, h2, h3⟩ := BSet.difference_spec hs.toShaped ho.toShaped c
    have hy := Difference.yields o c hc1 s.elems
    obtain ⟨d', g1, g2⟩ := runN_spec hy n h2
    refine ⟨d, _, d', out.drop n, h1, g1, fun k => ?_, ?_⟩
    · obtain ⟨d'', k1, _⟩ := runN_spec hy k g2; exact ⟨d'', k1⟩
    · generalize out.drop n = rest at g2
      cases d' with
      | stitch i j =>
        obtain ⟨l, r, e1, e2, rfl⟩ := g2
        have := length_diffList l r
        simp only [HintHolds, Difference.sizeHint, e1.len, e2.len, Option.some.injEq, forall_eq']
        omega
      | search i o' =>
        obtain ⟨rfl, l, e1, e2, rfl⟩ := g2
        have hll := length_filter_lower l o'.elems ((BSet.ascending hs).sublist e2.sublist) (BSet.ascending ho) c (fun x _ => hc2 x)
        have := List.length_filter_le (!c ·) l
        simp only [HintHolds, Difference.sizeHint, e1.len, BSet.len_spec ho.toShaped, Option.some.injEq, forall_eq']
        omega
  · obtain ⟨small, other, h1, h2⟩ := BSet.intersection_spec hs.toShaped ho.toShaped
    have hov : other.map.Valid := by rcases h1 with ⟨_, _, rfl⟩ | ⟨_, _, rfl⟩ <;> assumption
    obtain ⟨c, hc1, hc2⟩ := BSet.contains_has hov
    obtain ⟨d, out, h1, h2, h3⟩ := h2 c hc1
    have hy := Intersection.yields other c hc1
    obtain ⟨d', g1, g2⟩ := runN_spec hy n h2
    refine ⟨d, _, d', out.drop n, h1, g1, fun k => ?_, ?_⟩
    · obtain ⟨d'', k1, _⟩ := runN_spec hy k g2; exact ⟨d'', k1⟩
    · generalize out.drop n = rest at g2
      cases d' with
      | stitch i j =>
        obtain ⟨l, r, e1, e2, rfl⟩ := g2
        have := length_interList l r
        simp only [HintHolds, Intersection.sizeHint, e1.len, Option.some.injEq, forall_eq']
        omega
      | search i o' =>
        obtain ⟨rfl, l, e1, rfl⟩ := g2
        have := List.length_filter_le (c ·) l
        simp only [HintHolds, Intersection.sizeHint, e1.len, Option.some.injEq, forall_eq']
        omega
  · obtain ⟨t, h1, h2, h3⟩ := BSet.twoIters_spec hs.toShaped ho.toShaped
    obtain ⟨d', g1, g2⟩ := runN_spec TwoIters.unionYields n ⟨_, _, h2, h3, rfl⟩
    refine ⟨t, _, d', (unionList s.elems o.elems).drop n, h1, g1, fun k => ?_, ?_⟩
    · obtain ⟨d'', k1, _⟩ := runN_spec TwoIters.unionYields k g2; exact ⟨d'', k1⟩
    · obtain ⟨l, r, e1, e2, e3⟩ := g2
      rw [e3]
      have := length_unionList l r
      simp only [HintHolds, TwoIters.unionHint, e1.len, e2.len, Option.some.injEq, forall_eq']
      omega
  · obtain ⟨t, h1, h2, h3⟩ := BSet.twoIters_spec hs.toShaped ho.toShaped
    obtain ⟨d', g1, g2⟩ := runN_spec TwoIters.symYields n ⟨_, _, h2, h3, rfl⟩
    refine ⟨t, _, d', (symList s.elems o.elems).drop n, h1, g1, fun k => ?_, ?_⟩
    · obtain ⟨d'', k1, _⟩ := runN_spec TwoIters.symYields k g2; exact ⟨d'', k1⟩
    · obtain ⟨l, r, e1, e2, e3⟩ := g2
      rw [e3]
      have := length_symList l r
      simp only [HintHolds, TwoIters.symDiffHint, e1.len, e2.len, Option.some.injEq, forall_eq']
      omega

example : ∃ d xs d', mid.difference tiny = .ok d ∧ runN Difference.next 2 d = .ok (xs, d') ∧ d.sizeHint = (4, some 6) ∧
    d'.sizeHint = (2, some 4) := ⟨_, _, _, rfl, rfl, rfl, rfl⟩

/-! ### C29, C14: element operations -/

/-- **C29** `contains` and `get`: `contains` says whether an equal element is stored, `get` returns the stored object. -/
theorem C29_contains_get [Ord T] [Std.TransOrd T] [Ord Q] [Std.TransOrd Q] {bor : T → Q} (hbo : BorrowOK bor) {s : BSet T}
    {l} (hs : SetReach s) (hl : s.items = .ok l) (q : Q) :
    ∃ b r, s.contains bor q = .ok b ∧ s.get bor q = .ok r ∧ (b = true ↔ ∃ y ∈ l, compare q (bor y) = .eq) ∧
      (∀ y, r = some y ↔ y ∈ l ∧ compare q (bor y) = .eq) := by
  have hv := hs.valid
  obtain rfl := BTree.Exec.ok_unique hl (BSet.items_spec hv.toShaped)
  refine ⟨_, _, BSet.contains_valid hbo hv q, BSet.get_valid hbo hv q, by simp [List.find?_isSome], ?_⟩
  exact find?_eq_some_ascending hbo (BSet.ascending hv) q

example : mid.contains id 10 = .ok true ∧ mid.get id 12 = .ok none ∧ mid.get id 9 = .ok (some 9) := by decide +kernel

/-- **C29** `try_insert` returned `Ok(b)`: `b` iff no equal element was there; afterwards the set has the old elements and, if
there was no equal one, the new object. -/
theorem C29_insert [Ord T] [Std.TransOrd T] {s s' : BSet T} {l x a b a'} (hs : SetReach s) (hl : s.items = .ok l)
    (hi : s.tryInsert x a = .ok (.ok b, s', a')) :
    (b = true ↔ ¬ Has x l) ∧ ∃ l', s'.items = .ok l' ∧ Ascending l' ∧ (∀ z, z ∈ l' ↔ z ∈ l ∨ (z = x ∧ b = true)) ∧
      s'.len = s.len + (if b then 1 else 0) := by
  have hv := hs.valid
  have hv' := (SetReach.insert hs hi).valid
  obtain rfl := BTree.Exec.ok_unique hl (BSet.items_spec hv.toShaped)
  obtain ⟨r, m1, a1, h1, h2, _⟩ := Map.tryInsert_ordered hv x () a
  cases r with
  | error e => simp [BSet.tryInsert, h1] at hi
  | ok old =>
    simp [BSet.tryInsert, h1] at hi
    obtain ⟨rfl, rfl, rfl⟩ := hi
    obtain ⟨g1, g2, g3⟩ := h2
    have hfind : old.isNone = true ↔ ¬ Has x s.elems := by
      rw [g3]
      simp only [lookup, Option.isNone_map, find?, Option.isNone_iff_eq_none, List.find?_eq_none, BSet.elems, Has]
      simp
    refine ⟨hfind, _, BSet.items_spec g1.toShaped, BSet.ascending g1, fun z => ?_, ?_⟩
    · rw [hfind]
      simp only [BSet.elems, g2]
      exact mem_insert hv.sorted z
    · rw [BSet.len_spec g1.toShaped, BSet.len_spec hv.toShaped]
      simp only [BSet.elems, g2, List.length_map]
      rw [length_insert hv.sorted, g3]
      simp only [lookup, Option.isNone_map]
      generalize find? id x s.map.toList = f
      cases f <;> simp

example : ∃ s' a', mid.tryInsert 10 allOk = .ok (.ok false, s', a') ∧ s'.len = 6 := ⟨_, _, rfl, rfl⟩
example : ∃ s' a', mid.tryInsert 12 allOk = .ok (.ok true, s', a') ∧ s'.items = .ok [3, 4, 9, 10, 11, 12, 70] :=
  ⟨_, _, rfl, rfl⟩

/-- **C29** `remove` and `take`: `remove` says whether an equal element was there, `take` returns the stored object (what `get`
answered); afterwards exactly that element is gone. -/
theorem C29_remove_take [Ord T] [Std.TransOrd T] [Ord Q] [Std.TransOrd Q] {bor : T → Q} (hbo : BorrowOK bor) {s : BSet T}
    {l} (hs : SetReach s) (hl : s.items = .ok l) (q : Q) :
    ∃ r s', s.get bor q = .ok r ∧ s.remove bor q = .ok (r.isSome, s') ∧
      s'.items = .ok (l.filter fun y => compare q (bor y) != .eq) ∧
      ∃ s'', s.take bor q = .ok (r, s'') ∧ s''.items = s'.items ∧ s''.len = s'.len ∧
        s.len = s'.len + (if r.isSome then 1 else 0) := by
  have hv := hs.valid
  obtain rfl := BTree.Exec.ok_unique hl (BSet.items_spec hv.toShaped)
  obtain ⟨m', h1, h2, h3⟩ := Map.removeEntry_ordered hbo hv q
  have he : (⟨m'⟩ : BSet T).elems = s.elems.filter fun y => compare q (bor y) != .eq := by
    simp only [BSet.elems, h3, erase]
    rw [List.filter_map]; rfl
  have hlen := length_erase hbo hv.sorted q
  have hr : s.get bor q = .ok ((find? bor q s.map.toList).map (·.1)) := by
    rw [BSet.get_valid hbo hv, BSet.elems, find?_map_fst]
  refine ⟨_, ⟨m'⟩, hr, ?_, ?_, ?_⟩
  · simp [BSet.remove, Map.remove, h1]
  · rw [BSet.items_spec h2.toShaped, he]
  · rcases Map.search_valid hbo hv q with ⟨hd, A, kv, B, k1, k2, k3, k4, k5⟩ | ⟨hd, A, B, k1, k2, k3, k4⟩
    · obtain ⟨m2, g1, g2, g3, g4⟩ := Map.removeKv_spec hv.toShaped k2
      have hl2 : m2.toList = m'.toList := by rw [g3, h3, k2.toList, erase_hit k3 k4 k5]
      refine ⟨⟨m2⟩, by simp [BSet.take, k1, g1, k2.toList, find?_hit k3 k4], ?_, ?_, ?_⟩
      · rw [BSet.items_spec h2.toShaped, BSet.items_spec g2]; simp [BSet.elems, hl2]
      · rw [BSet.len_spec h2.toShaped, BSet.len_spec g2]; simp [BSet.elems, hl2]
      · rw [BSet.len_spec h2.toShaped, BSet.len_spec hv.toShaped]; simp [BSet.elems, h3, hlen]
    · have hl2 : s.map.toList = m'.toList := by rw [h3, k2.toList, erase_miss k3 k4]
      refine ⟨s, by simp [BSet.take, k1, k2.toList, find?_miss k3 k4], ?_, ?_, ?_⟩
      · rw [BSet.items_spec h2.toShaped, BSet.items_spec hv.toShaped]; simp [BSet.elems, hl2]
      · rw [BSet.len_spec h2.toShaped, BSet.len_spec hv.toShaped]; simp [BSet.elems, hl2]
      · rw [BSet.len_spec h2.toShaped, BSet.len_spec hv.toShaped]; simp [BSet.elems, h3, hlen]

example : ∃ s', mid.remove id 9 = .ok (true, s') ∧ s'.items = .ok [3, 4, 10, 11, 70] := ⟨_, rfl, rfl⟩
example : ∃ s', mid.take id 9 = .ok (some 9, s') ∧ s'.items = .ok [3, 4, 10, 11, 70] := ⟨_, rfl, rfl⟩

/-- **C29, C14** `replace` returned `Ok(old)`: `old` is the stored object equal to `x` (what `get` answered); afterwards the set
has `x` itself in its place, and nothing else changed. -/
theorem C29_replace [Ord T] [Std.TransOrd T] {s s' : BSet T} {l x a old a'} (hs : SetReach s) (hl : s.items = .ok l)
    (hi : s.replace x a = .ok (.ok old, s', a')) :
    s.get id x = .ok old ∧ s'.get id x = .ok (some x) ∧
      ∃ l', s'.items = .ok l' ∧ Ascending l' ∧ (∀ z, z ∈ l' ↔ z = x ∨ (z ∈ l ∧ compare x z ≠ .eq)) ∧
      s'.len = s.len + (if old.isSome then 0 else 1) := by
  have hv := hs.valid
  have hv' := (SetReach.replace hs hi).valid
  obtain rfl := BTree.Exec.ok_unique hl (BSet.items_spec hv.toShaped)
  obtain ⟨r, m1, a1, h1, h2, _⟩ := Map.replaceKey_valid hv x a
  simp [BSet.replace, h1] at hi
  obtain ⟨rfl, rfl, rfl⟩ := hi
  obtain ⟨g1, g2⟩ := h2 _ rfl
  have hmem : ∀ z, z ∈ (⟨m1⟩ : BSet T).elems ↔ z = x ∨ (z ∈ s.elems ∧ compare x z ≠ .eq) := by
    intro z
    rcases g2 with ⟨rfl, k1, k2⟩ | ⟨A, y, B, rfl, k1, k2, k3, k4⟩
    · have hn : ∀ z ∈ s.elems, compare x z ≠ .eq := by
        intro z hz
        obtain ⟨kv, hkv, rfl⟩ := List.mem_map.1 hz
        have := List.find?_eq_none.1 k1 kv hkv
        simpa using this
      simp only [BSet.elems, k2]
      rw [mem_insert hv.sorted]
      constructor
      · rintro (h | ⟨rfl, _⟩)
        · exact .inr ⟨h, hn z h⟩
        · exact .inl rfl
      · rintro (rfl | ⟨h, _⟩)
        · exact .inr ⟨rfl, fun ⟨y, hy, he⟩ => hn y hy he⟩
        · exact .inl h
    · have hs := hv.sorted
      rw [k2] at hs
      simp only [BSet.elems, k2, k3, List.map_append, List.map_cons, List.mem_append, List.mem_cons]
      obtain ⟨q1, q2, q3⟩ := Sorted.append_iff.1 hs
      obtain ⟨q4, q5⟩ := List.pairwise_cons.1 q2
      have hA : z ∈ A.map (·.1) → compare x z ≠ .eq := by
        intro hz he
        obtain ⟨kv, hkv, rfl⟩ := List.mem_map.1 hz
        have := q3 kv hkv (y, ()) (by simp)
        have := cmp_lt_eq this (cmp_eq_comm.1 k1)
        rw [cmp_eq_comm.1 he] at this; simp at this
      have hB : z ∈ B.map (·.1) → compare x z ≠ .eq := by
        intro hz he
        obtain ⟨kv, hkv, rfl⟩ := List.mem_map.1 hz
        have := cmp_eq_lt k1 (q4 kv hkv)
        rw [he] at this; simp at this
      constructor
      · rintro (h | rfl | h)
        · exact .inr ⟨.inl h, hA h⟩
        · exact .inl rfl
        · exact .inr ⟨.inr (.inr h), hB h⟩
      · rintro (rfl | ⟨h | rfl | h, h'⟩)
        · exact .inr (.inl rfl)
        · exact .inl h
        · exact absurd k1 h'
        · exact .inr (.inr h)
  refine ⟨?_, ?_, _, BSet.items_spec g1.toShaped, BSet.ascending g1, hmem, ?_⟩
  · rw [BSet.get_valid borrowOK_id hv, BSet.elems, ← find?_map_fst]
    rcases g2 with ⟨rfl, k1, k2⟩ | ⟨A, y, B, rfl, k1, k2, k3, k4⟩
    · simp [k1]
    · simp [k4]
  · rw [BSet.get_valid borrowOK_id (s := ⟨m1⟩) g1]
    congr 1
    exact (find?_eq_some_ascending borrowOK_id (BSet.ascending (s := ⟨m1⟩) g1) x x).2 ⟨(hmem x).2 (.inl rfl), Std.ReflCmp.compare_self⟩
  · rw [BSet.len_spec (s := ⟨m1⟩) g1.toShaped, BSet.len_spec hv.toShaped]
    rcases g2 with ⟨rfl, k1, k2⟩ | ⟨A, y, B, rfl, k1, k2, k3, k4⟩
    · simp [BSet.elems, k2, length_insert hv.sorted, k1]
    · simp [BSet.elems, k2, k3]

/-- **C14** `BTreeSet::replace` of an equal but distinguishable element swaps in the new object and returns the old one, while
`try_insert` keeps the old one. -/
theorem C14_replace_swaps [Ord T] [Std.TransOrd T] {s s' : BSet T} {x y a r a'} (hs : SetReach s)
    (hg : s.get id x = .ok (some y)) :
    (s.replace x a = .ok (r, s', a') → r = .ok (some y) ∧ s'.get id x = .ok (some x) ∧ s'.len = s.len) ∧
    (∀ b, s.tryInsert x a = .ok (b, s', a') → b = .ok false ∧ s'.get id x = .ok (some y) ∧ s'.len = s.len) := by
  have hv := hs.valid
  obtain ⟨l, hl⟩ : ∃ l, s.items = .ok l := ⟨_, BSet.items_spec hv.toShaped⟩
  rw [BSet.get_valid borrowOK_id hv] at hg
  have hg' := Exec.ok.inj hg
  have hff : find? id x s.map.toList = some (y, ()) := by
    rw [BSet.elems, ← find?_map_fst] at hg'
    obtain ⟨⟨y', u⟩, e1, e2⟩ := Option.map_eq_some_iff.1 hg'
    rw [e1]; simp at e2; rw [e2]
  constructor
  · intro hi
    obtain ⟨r', m1, a1, h1, h2, _⟩ := Map.replaceKey_valid hv x a
    have hi' := hi
    simp only [BSet.replace, h1, Exec.ok_bind, Exec.ok.injEq, Prod.mk.injEq] at hi'
    obtain ⟨rfl, rfl, rfl⟩ := hi'
    cases r' with
    | ok old =>
      obtain ⟨e1, e2, l', e3, e4, e5, e6⟩ := C29_replace hs hl hi
      rw [BSet.get_valid borrowOK_id hv, hg'] at e1
      obtain rfl := Exec.ok.inj e1
      exact ⟨rfl, e2, by simpa using e6⟩
    | error e =>
      -- the search hits, so nothing is allocated for the element
      exfalso
      obtain ⟨r0, m2, a2, k1, k2, k3, k4, k5, k6, k7⟩ := Map.ensureRoot_spec hv.toShaped a
      have hne : s.map.toList ≠ [] := by intro h0; simp [h0, find?] at hff
      have hsh := hv.not_shared hne
      have h0 : s.map.ensureRootIsOwned a = (.ok (), s.map, a) := by simp [Map.ensureRootIsOwned, hsh]
      rcases Map.search_valid borrowOK_id hv x with ⟨hd, A, kv, B, f1, f2, f3, f4, f5⟩ | ⟨hd, A, B, f1, f2, f3, f4⟩
      · obtain ⟨t', g1, g2, g3, g4⟩ := Map.setKey_spec hv.toShaped f2 x
        simp [Map.replaceKey, h0, f1, g1] at h1
      · rw [f2.toList, find?_miss f3 f4] at hff; simp at hff
  · intro b hi
    obtain ⟨r', m1, a1, h1, h2, _⟩ := Map.tryInsert_ordered hv x () a
    cases r' with
    | error e => simp [lookup, hff] at h2
    | ok old =>
      simp [BSet.tryInsert, h1] at hi
      obtain ⟨rfl, rfl, rfl⟩ := hi
      obtain ⟨e1, e2, e3⟩ := h2
      refine ⟨by simp [e3, lookup, hff], ?_, ?_⟩
      · rw [BSet.get_valid borrowOK_id (s := ⟨m1⟩) e1, BSet.elems, ← find?_map_fst, e2, find?_insert borrowOK_id hv.sorted]
        simp [hff, Std.ReflCmp.compare_self]
      · rw [BSet.len_spec (s := ⟨m1⟩) e1.toShaped, BSet.len_spec hv.toShaped]
        simp [BSet.elems, e2, length_insert hv.sorted, hff]

/-- Pairs compared by their first component only: equal elements can be told apart. -/
structure Tagged where
  key : Nat
  tag : String
deriving DecidableEq
instance : Ord Tagged := ⟨fun a b => compare a.key b.key⟩
example : ∃ s s' s'' a a' a'' b, (BSet.new : BSet Tagged).tryInsert ⟨1, "old"⟩ allOk = .ok (.ok b, s, a) ∧
    s.replace ⟨1, "new"⟩ a = .ok (.ok (some ⟨1, "old"⟩), s', a') ∧ s'.items = .ok [⟨1, "new"⟩] ∧
    s.tryInsert ⟨1, "new"⟩ a = .ok (.ok false, s'', a'') ∧ s''.items = .ok [⟨1, "old"⟩] :=
  ⟨_, _, _, _, _, _, _, rfl, rfl, rfl, rfl, rfl⟩

/-- **C29** `append` moves everything over (keeping the other set's object where both have it) or panics because memory ran
out; `try_split_off` cuts at `q`. -/
theorem C29_append_split [Ord T] [Std.TransOrd T] [Ord Q] [Std.TransOrd Q] {bor : T → Q} (hbo : BorrowOK bor) {s o : BSet T}
    {l r} (hs : SetReach s) (ho : SetReach o) (hl : s.items = .ok l) (hr : o.items = .ok r) (a : Alloc) :
    ((¬ a.Good ∧ ∃ msg, s.append o a = .panic msg) ∨ ∃ s' o' a' l', s.append o a = .ok (s', o', a') ∧
      s'.items = .ok l' ∧ IsUnion r l l' ∧ o'.items = .ok [] ∧ s'.len = l'.length ∧ o'.len = 0) ∧
    ∀ q : Q, ∃ res s' a', s.trySplitOff bor q a = .ok (res, s', a') ∧
      (∀ e, res = .error e → s' = s) ∧
      (∀ right, res = .ok right → s'.items = .ok (l.filter fun y => compare q (bor y) == .gt) ∧
        right.items = .ok (l.filter fun y => compare q (bor y) != .gt) ∧ s'.len + right.len = s.len) := by
  have hs := hs.valid
  have ho := ho.valid
  obtain rfl := BTree.Exec.ok_unique hl (BSet.items_spec hs.toShaped)
  obtain rfl := BTree.Exec.ok_unique hr (BSet.items_spec ho.toShaped)
  constructor
  · rcases Map.append_ordered hs ho a with ⟨⟨msg, h1⟩, h2⟩ | ⟨m1, o1, a1, h1, h2, h3, h4, h5, h6⟩
    · exact .inl ⟨h2, msg, by simp [BSet.append, h1]⟩
    · refine .inr ⟨⟨m1⟩, ⟨o1⟩, a1, _, by simp [BSet.append, h1], BSet.items_spec h2.toShaped, ⟨BSet.ascending h2, fun x => ?_⟩, ?_, ?_, ?_⟩
      · have := h6.2 (x, ())
        have e : ∀ m : Map T Unit, x ∈ (⟨m⟩ : BSet T).elems ↔ (x, ()) ∈ m.toList := by
          intro m; simp [BSet.elems]; exact ⟨fun ⟨u, h⟩ => h, fun h => ⟨(), h⟩⟩
        rw [e m1, e o.map, e s.map, this]
        refine or_congr Iff.rfl (and_congr Iff.rfl ?_)
        simp [Has, BSet.elems]
      · rw [BSet.items_spec h3.toShaped]; simp [BSet.elems, h4]
      · exact BSet.len_spec h2.toShaped
      · rw [BSet.len_spec h3.toShaped]; simp [BSet.elems, h4]
  · intro q
    obtain ⟨r', m1, a1, h1, h2, _⟩ := Map.splitOff_ordered hbo hs q a
    cases r' with
    | error e => exact ⟨.error e, ⟨m1⟩, a1, by simp [BSet.trySplitOff, h1], fun _ _ => by rw [show m1 = s.map from h2], by simp⟩
    | ok right =>
      refine ⟨.ok ⟨right⟩, ⟨m1⟩, a1, by simp [BSet.trySplitOff, h1], by simp, ?_⟩
      rintro _ ⟨rfl⟩
      obtain ⟨⟨x1, x2, hx, g1, g2⟩, g3, g4⟩ := h2
      obtain rfl : x1 = 0 := by omega
      obtain rfl : x2 = 0 := by omega
      refine ⟨?_, ?_, ?_⟩
      · rw [BSet.items_spec g1.toShaped]; simp only [BSet.elems, g3, below, List.filter_map]; rfl
      · rw [BSet.items_spec g2.toShaped]; simp only [BSet.elems, g4, atLeast, List.filter_map]; rfl
      · rw [BSet.len_spec (s := ⟨m1⟩) g1.toShaped, BSet.len_spec (s := ⟨right⟩) g2.toShaped, BSet.len_spec hs.toShaped]
        simp only [BSet.elems, List.length_map, g3, g4, below, atLeast]
        have := List.length_eq_countP_add_countP (l := s.map.toList) (fun kv => compare q (bor kv.1) == .gt)
        simp only [List.countP_eq_length_filter] at this
        rw [this]
        congr 2
        apply List.filter_congr
        intro x _
        cases compare q (bor x.1) <;> rfl

example : (match mid.append tiny allOk with
    | .ok (s', o', _) => s'.items == .ok [3, 4, 9, 10, 11, 70] && o'.len == 0
    | _ => false) = true := by decide +kernel
example : (match mid.trySplitOff id 10 allOk with
    | .ok (.ok right, s', _) => s'.items == .ok [3, 4, 9] && right.items == .ok [10, 11, 70]
    | _ => false) = true := by decide +kernel

/-! ### C30: operators -/

/-- **C30** `&s - &o`, `&s & &o`, `&s | &o`, `&s ^ &o` build a set with exactly the mathematical contents (clones of the
elements), or panic, which happens only if the allocator refuses a request. -/
theorem C30_operators [Ord T] [Std.TransOrd T] {s o : BSet T} {l r} (hs : SetReach s) (ho : SetReach o)
    (hl : s.items = .ok l) (hr : o.items = .ok r) {clone : T → T} (hclone : ∀ x, compare x (clone x) = .eq) (a : Alloc) :
    let Builds (res : Exec (BSet T × Alloc)) (spec : List T → Prop) : Prop :=
      (¬ a.Good ∧ ∃ msg, res = .panic msg) ∨
      ∃ t a' out, res = .ok (t, a') ∧ spec out ∧ t.items = .ok (out.map clone) ∧ t.len = out.length
    Builds (s.sub o clone a) (IsDifference l r) ∧
    Builds (s.bitand o clone a) (fun out => if l.length ≤ r.length then IsIntersection l r out else IsIntersection r l out) ∧
    Builds (s.bitor o clone a) (IsUnion l r) ∧
    Builds (s.bitxor o clone a) (IsSymDiff l r) := by
  intro Builds
  have fin : ∀ {res : Exec (BSet T × Alloc)} {spec : List T → Prop} {out}, spec out → Ascending out →
      res = (BSet.new : BSet T).extend (out.map clone) a → Builds res spec := by
    intro res spec out h1 h2 h3
    rcases BSet.fromAscending (ascending_map h2 hclone) a with ⟨⟨msg, g1⟩, g2⟩ | ⟨t, a', g1, g2, g3⟩
    · exact .inl ⟨g2, msg, by rw [h3, g1]⟩
    · exact .inr ⟨t, a', out, by rw [h3, g1], h1, by rw [BSet.items_spec g2.toShaped, g3],
        by rw [BSet.len_spec g2.toShaped, g3]; simp⟩
  have hs := hs.valid
  have ho := ho.valid
  obtain rfl := BTree.Exec.ok_unique hl (BSet.items_spec hs.toShaped)
  obtain rfl := BTree.Exec.ok_unique hr (BSet.items_spec ho.toShaped)
  have hlen := BSet.len_spec hs.toShaped
  have hlen' := BSet.len_spec ho.toShaped
  refine ⟨?_, ?_, ?_, ?_⟩
  · obtain ⟨c, hc1, hc2⟩ := BSet.contains_has ho
    obtain ⟨d, out, h1, h2, h3⟩ := BSet.difference_spec hs.toShaped ho.toShaped c
    have hsp : IsDifference s.elems o.elems out := by
      rcases h3 with rfl | rfl
      · exact diffList_spec _ _ (BSet.ascending hs) (BSet.ascending ho)
      · exact filter_not_isDifference (BSet.ascending hs) hc2
    have hb : out.length ≤ s.elems.length := by
      rcases h3 with rfl | rfl
      · exact (length_diffList _ _).1
      · exact List.length_filter_le ..
    refine fin hsp hsp.1 ?_
    simp only [BSet.sub, h1, Exec.ok_bind]
    exact collectSet_spec (Difference.yields o c hc1 _) clone _ h2 (by omega) _ _
  · obtain ⟨small, other, h0, h2⟩ := BSet.intersection_spec hs.toShaped ho.toShaped
    have hsm : small.map.Valid := by rcases h0 with ⟨_, rfl, _⟩ | ⟨_, rfl, _⟩ <;> assumption
    have hov : other.map.Valid := by rcases h0 with ⟨_, _, rfl⟩ | ⟨_, _, rfl⟩ <;> assumption
    obtain ⟨c, hc1, hc2⟩ := BSet.contains_has hov
    obtain ⟨d, out, h1, h2, h3⟩ := h2 c hc1
    have hsp : IsIntersection small.elems other.elems out := by
      rcases h3 with rfl | rfl
      · exact interList_spec _ _ (BSet.ascending hsm) (BSet.ascending hov)
      · exact filter_isIntersection (BSet.ascending hsm) hc2
    have hb : out.length ≤ small.elems.length := by
      rcases h3 with rfl | rfl
      · exact length_interList _ _
      · exact List.length_filter_le ..
    have hb' : out.length < s.len + 1 := by
      rcases h0 with ⟨h, rfl, rfl⟩ | ⟨h, rfl, rfl⟩ <;> omega
    refine fin (out := out) ?_ hsp.1 ?_
    · rcases h0 with ⟨h, rfl, rfl⟩ | ⟨h, rfl, rfl⟩
      · simpa [h] using hsp
      · simpa [h] using hsp
    · simp only [BSet.bitand, h1, Exec.ok_bind]
      exact collectSet_spec (Intersection.yields other c hc1) clone _ h2 hb' _ _
  · obtain ⟨t, h1, h2, h3⟩ := BSet.twoIters_spec hs.toShaped ho.toShaped
    have hsp := unionList_spec _ _ (BSet.ascending hs) (BSet.ascending ho)
    refine fin hsp hsp.1 ?_
    simp only [BSet.bitor, h1, Exec.ok_bind]
    exact collectSet_spec TwoIters.unionYields clone _ ⟨_, _, h2, h3, rfl⟩
      (by have := (length_unionList s.elems o.elems).1; omega) _ _
  · obtain ⟨t, h1, h2, h3⟩ := BSet.twoIters_spec hs.toShaped ho.toShaped
    have hsp := symList_spec _ _ (BSet.ascending hs) (BSet.ascending ho)
    refine fin hsp hsp.1 ?_
    simp only [BSet.bitxor, h1, Exec.ok_bind]
    exact collectSet_spec TwoIters.symYields clone _ ⟨_, _, h2, h3, rfl⟩
      (by have := length_symList s.elems o.elems; omega) _ _

example : ∃ t a', mid.sub tiny id allOk = .ok (t, a') ∧ t.items = .ok [3, 4, 11, 70] := ⟨_, _, rfl, rfl⟩
example : ∃ t a', tiny.bitor mid id allOk = .ok (t, a') ∧ t.items = .ok [3, 4, 9, 10, 11, 70] := ⟨_, _, rfl, rfl⟩
example : ∃ msg, tiny.bitor mid id noMem = .panic msg := ⟨_, rfl⟩

end Verif.Props
