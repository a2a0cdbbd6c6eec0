import Verif.BTree.Set
import Verif.BTree.Proofs.Replace
import Verif.BTree.Proofs.SetLists
import Verif.BTree.Proofs.SpecLemmas
import Verif.BTree.Proofs.Compare
import Verif.BTree.Proofs.History
/-
The set model: iterators behave like lists, the algebra computes the list functions, every reachable set is valid.
-/
namespace Verif.BTree
open Verif Verif.Spec

variable {T Q : Type}

/-- The elements of a set, ascending. -/
def BSet.elems (s : BSet T) : List T := s.map.toList.map (·.1)

theorem BSet.items_spec {s : BSet T} (h : s.map.WF) : s.items = .ok s.elems := by
  simp [BSet.items, BSet.elems, Map.toListE_spec h]

theorem BSet.len_spec {s : BSet T} (h : s.map.WF) : s.len = s.elems.length := by
  have := h.len
  simpa [BSet.len, Map.len, BSet.elems] using this

theorem sorted_iff_ascending [Ord T] {V : Type} {l : List (T × V)} : Sorted l ↔ Ascending (l.map (·.1)) := by
  simp [Sorted, Ascending, List.pairwise_map]

theorem BSet.ascending [Ord T] {s : BSet T} (h : s.map.Valid) : Ascending s.elems := sorted_iff_ascending.1 h.sorted

/-! ### iterators as lists -/

/-- The items `l` are still to come from iterator `i`. -/
def SetIter.Left (i : SetIter T) (l : List T) : Prop :=
  i.set.map.WF ∧ ∃ pre mid post, Window i.set.map i.it.range pre mid post ∧ i.it.length = mid.length ∧ l = mid.map (·.1)

theorem BSet.iter_spec {s : BSet T} (h : s.map.WF) : ∃ i, s.iter = .ok i ∧ i.Left s.elems := by
  obtain ⟨it, h1, h2, h3⟩ := Map.iter_spec h
  refine ⟨⟨s, it⟩, by simp [BSet.iter, h1], h, [], _, [], h3, ?_, rfl⟩
  have := h.len
  simpa [h2] using this

theorem SetIter.Left.len {i : SetIter T} {l} (h : i.Left l) : i.len = l.length := by
  obtain ⟨_, _, mid, _, _, h2, rfl⟩ := h
  simp [SetIter.len, h2]

theorem SetIter.Left.step {i : SetIter T} {l} (h : i.Left l) (e : End) :
    ∃ i', i.step e = .ok ((pop e l).1, i') ∧ i'.Left (pop e l).2 := by
  obtain ⟨hw, pre, mid, post, w, h2, rfl⟩ := h
  obtain ⟨it', g1, g2, g3⟩ := Iter.step_spec hw.below w h2 e
  refine ⟨{ i with it := it' }, ?_, hw, _, _, _, g3, g2, ?_⟩
  · simp only [SetIter.step, Iter.stepMap, g1, Exec.ok_bind]
    cases e <;> cases mid <;> simp [pop, List.getLast?_cons]
  · cases e <;> cases mid <;> simp [pop, List.map_dropLast]

theorem SetIter.Left.next {i : SetIter T} {l} (h : i.Left l) : ∃ i', i.next = .ok (l.head?, i') ∧ i'.Left l.tail := by
  obtain ⟨i', h1, h2⟩ := h.step .front
  exact ⟨i', by simp only [SetIter.next, h1]; cases l <;> simp [pop], by cases l <;> simpa [pop] using h2⟩

/-- The items `l` are still to come from `p`. -/
def Peekable.Left (p : Peekable T) (l : List T) : Prop :=
  match p.peeked with
  | none => p.iter.Left l
  | some none => l = [] ∧ p.iter.Left []
  | some (some x) => ∃ r, l = x :: r ∧ p.iter.Left r

theorem SetIter.Left.peekable {i : SetIter T} {l} (h : i.Left l) : i.peekable.Left l := h

theorem Peekable.Left.len {p : Peekable T} {l} (h : p.Left l) : p.len = l.length := by
  obtain ⟨i, pk⟩ := p
  rcases pk with _ | _ | x
  · simpa [Peekable.len] using SetIter.Left.len h
  · simp [Peekable.len, h.1]
  · obtain ⟨r, rfl, h⟩ := h
    simp [Peekable.len, SetIter.Left.len h]

theorem Peekable.Left.next {p : Peekable T} {l} (h : p.Left l) : ∃ p', p.next = .ok (l.head?, p') ∧ p'.Left l.tail := by
  obtain ⟨i, pk⟩ := p
  rcases pk with _ | _ | x
  · obtain ⟨i', h1, h2⟩ := SetIter.Left.next h
    exact ⟨⟨i', none⟩, by simp at h1; simp [Peekable.next, h1], h2⟩
  · obtain ⟨rfl, h⟩ := h
    exact ⟨⟨i, none⟩, rfl, h⟩
  · obtain ⟨r, rfl, h⟩ := h
    exact ⟨⟨i, none⟩, rfl, h⟩

theorem Peekable.Left.peek {p : Peekable T} {l} (h : p.Left l) : ∃ p', p.peek = .ok (l.head?, p') ∧ p'.Left l := by
  obtain ⟨i, pk⟩ := p
  rcases pk with _ | _ | x
  · obtain ⟨i', h1, h2⟩ := SetIter.Left.next h
    refine ⟨⟨i', some l.head?⟩, by simp at h1; simp [Peekable.peek, h1], ?_⟩
    cases l with
    | nil => exact ⟨rfl, h2⟩
    | cons x l => exact ⟨l, rfl, h2⟩
  · obtain ⟨rfl, h⟩ := h
    exact ⟨⟨i, some none⟩, rfl, rfl, h⟩
  · obtain ⟨r, rfl, h⟩ := h
    exact ⟨⟨i, some (some x)⟩, rfl, r, rfl, h⟩

/-! ### running an iterator of which an invariant says what is to come -/

/-- `I s out`: from state `s` the items `out` are to come. -/
def Yields {S : Type} (next : S → Exec (Option T × S)) (I : S → List T → Prop) : Prop :=
  ∀ s out, I s out → ∃ s', next s = .ok (out.head?, s') ∧ I s' out.tail

theorem runN_spec {S : Type} {next : S → Exec (Option T × S)} {I : S → List T → Prop} (hI : Yields next I) (n : Nat) {s out}
    (h : I s out) : ∃ s', runN next n s = .ok (answers n out, s') ∧ I s' (out.drop n) := by
  induction n generalizing s out with
  | zero => exact ⟨s, by simp [runN, answers], by simpa using h⟩
  | succ n ih =>
    obtain ⟨s1, h1, h2⟩ := hI s out h
    obtain ⟨s2, h3, h4⟩ := ih h2
    refine ⟨s2, ?_, by simpa using h4⟩
    simp only [runN, h1, h3, Exec.ok_bind]
    cases out <;> simp [answers, List.replicate_succ]

theorem collectSet_spec [Ord T] {S : Type} {next : S → Exec (Option T × S)} {I : S → List T → Prop} (hI : Yields next I)
    (fk : T → T) (fuel : Nat) {s out} (h : I s out) (hf : out.length < fuel) (set : BSet T) (a : Alloc) :
    collectSet next fk fuel s set a = set.extend (out.map fk) a := by
  induction fuel generalizing s out set a with
  | zero => omega
  | succ fuel ih =>
    obtain ⟨s1, h1, h2⟩ := hI s out h
    cases out with
    | nil => simp [collectSet, h1, BSet.extend]
    | cons x out =>
      simp only [collectSet, h1, List.head?_cons, Exec.ok_bind, List.map_cons, BSet.extend]
      congr 1; funext r
      split
      · rfl
      · exact ih h2 (by simpa using hf) _ _

/-! ### the algebra, for any comparison function -/

theorem differenceStitch_spec [Ord T] (fuel : Nat) (x : T) {i : SetIter T} {j : Peekable T} {l r} (hi : i.Left l)
    (hj : j.Left r) (hf : r.length < fuel) :
    ∃ i' j' l' r', differenceStitch fuel x i j = .ok ((diffList (x :: l) r).head?, .stitch i' j') ∧ i'.Left l' ∧ j'.Left r' ∧
      diffList l' r' = (diffList (x :: l) r).tail := by
  induction fuel generalizing x i j l r with
  | zero => omega
  | succ fuel ih =>
    obtain ⟨j1, h1, h2⟩ := hj.peek
    simp only [differenceStitch, h1, Exec.ok_bind]
    cases r with
    | nil => exact ⟨i, j1, l, [], by simp, hi, h2, by simp⟩
    | cons y r =>
      simp only [List.head?_cons, Option.elim_some]
      cases hc : compare x y with
      | lt => exact ⟨i, j1, l, y :: r, by simp [diffList, hc], hi, h2, by simp [diffList, hc]⟩
      | eq =>
        obtain ⟨i1, g1, g2⟩ := hi.next
        simp only [g1, Exec.ok_bind]
        cases l with
        | nil => exact ⟨i1, j1, [], y :: r, by simp [diffList, hc], g2, h2, by simp [diffList, hc]⟩
        | cons x' l =>
          obtain ⟨j2, k1, k2⟩ := h2.next
          obtain ⟨i', j', l', r', e1, e2, e3, e4⟩ := ih x' g2 k2 (by simpa using hf)
          refine ⟨i', j', l', r', ?_, e2, e3, ?_⟩
          · simp only [List.head?_cons, k1, Exec.ok_bind, e1]
            simp [diffList, hc]
          · simpa [diffList, hc] using e4
      | gt =>
        obtain ⟨j2, k1, k2⟩ := h2.next
        obtain ⟨i', j', l', r', e1, e2, e3, e4⟩ := ih x hi k2 (by simpa using hf)
        refine ⟨i', j', l', r', ?_, e2, e3, ?_⟩
        · simp only [k1, Exec.ok_bind, e1]
          simp [diffList, hc]
        · simpa [diffList, hc] using e4

theorem differenceSearch_spec [Ord T] (o : BSet T) (c : T → Bool) (hc : ∀ x, o.contains id x = .ok (c x)) (fuel : Nat)
    {i : SetIter T} {l} (hi : i.Left l) (hf : l.length < fuel) :
    ∃ i' l', differenceSearch o fuel i = .ok ((l.filter (!c ·)).head?, .search i' o) ∧ i'.Left l' ∧
      l'.filter (!c ·) = (l.filter (!c ·)).tail ∧ l'.length ≤ l.length ∧ l' <:+ l := by
  induction fuel generalizing i l with
  | zero => omega
  | succ fuel ih =>
    obtain ⟨i1, h1, h2⟩ := hi.next
    simp only [differenceSearch, h1, Exec.ok_bind]
    cases l with
    | nil => exact ⟨i1, [], by simp, h2, by simp⟩
    | cons x l =>
      simp only [List.head?_cons, hc, Exec.ok_bind]
      cases hx : c x with
      | false => exact ⟨i1, l, by simp [hx], h2, by simp [hx], by simp, List.suffix_cons x l⟩
      | true =>
        obtain ⟨i', l', e1, e2, e3, e4, e5⟩ := ih h2 (by simpa using hf)
        refine ⟨i', l', ?_, e2, by simpa [hx] using e3, Nat.le_succ_of_le e4, e5.trans (List.suffix_cons x l)⟩
        simp only [List.tail_cons] at e1
        simp [e1, hx]

/-- What a difference iterator has yet to yield; `c` answers `contains` of the second set. -/
def Difference.Left [Ord T] (o : BSet T) (c : T → Bool) (base : List T) (d : Difference T) (out : List T) : Prop :=
  match d with
  | .stitch i j => ∃ l r, i.Left l ∧ j.Left r ∧ out = diffList l r
  | .search i o' => o' = o ∧ ∃ l, i.Left l ∧ l <:+ base ∧ out = l.filter (!c ·)

theorem Difference.yields [Ord T] (o : BSet T) (c : T → Bool) (hc : ∀ x, o.contains id x = .ok (c x)) (base : List T) :
    Yields Difference.next (Difference.Left o c base) := by
  intro d out h
  cases d with
  | stitch i j =>
    obtain ⟨l, r, h1, h2, rfl⟩ := h
    obtain ⟨i1, g1, g2⟩ := h1.next
    simp only [Difference.next, g1, Exec.ok_bind]
    cases l with
    | nil => exact ⟨.stitch i1 j, by simp, [], r, g2, h2, by simp⟩
    | cons x l =>
      obtain ⟨i', j', l', r', e1, e2, e3, e4⟩ := differenceStitch_spec (j.len + 1) x g2 h2 (by rw [h2.len]; omega)
      exact ⟨_, e1, l', r', e2, e3, e4.symm⟩
  | search i o' =>
    obtain ⟨rfl, l, h1, h2, rfl⟩ := h
    obtain ⟨i', l', e1, e2, e3, e4, e5⟩ := differenceSearch_spec o' c hc (i.len + 1) h1 (by rw [h1.len]; omega)
    exact ⟨_, e1, rfl, l', e2, e5.trans h2, e3.symm⟩

/-- `contains` always answers. -/
theorem BSet.contains_total [Ord Q] {s : BSet T} (h : s.map.WF) (bor : T → Q) :
    ∃ c : Q → Bool, ∀ q, s.contains bor q = .ok (c q) := by
  have : ∀ q, ∃ b, s.contains bor q = .ok b := by
    intro q
    rcases Map.search_wf h bor q with ⟨hd, A, kv, B, h1, h2, h3⟩ | ⟨hd, A, B, h1, h2⟩
    · exact ⟨true, by simp [BSet.contains, Map.containsKey, Map.get, h1, h2.kvAt]⟩
    · exact ⟨false, by simp [BSet.contains, Map.containsKey, Map.get, h1]⟩
  exact ⟨fun q => (this q).choose, fun q => (this q).choose_spec⟩

theorem BSet.difference_spec [Ord T] {s o : BSet T} (hs : s.map.WF) (ho : o.map.WF) (c : T → Bool) :
    ∃ d out, s.difference o = .ok d ∧ Difference.Left o c s.elems d out ∧
      (out = diffList s.elems o.elems ∨ out = s.elems.filter (!c ·)) := by
  obtain ⟨i, h1, h2⟩ := BSet.iter_spec hs
  obtain ⟨j, h3, h4⟩ := BSet.iter_spec ho
  unfold BSet.difference
  split
  · exact ⟨.stitch i j.peekable, _, by simp [h1, h3], ⟨_, _, h2, h4.peekable, rfl⟩, .inl rfl⟩
  · exact ⟨.search i o, _, by simp [h1], ⟨rfl, _, h2, List.suffix_refl _, rfl⟩, .inr rfl⟩

theorem intersectionStitch_spec [Ord T] (fuel : Nat) (x y : T) {i j : SetIter T} {l r} (hi : i.Left l)
    (hj : j.Left r) (hf : l.length + r.length < fuel) :
    ∃ i' j' l' r', intersectionStitch fuel x y i j = .ok ((interList (x :: l) (y :: r)).head?, .stitch i' j') ∧
      i'.Left l' ∧ j'.Left r' ∧ interList l' r' = (interList (x :: l) (y :: r)).tail := by
  induction fuel generalizing x y i j l r with
  | zero => omega
  | succ fuel ih =>
    simp only [intersectionStitch]
    cases hc : compare x y with
    | lt =>
      obtain ⟨i1, g1, g2⟩ := hi.next
      simp only [g1, Exec.ok_bind]
      cases l with
      | nil => exact ⟨i1, j, [], r, by simp [interList, hc], g2, hj, by simp [interList, hc]⟩
      | cons x' l =>
        obtain ⟨i', j', l', r', e1, e2, e3, e4⟩ := ih x' y g2 hj (by simp at hf ⊢; omega)
        refine ⟨i', j', l', r', ?_, e2, e3, ?_⟩
        · simp only [List.head?_cons, e1]; simp [interList, hc]
        · rw [e4]; simp [interList, hc]
    | eq => exact ⟨i, j, l, r, by simp [interList, hc], hi, hj, by simp [interList, hc]⟩
    | gt =>
      obtain ⟨j1, g1, g2⟩ := hj.next
      simp only [g1, Exec.ok_bind]
      cases r with
      | nil => exact ⟨i, j1, l, [], by simp [interList, hc], hi, g2, by simp [interList, hc]⟩
      | cons y' r =>
        obtain ⟨i', j', l', r', e1, e2, e3, e4⟩ := ih x y' hi g2 (by simp at hf ⊢; omega)
        refine ⟨i', j', l', r', ?_, e2, e3, ?_⟩
        · simp only [List.head?_cons, e1]; simp [interList, hc]
        · rw [e4]; simp [interList, hc]

theorem intersectionSearch_spec [Ord T] (o : BSet T) (c : T → Bool) (hc : ∀ x, o.contains id x = .ok (c x)) (fuel : Nat)
    {i : SetIter T} {l} (hi : i.Left l) (hf : l.length < fuel) :
    ∃ i' l', intersectionSearch o fuel i = .ok ((l.filter (c ·)).head?, .search i' o) ∧ i'.Left l' ∧
      l'.filter (c ·) = (l.filter (c ·)).tail := by
  induction fuel generalizing i l with
  | zero => omega
  | succ fuel ih =>
    obtain ⟨i1, h1, h2⟩ := hi.next
    simp only [intersectionSearch, h1, Exec.ok_bind]
    cases l with
    | nil => exact ⟨i1, [], by simp, h2, by simp⟩
    | cons x l =>
      simp only [List.head?_cons, hc, Exec.ok_bind]
      cases hx : c x with
      | true => exact ⟨i1, l, by simp [hx], h2, by simp [hx]⟩
      | false =>
        obtain ⟨i', l', e1, e2, e3⟩ := ih h2 (by simpa using hf)
        refine ⟨i', l', ?_, e2, by simpa [hx] using e3⟩
        simp only [List.tail_cons] at e1
        simp [e1, hx]

/-- What an intersection iterator has yet to yield; `c` answers `contains` of the set `o` searched in. -/
def Intersection.Left [Ord T] (o : BSet T) (c : T → Bool) (d : Intersection T) (out : List T) : Prop :=
  match d with
  | .stitch i j => ∃ l r, i.Left l ∧ j.Left r ∧ out = interList l r
  | .search i o' => o' = o ∧ ∃ l, i.Left l ∧ out = l.filter (c ·)

theorem Intersection.yields [Ord T] (o : BSet T) (c : T → Bool) (hc : ∀ x, o.contains id x = .ok (c x)) :
    Yields Intersection.next (Intersection.Left o c) := by
  intro d out h
  cases d with
  | stitch i j =>
    obtain ⟨l, r, h1, h2, rfl⟩ := h
    obtain ⟨i1, g1, g2⟩ := h1.next
    simp only [Intersection.next, g1, Exec.ok_bind]
    cases l with
    | nil => exact ⟨.stitch i1 j, by simp, [], r, g2, h2, by simp⟩
    | cons x l =>
      obtain ⟨j1, k1, k2⟩ := h2.next
      simp only [List.head?_cons, k1, Exec.ok_bind]
      cases r with
      | nil => exact ⟨.stitch i1 j1, by simp, l, [], g2, k2, by simp⟩
      | cons y r =>
        obtain ⟨i', j', l', r', e1, e2, e3, e4⟩ := intersectionStitch_spec (i1.len + j1.len + 1) x y g2 k2
          (by rw [g2.len, k2.len]; omega)
        exact ⟨_, e1, l', r', e2, e3, e4.symm⟩
  | search i o' =>
    obtain ⟨rfl, l, h1, rfl⟩ := h
    obtain ⟨i', l', e1, e2, e3⟩ := intersectionSearch_spec o' c hc (i.len + 1) h1 (by rw [h1.len]; omega)
    exact ⟨_, e1, rfl, l', e2, e3.symm⟩

theorem BSet.intersection_spec [Ord T] {s o : BSet T} (hs : s.map.WF) (ho : o.map.WF) :
    ∃ small other : BSet T, ((s.elems.length ≤ o.elems.length ∧ small = s ∧ other = o) ∨
        (¬ s.elems.length ≤ o.elems.length ∧ small = o ∧ other = s)) ∧
      ∀ c : T → Bool, (∀ x, other.contains id x = .ok (c x)) →
        ∃ d out, s.intersection o = .ok d ∧ Intersection.Left other c d out ∧
        (out = interList small.elems other.elems ∨ out = small.elems.filter (c ·)) := by
  have key : ∀ {s o : BSet T}, s.map.WF → o.map.WF → ∀ c : T → Bool, (∀ x, o.contains id x = .ok (c x)) →
      ∃ d out, ((if o.len / TIPPING < s.len then do
          let i ← s.iter
          let j ← o.iter
          .ok (.stitch i j)
        else do
          let i ← s.iter
          .ok (.search i o)) : Exec (Intersection T)) = .ok d ∧ Intersection.Left o c d out ∧
        (out = interList s.elems o.elems ∨ out = s.elems.filter (c ·)) := by
    intro s o hs ho c hc
    obtain ⟨i, h1, h2⟩ := BSet.iter_spec hs
    obtain ⟨j, h3, h4⟩ := BSet.iter_spec ho
    split
    · exact ⟨.stitch i j, _, by simp [h1, h3], ⟨_, _, h2, h4, rfl⟩, .inl rfl⟩
    · exact ⟨.search i o, _, by simp [h1], ⟨rfl, _, h2, rfl⟩, .inr rfl⟩
  have hls := BSet.len_spec hs
  have hlo := BSet.len_spec ho
  by_cases hle : s.len ≤ o.len
  · refine ⟨s, o, .inl ⟨by omega, rfl, rfl⟩, fun c hc => ?_⟩
    obtain ⟨d, out, h1, h2⟩ := key hs ho c hc
    exact ⟨d, out, by simpa [BSet.intersection, hle] using h1, h2⟩
  · refine ⟨o, s, .inr ⟨by omega, rfl, rfl⟩, fun c hc => ?_⟩
    obtain ⟨d, out, h1, h2⟩ := key ho hs c hc
    exact ⟨d, out, by simpa [BSet.intersection, hle] using h1, h2⟩

/-- What a symmetric difference has yet to yield. -/
def TwoIters.SymLeft [Ord T] (t : TwoIters T) (out : List T) : Prop := ∃ l r, t.a.Left l ∧ t.b.Left r ∧ out = symList l r

/-- What a union has yet to yield. -/
def TwoIters.UnionLeft [Ord T] (t : TwoIters T) (out : List T) : Prop := ∃ l r, t.a.Left l ∧ t.b.Left r ∧ out = unionList l r

theorem symDiffLoop_spec [Ord T] (fuel : Nat) {t : TwoIters T} {l r} (ha : t.a.Left l) (hb : t.b.Left r)
    (hf : l.length + r.length < fuel) :
    ∃ t', symDiffLoop fuel t = .ok ((symList l r).head?, t') ∧ t'.SymLeft (symList l r).tail := by
  induction fuel generalizing t l r with
  | zero => omega
  | succ fuel ih =>
    obtain ⟨a1, h1, h2⟩ := ha.peek
    obtain ⟨b1, h3, h4⟩ := hb.peek
    simp only [symDiffLoop, h1, h3, Exec.ok_bind]
    obtain ⟨a2, g1, g2⟩ := h2.next
    obtain ⟨b2, g3, g4⟩ := h4.next
    cases l with
    | nil => exact ⟨⟨a1, b2⟩, by simp [cmpOpt, g3], [], r.tail, h2, g4, by simp⟩
    | cons x l =>
      cases r with
      | nil => exact ⟨⟨a2, b1⟩, by simp [cmpOpt, g1], l, [], g2, h4, by simp⟩
      | cons y r =>
        simp only [List.head?_cons, cmpOpt]
        cases hc : compare x y with
        | lt => exact ⟨⟨a2, b1⟩, by simp [g1, symList, hc], l, y :: r, g2, h4, by simp [symList, hc]⟩
        | gt => exact ⟨⟨a1, b2⟩, by simp [g3, symList, hc], x :: l, r, h2, g4, by simp [symList, hc]⟩
        | eq =>
          obtain ⟨t', e1, e2⟩ := ih (t := ⟨a2, b2⟩) g2 g4 (by simp at hf ⊢; omega)
          refine ⟨t', ?_, by simpa [symList, hc] using e2⟩
          simp only [g1, g3, Exec.ok_bind, e1]
          simp [symList, hc]

theorem TwoIters.symYields [Ord T] : Yields (T := T) TwoIters.symDiffNext TwoIters.SymLeft := by
  rintro t out ⟨l, r, h1, h2, rfl⟩
  exact symDiffLoop_spec _ h1 h2 (by rw [h1.len, h2.len]; omega)

theorem TwoIters.unionYields [Ord T] : Yields (T := T) TwoIters.unionNext TwoIters.UnionLeft := by
  rintro t out ⟨l, r, ha, hb, rfl⟩
  obtain ⟨a1, h1, h2⟩ := ha.peek
  obtain ⟨b1, h3, h4⟩ := hb.peek
  simp only [TwoIters.unionNext, h1, h3, Exec.ok_bind]
  obtain ⟨a2, g1, g2⟩ := h2.next
  obtain ⟨b2, g3, g4⟩ := h4.next
  cases l with
  | nil => exact ⟨⟨a1, b2⟩, by simp [cmpOpt, g3], [], r.tail, h2, g4, by simp⟩
  | cons x l =>
    cases r with
    | nil => exact ⟨⟨a2, b1⟩, by simp [cmpOpt, g1], l, [], g2, h4, by simp⟩
    | cons y r =>
      simp only [List.head?_cons, cmpOpt]
      cases hc : compare x y with
      | lt => exact ⟨⟨a2, b1⟩, by simp [g1, unionList, hc], l, y :: r, g2, h4, by simp [unionList, hc]⟩
      | gt => exact ⟨⟨a1, b2⟩, by simp [g3, unionList, hc], x :: l, r, h2, g4, by simp [unionList, hc]⟩
      | eq => exact ⟨⟨a2, b2⟩, by simp [g1, g3, unionList, hc], l, r, g2, g4, by simp [unionList, hc]⟩

theorem BSet.twoIters_spec {s o : BSet T} (hs : s.map.WF) (ho : o.map.WF) :
    ∃ t, s.twoIters o = .ok t ∧ t.a.Left s.elems ∧ t.b.Left o.elems := by
  obtain ⟨i, h1, h2⟩ := BSet.iter_spec hs
  obtain ⟨j, h3, h4⟩ := BSet.iter_spec ho
  exact ⟨⟨i.peekable, j.peekable⟩, by simp [BSet.twoIters, h1, h3], h2.peekable, h4.peekable⟩

/-! ### predicates, for any comparison function -/

theorem subsetStitch_spec [Ord T] (fuel : Nat) {x y : SetIter T} {l r} (hx : x.Left l.tail) (hy : y.Left r.tail)
    (hf : r.length < fuel) : subsetStitch fuel l.head? r.head? x y = .ok (subList l r) := by
  induction fuel generalizing x y l r with
  | zero => omega
  | succ fuel ih =>
    cases l with
    | nil => simp [subsetStitch, subList]
    | cons a l =>
      cases r with
      | nil => simp [subsetStitch, subList]
      | cons b r =>
        simp only [subsetStitch, List.head?_cons]
        obtain ⟨x1, h1, h2⟩ := hx.next
        obtain ⟨y1, h3, h4⟩ := hy.next
        simp only [List.tail_cons] at h1 h2 h3 h4
        have hf' : r.length < fuel := by simpa using hf
        cases hc : compare b a with
        | lt =>
          have := ih (l := a :: l) (r := r) hx h4 hf'
          simp only [h3, Exec.ok_bind]
          rw [List.head?_cons] at this
          rw [this]; simp [subList, hc]
        | gt => simp [subList, hc]
        | eq =>
          simp only [h1, h3, Exec.ok_bind]
          rw [ih h2 h4 hf']; simp [subList, hc]

theorem subsetSearch_spec [Ord T] (o : BSet T) (c : T → Bool) (hc : ∀ x, o.contains id x = .ok (c x)) (fuel : Nat)
    {i : SetIter T} {l} (hi : i.Left l) (hf : l.length < fuel) : subsetSearch o fuel i = .ok (l.all c) := by
  induction fuel generalizing i l with
  | zero => omega
  | succ fuel ih =>
    obtain ⟨i1, h1, h2⟩ := hi.next
    simp only [subsetSearch, h1, Exec.ok_bind]
    cases l with
    | nil => simp
    | cons x l =>
      simp only [List.head?_cons, hc, Exec.ok_bind]
      cases hx : c x with
      | false => simp [hx]
      | true => simp [hx]; exact ih h2 (by simpa using hf)

theorem BSet.isSubset_wf [Ord T] {s o : BSet T} (hs : s.map.WF) (ho : o.map.WF) {c : T → Bool}
    (hc : ∀ x, o.contains id x = .ok (c x)) :
    (o.elems.length < s.elems.length ∧ s.isSubset o = .ok false) ∨ s.isSubset o = .ok (subList s.elems o.elems) ∨
    s.isSubset o = .ok (s.elems.all c) := by
  have hls := BSet.len_spec hs
  have hlo := BSet.len_spec ho
  obtain ⟨i, h1, h2⟩ := BSet.iter_spec hs
  obtain ⟨j, h3, h4⟩ := BSet.iter_spec ho
  unfold BSet.isSubset
  split
  · exact .inl ⟨by omega, rfl⟩
  · split
    · obtain ⟨i1, g1, g2⟩ := h2.next
      obtain ⟨j1, g3, g4⟩ := h4.next
      right; left
      simp only [h1, h3, g1, g3, Exec.ok_bind]
      exact subsetStitch_spec _ g2 g4 (by omega)
    · right; right
      simp only [h1, Exec.ok_bind]
      exact subsetSearch_spec o c hc _ h2 (by omega)

/-! ### lawful orders -/

section lawful
variable [Ord T] [Std.TransOrd T]

omit [Ord T] [Std.TransOrd T] in
theorem find?_map_fst {V : Type} [Ord Q] (bor : T → Q) (q : Q) (l : List (T × V)) :
    (find? bor q l).map (·.1) = (l.map (·.1)).find? (fun x => compare q (bor x) == .eq) := by
  induction l with
  | nil => rfl
  | cons kv l ih =>
    simp only [find?, List.find?_cons, List.map_cons] at *
    cases h : compare q (bor kv.1) == .eq <;> simp [ih]

omit [Std.TransOrd T] in
theorem BSet.contains_valid [Ord Q] [Std.TransOrd Q] {bor : T → Q} (hbo : BorrowOK bor) {s : BSet T} (h : s.map.Valid) (q : Q) :
    s.contains bor q = .ok (s.elems.find? (fun x => compare q (bor x) == .eq)).isSome := by
  simp only [BSet.contains, Map.containsKey, Map.get_spec hbo h, Exec.ok_bind, BSet.elems, ← find?_map_fst]
  simp [lookup]

theorem BSet.contains_has {s : BSet T} (h : s.map.Valid) :
    ∃ c : T → Bool, (∀ x, s.contains id x = .ok (c x)) ∧ ∀ x, c x = true ↔ Has x s.elems := by
  refine ⟨_, fun x => BSet.contains_valid borrowOK_id h x, fun x => ?_⟩
  simp [List.find?_isSome, Has]

omit [Std.TransOrd T] in
theorem filter_not_isDifference {l r : List T} (hl : Ascending l) {c : T → Bool} (hc : ∀ x, c x = true ↔ Has x r) :
    IsDifference l r (l.filter (!c ·)) := by
  refine ⟨List.Pairwise.filter _ hl, fun x => ?_⟩
  rw [List.mem_filter, ← hc]; simp

omit [Std.TransOrd T] in
theorem filter_isIntersection {l r : List T} (hl : Ascending l) {c : T → Bool} (hc : ∀ x, c x = true ↔ Has x r) :
    IsIntersection l r (l.filter (c ·)) := by
  refine ⟨List.Pairwise.filter _ hl, fun x => ?_⟩
  rw [List.mem_filter, ← hc]

/-- An ascending list is determined by its elements. -/
theorem Ascending.ext {l r : List T} (hl : Ascending l) (hr : Ascending r) (h : ∀ x, x ∈ l ↔ x ∈ r) : l = r := by
  have hp : ∀ l : List T, Ascending l → l.Nodup := fun l hl => by
    refine List.Pairwise.imp (fun {a b} hab => ?_) hl
    rintro rfl
    exact absurd (hab.symm.trans Std.ReflCmp.compare_self) (by decide)
  have hperm : l.Perm r := (List.perm_ext_iff_of_nodup (hp l hl) (hp r hr)).2 h
  refine hperm.eq_of_pairwise (le := fun a b => compare a b = .lt) ?_ hl hr
  intro a b _ _ h1 h2
  have := cmp_lt_trans h1 h2
  exact absurd (this.symm.trans Std.ReflCmp.compare_self) (by decide)

/-! ### elements -/

omit [Std.TransOrd T] in
theorem BSet.get_valid [Ord Q] [Std.TransOrd Q] {bor : T → Q} (hbo : BorrowOK bor) {s : BSet T} (h : s.map.Valid) (q : Q) :
    s.get bor q = .ok (s.elems.find? (fun x => compare q (bor x) == .eq)) := by
  rw [BSet.elems, ← find?_map_fst]
  rcases Map.search_valid hbo h q with ⟨hd, A, kv, B, h1, h2, h3, h4, h5⟩ | ⟨hd, A, B, h1, h2, h3, h4⟩
  · simp [BSet.get, h1, h2.kvAt, h2.toList, find?_hit h3 h4]
  · simp [BSet.get, h1, h2.toList, find?_miss h3 h4]

/-- Replacing the stored key by an equal one. -/
theorem Map.replaceKey_valid {m : Map T Unit} (h : m.Valid) (x : T) (a : Alloc) :
    ∃ r m' a', m.replaceKey x () a = .ok (r, m', a') ∧
      (∀ old, r = .ok old → m'.Valid ∧
        ((old = none ∧ find? id x m.toList = none ∧ m'.toList = Spec.insert x () m.toList) ∨
         ∃ A y B, old = some y ∧ compare x y = .eq ∧ m.toList = A ++ (y, ()) :: B ∧ m'.toList = A ++ (x, ()) :: B ∧
           find? id x m.toList = some (y, ()))) ∧
      (a.Good → a'.Good ∧ ∃ old, r = .ok old) := by
  obtain ⟨r, m', a', h1, h2, _, h3⟩ := Map.replaceKey_ordered h x () a
  refine ⟨r, m', a', h1, fun old ho => ⟨(h2 old ho).1, (h2 old ho).2.imp id ?_⟩, h3⟩
  rintro ⟨A, y, w, B, h⟩
  exact ⟨A, y, B, h⟩

omit [Std.TransOrd T] in
theorem BSet.extend_eq (l : List T) (s : BSet T) (a : Alloc) :
    s.extend l a = (s.map.extend (l.map (·, ())) a >>= fun r => .ok (⟨r.1⟩, r.2)) := by
  induction l generalizing s a with
  | nil => simp [BSet.extend, Map.extend]
  | cons x l ih =>
    simp only [BSet.extend, BSet.tryInsert, List.map_cons, Map.extend]
    cases s.map.tryInsert x () a with
    | ub => rfl
    | panic => rfl
    | ok r =>
      obtain ⟨r, m, a⟩ := r
      cases r with
      | error e => rfl
      | ok old => simp [ih]

/-! ### reachable sets are valid -/

theorem SetReach.valid {s : BSet T} (h : SetReach s) : s.map.Valid := by
  induction h with
  | new => exact Map.Valid_new
  | insert _ he ih =>
    rename_i s s' x a b a' _
    obtain ⟨r, m1, a1, h1, h2, h3⟩ := Map.tryInsert_ordered ih x () a
    cases r with
    | error e => simp [BSet.tryInsert, h1] at he
    | ok old =>
      simp [BSet.tryInsert, h1] at he
      obtain ⟨rfl, rfl, rfl⟩ := he
      exact h2.1
  | replace _ he ih =>
    rename_i s s' x a b a' _
    obtain ⟨r, m1, a1, h1, h2, h3⟩ := Map.replaceKey_valid ih x a
    simp [BSet.replace, h1] at he
    obtain ⟨rfl, rfl, rfl⟩ := he
    exact (h2 _ rfl).1
  | remove hbo _ he ih =>
    rename_i s s' q b _
    obtain ⟨m', h1, h2, h3⟩ := Map.removeEntry_ordered hbo ih q
    simp [BSet.remove, Map.remove, h1] at he
    rw [← he.2]; exact h2
  | take hbo _ he ih =>
    rename_i s s' q r _
    rcases Map.search_valid hbo ih q with ⟨hd, A, kv, B, h1, h2, h3, h4, h5⟩ | ⟨hd, A, B, h1, h2, h3, h4⟩
    · obtain ⟨m', g1, g2, g3, g4⟩ := Map.removeKv_spec ih.toShaped h2
      have hs := ih.sorted
      rw [h2.toList] at hs
      simp [BSet.take, h1, g1] at he
      rw [← he.2]; exact ⟨g2, by rw [g3]; exact sorted_remove hs⟩
    · simp [BSet.take, h1] at he
      rw [← he.2]; exact ih
  | appendSelf _ _ he ih1 ih2 =>
    rename_i a a' _ _
    rcases Map.append_ordered ih1 ih2 a with ⟨⟨_, h1⟩, _⟩ | ⟨m1, o1, a1, h1, h2, _⟩
    · simp [BSet.append, h1] at he
    · simp [BSet.append, h1] at he
      rw [← he.1]; exact h2
  | appendOther _ _ he ih1 ih2 =>
    rename_i a a' _ _
    rcases Map.append_ordered ih1 ih2 a with ⟨⟨_, h1⟩, _⟩ | ⟨m1, o1, a1, h1, _, h2, _⟩
    · simp [BSet.append, h1] at he
    · simp [BSet.append, h1] at he
      rw [← he.2.1]; exact h2
  | splitSelf hbo _ he ih =>
    rename_i q a r m' a' _
    obtain ⟨r', m1, a1, h1, h2, _⟩ := Map.splitOff_ordered hbo ih q a
    cases r' with
    | error e =>
      simp [BSet.trySplitOff, h1] at he
      rw [← he.2.1]; rw [show m1 = _ from h2]; exact ih
    | ok right =>
      simp [BSet.trySplitOff, h1] at he
      obtain ⟨⟨x1, x2, hx, g1, g2⟩, _⟩ := h2
      obtain rfl : x1 = 0 := by omega
      rw [← he.2.1]; exact g1
  | splitRight hbo _ he ih =>
    rename_i q a r m' a' _
    obtain ⟨r', m1, a1, h1, h2, _⟩ := Map.splitOff_ordered hbo ih q a
    cases r' with
    | error e => simp [BSet.trySplitOff, h1] at he
    | ok right =>
      simp [BSet.trySplitOff, h1] at he
      obtain ⟨⟨x1, x2, hx, g1, g2⟩, _⟩ := h2
      obtain rfl : x2 = 0 := by omega
      rw [← he.1]; exact g2
  | extend _ he ih =>
    rename_i s l a s' a' _
    rw [BSet.extend_eq] at he
    rcases Map.extend_spec (l.map (·, ())) ih a with ⟨⟨_, h1⟩, _⟩ | ⟨m1, a1, h1, h2, _⟩
    · simp [h1] at he
    · simp [h1] at he
      rw [← he.1]; exact h2
  | clone hck _ he ih =>
    rename_i s fk a s' a' _
    obtain ⟨r, a1, h1, h2, _⟩ := Map.tryClone_wf (fun k a => (.ok (fk k), a)) (fun v a => (.ok (id v), a)) ih.toShaped a
    cases r with
    | error e => simp [BSet.clone, Map.clone, h1] at he
    | ok c =>
      simp [BSet.clone, Map.clone, h1] at he
      obtain ⟨g1, g2⟩ := h2 _ rfl
      rw [← he.1]
      refine ⟨g1, (g2.mono ?_).sorted ih.sorted⟩
      rintro x y ⟨⟨a, a', h⟩, _⟩
      simp at h
      rw [← h.1]; exact hck _

/-! ### elements after an insertion -/

theorem mem_insert {k : T} {l : List (T × Unit)} (hs : Sorted l) (z : T) :
    z ∈ (Spec.insert k () l).map (·.1) ↔ z ∈ l.map (·.1) ∨ (z = k ∧ ¬ Has k (l.map (·.1))) := by
  induction l with
  | nil => simp [Spec.insert]
  | cons kv l ih =>
    obtain ⟨y, u⟩ := kv
    have hs' := List.pairwise_cons.1 hs
    have ih := ih hs'.2
    simp only [Spec.insert]
    rw [List.map_cons, has_cons]
    cases hc : compare k y with
    | lt =>
      have : ¬ Has k (l.map (·.1)) := by
        refine not_has_of_lt fun z hz => ?_
        obtain ⟨kv, hkv, rfl⟩ := List.mem_map.1 hz
        exact cmp_lt_trans hc (hs'.1 kv hkv)
      simp [this]; grind
    | eq => simp
    | gt =>
      simp only [List.map_cons, List.mem_cons, ih]
      simp; grind

/-- In an ascending list the element equal to `q` is unique. -/
theorem find?_eq_some_ascending [Ord Q] [Std.TransOrd Q] {bor : T → Q} (hbo : BorrowOK bor) {l : List T} (hl : Ascending l) (q : Q) (y : T) :
    l.find? (fun x => compare q (bor x) == .eq) = some y ↔ y ∈ l ∧ compare q (bor y) = .eq := by
  induction l with
  | nil => simp
  | cons x l ih =>
    obtain ⟨h1, h2⟩ := Ascending.cons.1 hl
    rw [List.find?_cons]
    cases hx : compare q (bor x) == .eq with
    | true =>
      have hx' : compare q (bor x) = .eq := by simpa using hx
      simp only [List.mem_cons, Option.some.injEq]
      constructor
      · rintro rfl; exact ⟨.inl rfl, hx'⟩
      · rintro ⟨rfl | h, hy⟩
        · rfl
        · have e : compare x y = .eq := by
            rw [← hbo]
            rw [← Std.TransCmp.congr_left (cmp := compare) hx']; exact hy
          rw [h1 y h] at e; simp at e
    | false =>
      simp only [ih h2, List.mem_cons]
      constructor
      · rintro ⟨h, hy⟩; exact ⟨.inr h, hy⟩
      · rintro ⟨rfl | h, hy⟩
        · simp [hy] at hx
        · exact ⟨h, hy⟩

/-! ### building a set from ascending items -/

theorem insert_last {V : Type} {k : T} {v : V} {l : List (T × V)} (h : ∀ a ∈ l, compare a.1 k = .lt) :
    Spec.insert k v l = l ++ [(k, v)] := by
  have := insert_miss (k := k) (v := v) (A := l) (B := []) (fun a ha => cmp_flip.2 (h a ha)) (by simp)
  simpa using this

theorem inserts_ascending (items : List T) (acc : List (T × Unit))
    (h : Ascending (acc.map (·.1) ++ items)) :
    (items.map (·, ())).foldl (fun acc kv => Spec.insert kv.1 kv.2 acc) acc = acc ++ items.map (·, ()) := by
  induction items generalizing acc with
  | nil => simp
  | cons x items ih =>
    have hx : ∀ a ∈ acc, compare a.1 x = .lt := by
      intro a ha
      have := (List.pairwise_append.1 h).2.2 a.1 (List.mem_map_of_mem ha) x (by simp)
      exact this
    simp only [List.map_cons, List.foldl_cons, insert_last hx]
    rw [ih _ (by simpa using h)]
    simp

/-- `from_iter` on ascending items. -/
theorem BSet.fromAscending {items : List T} (h : Ascending items) (a : Alloc) :
    ((∃ msg, (BSet.new : BSet T).extend items a = .panic msg) ∧ ¬ a.Good) ∨
    ∃ s a', (BSet.new : BSet T).extend items a = .ok (s, a') ∧ s.map.Valid ∧ s.elems = items := by
  rw [BSet.extend_eq]
  rcases Map.extend_spec (items.map (·, ())) (Map.Valid_new (K := T) (V := Unit)) a with ⟨⟨msg, h1⟩, h2⟩ | ⟨m1, a1, h1, h2, _, h3⟩
  · exact .inl ⟨⟨msg, by simp [BSet.new, h1]⟩, h2⟩
  · refine .inr ⟨⟨m1⟩, a1, by simp [BSet.new, h1], h2, ?_⟩
    rw [inserts_ascending items _ (by simpa [Map.toList, Map.new, emptyLeaf] using h)] at h3
    rw [BSet.elems, h3]; simp [Function.comp_def, Map.toList, Map.new, emptyLeaf]

theorem ascending_map {l : List T} (h : Ascending l) {fk : T → T} (hk : ∀ x, compare x (fk x) = .eq) :
    Ascending (l.map fk) := by
  rw [Ascending, List.pairwise_map]
  refine List.Pairwise.imp (fun {a b} hab => ?_) h
  exact cmp_lt_eq (cmp_eq_lt (cmp_eq_comm.1 (hk a)) hab) (hk b)

end lawful

end Verif.BTree
