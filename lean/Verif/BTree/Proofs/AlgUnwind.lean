import Verif.BTree.AlgUnwind
import Verif.BTree.Proofs.AlgViews
import Verif.BTree.Proofs.Unwind
/-
The set-algebra iterators when comparisons panic in `next` and the caller goes on.
-/
namespace Verif.BTree
open Verif Verif.Spec

variable {T Q K V : Type}

/-! ### `contains` with a panicking comparison -/

theorem searchTreeP_cost [Ord Q] {bor : K → Q} {q : Q} {lo h : Nat} {t : Tree K V} {up fuel r f}
    (hb : BelowN lo h t) (hl : t.len ≤ 11) (e : searchTreeP bor q h t up fuel = .ok (some (r, f))) : fuel ≤ f + 11 * (h + 1) := by
  induction h generalizing t up fuel with
  | zero =>
    unfold searchTreeP at e
    split at e
    · simp at e
    · rename_i i f' hs
      obtain ⟨h1, h2, h3⟩ := searchFromP_some hs
      simp at e
      simp [Tree.len] at hl
      omega
    · rename_i i f' hs
      obtain ⟨h1, h2, h3⟩ := searchFromP_some hs
      simp at e
      simp [Tree.len] at hl
      omega
  | succ h ih =>
    unfold searchTreeP at e
    split at e
    · simp at e
    · rename_i i f' hs
      obtain ⟨h1, h2, h3⟩ := searchFromP_some hs
      simp at e
      simp [Tree.len] at hl
      omega
    · rename_i i f' hs
      obtain ⟨h1, h2, h3⟩ := searchFromP_some hs
      obtain ⟨c, hc, e⟩ := Exec.bind_eq_ok.1 e
      have hmem : c ∈ t.edges := by
        unfold getE at hc
        split at hc
        · rename_i x hx; simp at hc; subst hc; exact List.mem_of_getElem? hx
        · simp at hc
      have := ih (hb.2 c hmem).2.2 (hb.2 c hmem).2.1 e
      simp [Tree.len] at hl
      omega

/-- The comparisons one search of `s` makes at most. -/
def BSet.searchCost (s : BSet T) : Nat := 11 * (s.map.height + 1)

theorem BSet.containsP_spec [Ord Q] {s : BSet T} (h : s.map.WF) (bor : T → Q) {q : Q} {b : Bool} (hb : s.contains bor q = .ok b) (c : Nat) :
    (c < s.searchCost ∧ s.containsP bor q c = .ok none) ∨ ∃ c', c ≤ c' + s.searchCost ∧ s.containsP bor q c = .ok (some (b, c')) := by
  have key : ∀ sr, s.map.search bor q = .ok sr → ∃ o, s.map.searchP bor q c = .ok o ∧
      (o = none ∧ c < s.searchCost ∨ ∃ c', o = some (sr, c') ∧ c ≤ c' + s.searchCost) := by
    intro sr hsr
    obtain ⟨o, g⟩ := searchTreeP_safe (bor := bor) (q := q) c hsr
    refine ⟨o, g, ?_⟩
    cases o with
    | none =>
      refine .inl ⟨rfl, Nat.lt_of_not_le fun hle => ?_⟩
      obtain ⟨f, g'⟩ := searchTreeP_total (bor := bor) (q := q) c h.below h.shape.1 hle hsr
      rw [g] at g'; simp at g'
    | some x =>
      obtain ⟨sr', c'⟩ := x
      obtain ⟨g1, g2⟩ := searchTreeP_some g
      obtain rfl := Exec.ok_unique hsr g1
      exact .inr ⟨c', rfl, searchTreeP_cost h.below h.shape.1 g⟩
  rcases Map.search_wf h bor q with ⟨hd, A, kv, B, h1, h2, h3⟩ | ⟨hd, A, B, h1, h2⟩
  · have : b = true := by simpa [BSet.contains, Map.containsKey, Map.get, h1, h2.kvAt] using hb.symm
    subst this
    obtain ⟨o, g, ⟨rfl, hlt⟩ | ⟨c', rfl, hle⟩⟩ := key _ h1
    · exact .inl ⟨hlt, by simp [BSet.containsP, g]⟩
    · exact .inr ⟨c', hle, by simp [BSet.containsP, g, h2.kvAt]⟩
  · have : b = false := by simpa [BSet.contains, Map.containsKey, Map.get, h1] using hb.symm
    subst this
    obtain ⟨o, g, ⟨rfl, hlt⟩ | ⟨c', rfl, hle⟩⟩ := key _ h1
    · exact .inl ⟨hlt, by simp [BSet.containsP, g]⟩
    · exact .inr ⟨c', hle, by simp [BSet.containsP, g]⟩

/-! ### what a loss leaves -/

/-- `out'` is `out` with at most `n` items missing. -/
def Loses (n : Nat) (out out' : List T) : Prop := out'.Sublist out ∧ out.length ≤ out'.length + n

theorem Loses.refl (n : Nat) (out : List T) : Loses n out out := ⟨List.Sublist.refl _, by omega⟩

theorem Loses.trans {n k : Nat} {a b c : List T} (h1 : Loses n a b) (h2 : Loses k b c) : Loses (n + k) a c :=
  ⟨h2.1.trans h1.1, by have := h1.2; have := h2.2; omega⟩

theorem Loses.cons (x : T) (out : List T) : Loses 1 (x :: out) out := ⟨List.sublist_cons_self .., by simp⟩

theorem Loses.filter {c : T → Bool} (x : T) (l : List T) : Loses 1 ((x :: l).filter c) (l.filter c) := by
  rw [List.filter_cons]
  split
  · exact .cons ..
  · exact .refl ..

section lawful
variable [Ord T] [Std.TransOrd T]

/-- A decision procedure for `Has`. -/
def hasB (r : List T) (x : T) : Bool := r.any fun y => compare x y == .eq

omit [Std.TransOrd T] in
theorem hasB_iff {r : List T} {x : T} : hasB r x = true ↔ Has x r := by simp [hasB, Has]

theorem diffList_eq_filter {l r : List T} (hl : Ascending l) (hr : Ascending r) : diffList l r = l.filter (!hasB r ·) := by
  have h1 := diffList_spec l r hl hr
  have h2 := filter_not_isDifference (r := r) hl (c := hasB r) (fun _ => hasB_iff)
  exact Ascending.ext h1.1 h2.1 fun x => by rw [h1.2, h2.2]

theorem interList_eq_filter {l r : List T} (hl : Ascending l) (hr : Ascending r) : interList l r = l.filter (hasB r ·) := by
  have h1 := interList_spec l r hl hr
  have h2 := filter_isIntersection (r := r) hl (c := hasB r) (fun _ => hasB_iff)
  exact Ascending.ext h1.1 h2.1 fun x => by rw [h1.2, h2.2]

theorem diffList_loses {x : T} {l r : List T} (hl : Ascending (x :: l)) (hr : Ascending r) : Loses 1 (diffList (x :: l) r) (diffList l r) := by
  rw [diffList_eq_filter hl hr, diffList_eq_filter (Ascending.cons.1 hl).2 hr]
  exact .filter ..

/-- One element fewer to look for costs at most one hit. -/
theorem hit_loses {y : T} {l r : List T} (hl : Ascending l) : Loses 1 (l.filter (hasB (y :: r) ·)) (l.filter (hasB r ·)) := by
  induction l with
  | nil => exact .refl ..
  | cons x l ih =>
    obtain ⟨hx, hl'⟩ := Ascending.cons.1 hl
    by_cases hxy : compare x y = .eq
    · have hsame : l.filter (hasB (y :: r) ·) = l.filter (hasB r ·) := by
        refine List.filter_congr fun z hz => ?_
        have : compare z y ≠ .eq := fun he => by
          have h1 := cmp_lt_eq (hx z hz) he
          rw [hxy] at h1; cases h1
        simp [hasB, this]
      have h1 : hasB (y :: r) x = true := by simp [hasB, hxy]
      simp only [List.filter_cons, h1, if_true, hsame]
      split
      · exact .refl ..
      · exact .cons ..
    · have h1 : hasB (y :: r) x = hasB r x := by simp [hasB, hxy]
      simp only [List.filter_cons, h1]
      split
      · obtain ⟨a, b⟩ := ih hl'
        exact ⟨a.cons_cons x, by simp; omega⟩
      · exact ih hl'

/-- Both heads lost cost at most one common element. -/
theorem interList_loses {x y : T} {l r : List T} (hl : Ascending (x :: l)) (hr : Ascending (y :: r)) :
    Loses 1 (interList (x :: l) (y :: r)) (interList l r) := by
  obtain ⟨hx, hl'⟩ := Ascending.cons.1 hl
  obtain ⟨hy, hr'⟩ := Ascending.cons.1 hr
  simp only [interList]
  cases hc : compare x y with
  | lt =>
    simp only
    rw [interList_eq_filter hl' hr, interList_eq_filter hl' hr']
    exact hit_loses hl'
  | eq => exact .cons ..
  | gt =>
    simp only
    rw [interList_eq_filter hl hr', interList_eq_filter hl' hr']
    exact .filter ..

/-! ### the loops -/

/-- What a difference iterator has yet to yield, and that it walks ascending lists. -/
def Difference.LeftP (o : BSet T) (c : T → Bool) (d : Difference T) (out : List T) : Prop :=
  match d with
  | .stitch i j => ∃ l r, i.Left l ∧ j.Left r ∧ Ascending l ∧ Ascending r ∧ out = diffList l r
  | .search i o' => o' = o ∧ ∃ l, i.Left l ∧ out = l.filter (!c ·)

/-- What an intersection iterator has yet to yield, and that it walks ascending lists. -/
def Intersection.LeftP (o : BSet T) (c : T → Bool) (d : Intersection T) (out : List T) : Prop :=
  match d with
  | .stitch i j => ∃ l r, i.Left l ∧ j.Left r ∧ Ascending l ∧ Ascending r ∧ out = interList l r
  | .search i o' => o' = o ∧ ∃ l, i.Left l ∧ out = l.filter (c ·)

end lawful

/-- One call of `next` with `cmps` comparisons that return: it hands out the next item, or it panics, which it does only if it runs into a further comparison
before `cost` of them were made, and loses at most `loss` items. -/
def StepP {S : Type} (I : S → List T → Prop) (loss cost cmps : Nat) (out : List T) : Outcome S ((Option T × S) × Nat) → Prop
  | .done r => r.1.1 = out.head? ∧ I r.1.2 out.tail
  | .unwound s w => w = .cmp ∧ cmps < cost ∧ ∃ out', I s out' ∧ Loses loss out out'

section loops
variable [Ord T]

theorem TwoIters.unionNextP_spec {t : TwoIters T} {out : List T} (h : t.UnionLeft out) (c : Nat) :
    ∃ o, t.unionNextP c = .ok o ∧ StepP TwoIters.UnionLeft 0 1 c out o := by
  obtain ⟨l, r, ha, hb, rfl⟩ := h
  obtain ⟨a1, h1, h2⟩ := ha.peek
  obtain ⟨b1, h3, h4⟩ := hb.peek
  simp only [TwoIters.unionNextP, h1, h3, Exec.ok_bind]
  obtain ⟨a2, g1, g2⟩ := h2.next
  obtain ⟨b2, g3, g4⟩ := h4.next
  cases l with
  | nil => exact ⟨.done ((r.head?, ⟨a1, b2⟩), c), by simp [cmpP, g3], by simp, [], r.tail, h2, g4, by simp⟩
  | cons x l =>
    cases r with
    | nil => exact ⟨.done ((some x, ⟨a2, b1⟩), c), by simp [cmpP, g1], by simp, l, [], g2, h4, by simp⟩
    | cons y r =>
      cases c with
      | zero => exact ⟨.unwound ⟨a1, b1⟩ .cmp, by simp [cmpP], rfl, by omega, _, ⟨x :: l, y :: r, h2, h4, rfl⟩, .refl ..⟩
      | succ c =>
        simp only [List.head?_cons, cmpP]
        cases hc : compare x y with
        | lt => exact ⟨.done ((some x, ⟨a2, b1⟩), c), by simp [g1], by simp [unionList, hc], l, y :: r, g2, h4, by simp [unionList, hc]⟩
        | gt => exact ⟨.done ((some y, ⟨a1, b2⟩), c), by simp [g3], by simp [unionList, hc], x :: l, r, h2, g4, by simp [unionList, hc]⟩
        | eq => exact ⟨.done ((some x, ⟨a2, b2⟩), c), by simp [g1, g3], by simp [unionList, hc], l, r, g2, g4, by simp [unionList, hc]⟩

theorem symDiffLoopP_spec (fuel : Nat) {t : TwoIters T} {l r} (ha : t.a.Left l) (hb : t.b.Left r) (hf : l.length + r.length < fuel) (c : Nat) :
    ∃ o, symDiffLoopP fuel t c = .ok o ∧ StepP TwoIters.SymLeft 0 (l.length + r.length + 1) c (symList l r) o := by
  induction fuel generalizing t l r c with
  | zero => omega
  | succ fuel ih =>
    obtain ⟨a1, h1, h2⟩ := ha.peek
    obtain ⟨b1, h3, h4⟩ := hb.peek
    simp only [symDiffLoopP, h1, h3, Exec.ok_bind]
    obtain ⟨a2, g1, g2⟩ := h2.next
    obtain ⟨b2, g3, g4⟩ := h4.next
    cases l with
    | nil => exact ⟨.done ((r.head?, ⟨a1, b2⟩), c), by simp [cmpP, g3], by simp, [], r.tail, h2, g4, by simp⟩
    | cons x l =>
      cases r with
      | nil => exact ⟨.done ((some x, ⟨a2, b1⟩), c), by simp [cmpP, g1], by simp, l, [], g2, h4, by simp⟩
      | cons y r =>
        cases c with
        | zero => exact ⟨.unwound ⟨a1, b1⟩ .cmp, by simp [cmpP], rfl, by omega, _, ⟨x :: l, y :: r, h2, h4, rfl⟩, .refl ..⟩
        | succ c =>
          simp only [List.head?_cons, cmpP]
          cases hc : compare x y with
          | lt => exact ⟨.done ((some x, ⟨a2, b1⟩), c), by simp [g1], by simp [symList, hc], l, y :: r, g2, h4, by simp [symList, hc]⟩
          | gt => exact ⟨.done ((some y, ⟨a1, b2⟩), c), by simp [g3], by simp [symList, hc], x :: l, r, h2, g4, by simp [symList, hc]⟩
          | eq =>
            obtain ⟨o, e1, e2⟩ := ih (t := ⟨a2, b2⟩) g2 g4 (by simp at hf ⊢; omega) c
            refine ⟨o, by simp only [g1, g3, Exec.ok_bind, e1], ?_⟩
            have : symList (x :: l) (y :: r) = symList l r := by simp [symList, hc]
            rw [this]
            cases o with
            | done r => exact e2
            | unwound s w => exact ⟨e2.1, by have := e2.2.1; simp at this ⊢; omega, e2.2.2⟩

variable [Std.TransOrd T]

theorem differenceStitchP_spec (o : BSet T) (cc : T → Bool) (fuel : Nat) (x : T) {i : SetIter T} {j : Peekable T} {l r} (hi : i.Left l)
    (hj : j.Left r) (hl : Ascending (x :: l)) (hr : Ascending r) (hf : r.length < fuel) (c : Nat) :
    ∃ z, differenceStitchP fuel x i j c = .ok z ∧ StepP (Difference.LeftP o cc) 1 (r.length + 1) c (diffList (x :: l) r) z := by
  induction fuel generalizing x i j l r c with
  | zero => omega
  | succ fuel ih =>
    obtain ⟨hx, hl'⟩ := Ascending.cons.1 hl
    obtain ⟨j1, h1, h2⟩ := hj.peek
    simp only [differenceStitchP, h1, Exec.ok_bind]
    cases r with
    | nil => exact ⟨.done ((some x, .stitch i j1), c), by simp [cmpP], by simp, l, [], hi, h2, hl', hr, by simp⟩
    | cons y r =>
      obtain ⟨hy, hr'⟩ := Ascending.cons.1 hr
      cases c with
      | zero => exact ⟨.unwound (.stitch i j1) .cmp, by simp [cmpP], rfl, by omega, _, ⟨l, y :: r, hi, h2, hl', hr, rfl⟩, diffList_loses hl hr⟩
      | succ c =>
        simp only [List.head?_cons, cmpP]
        cases hc : compare x y with
        | lt => exact ⟨.done ((some x, .stitch i j1), c), by simp, by simp [diffList, hc], l, y :: r, hi, h2, hl', hr, by simp [diffList, hc]⟩
        | eq =>
          obtain ⟨i1, g1, g2⟩ := hi.next
          simp only [g1, Exec.ok_bind]
          cases l with
          | nil => exact ⟨.done ((none, .stitch i1 j1), c), by simp, by simp [diffList, hc], [], y :: r, g2, h2, hl', hr, by simp [diffList, hc]⟩
          | cons x' l =>
            obtain ⟨j2, k1, k2⟩ := h2.next
            obtain ⟨z, e1, e2⟩ := ih x' g2 k2 hl' hr' (by simpa using hf) c
            refine ⟨z, by simp only [List.head?_cons, k1, Exec.ok_bind, e1], ?_⟩
            have : diffList (x :: x' :: l) (y :: r) = diffList (x' :: l) r := by simp [diffList, hc]
            rw [this]
            cases z with
            | done r => exact e2
            | unwound s w => exact ⟨e2.1, by have := e2.2.1; simp at this ⊢; omega, e2.2.2⟩
        | gt =>
          obtain ⟨j2, k1, k2⟩ := h2.next
          obtain ⟨z, e1, e2⟩ := ih x hi k2 hl hr' (by simpa using hf) c
          refine ⟨z, by simp only [k1, Exec.ok_bind, e1], ?_⟩
          have : diffList (x :: l) (y :: r) = diffList (x :: l) r := by simp [diffList, hc]
          rw [this]
          cases z with
          | done r => exact e2
          | unwound s w => exact ⟨e2.1, by have := e2.2.1; simp at this ⊢; omega, e2.2.2⟩

theorem differenceSearchP_spec (o : BSet T) (ho : o.map.WF) (cc : T → Bool) (hc : ∀ x, o.contains id x = .ok (cc x)) (fuel : Nat)
    {i : SetIter T} {l} (hi : i.Left l) (hf : l.length < fuel) (c : Nat) :
    ∃ z, differenceSearchP o fuel i c = .ok z ∧ StepP (Difference.LeftP o cc) 1 (l.length * o.searchCost) c (l.filter (!cc ·)) z := by
  induction fuel generalizing i l c with
  | zero => omega
  | succ fuel ih =>
    obtain ⟨i1, h1, h2⟩ := hi.next
    simp only [differenceSearchP, h1, Exec.ok_bind]
    cases l with
    | nil => exact ⟨.done ((none, .search i1 o), c), by simp, by simp, rfl, [], h2, by simp⟩
    | cons x l =>
      simp only [List.head?_cons]
      rcases BSet.containsP_spec ho id (hc x) c with ⟨hlt, g⟩ | ⟨c', hle, g⟩
      · refine ⟨.unwound (.search i1 o) .cmp, by simp [g], rfl, ?_, _, ⟨rfl, l, h2, rfl⟩, .filter ..⟩
        simp only [List.length_cons, Nat.succ_mul]; omega
      · simp only [g, Exec.ok_bind]
        cases hx : cc x with
        | false => exact ⟨.done ((some x, .search i1 o), c'), by simp, by simp [hx], rfl, l, h2, by simp [hx]⟩
        | true =>
          obtain ⟨z, e1, e2⟩ := ih h2 (by simpa using hf) c'
          refine ⟨z, by simp [e1], ?_⟩
          have : (x :: l).filter (!cc ·) = l.filter (!cc ·) := by simp [hx]
          rw [this]
          cases z with
          | done r => exact e2
          | unwound s w =>
            refine ⟨e2.1, ?_, e2.2.2⟩
            have := e2.2.1
            simp only [List.tail_cons, List.length_cons, Nat.succ_mul] at this ⊢
            omega

theorem Difference.nextP_spec (o : BSet T) (ho : o.map.WF) (cc : T → Bool) (hc : ∀ x, o.contains id x = .ok (cc x)) {d : Difference T} {out : List T}
    (h : Difference.LeftP o cc d out) : ∃ N, ∀ c, ∃ z, d.nextP c = .ok z ∧ StepP (Difference.LeftP o cc) 1 N c out z := by
  cases d with
  | stitch i j =>
    obtain ⟨l, r, h1, h2, h3, h4, rfl⟩ := h
    refine ⟨r.length + 1, fun c => ?_⟩
    obtain ⟨i1, g1, g2⟩ := h1.next
    simp only [Difference.nextP, g1, Exec.ok_bind]
    cases l with
    | nil => exact ⟨.done ((none, .stitch i1 j), c), by simp, by simp, [], r, g2, h2, h3, h4, by simp⟩
    | cons x l => exact differenceStitchP_spec o cc (j.len + 1) x g2 h2 h3 h4 (by rw [h2.len]; omega) c
  | search i o' =>
    obtain ⟨rfl, l, h1, rfl⟩ := h
    exact ⟨_, fun c => differenceSearchP_spec o' ho cc hc (i.len + 1) h1 (by rw [h1.len]; omega) c⟩

theorem intersectionStitchP_spec (o : BSet T) (cc : T → Bool) (fuel : Nat) (x y : T) {i j : SetIter T} {l r} (hi : i.Left l)
    (hj : j.Left r) (hl : Ascending (x :: l)) (hr : Ascending (y :: r)) (hf : l.length + r.length < fuel) (c : Nat) :
    ∃ z, intersectionStitchP fuel x y i j c = .ok z ∧
      StepP (Intersection.LeftP o cc) 1 (l.length + r.length + 1) c (interList (x :: l) (y :: r)) z := by
  induction fuel generalizing x y i j l r c with
  | zero => omega
  | succ fuel ih =>
    obtain ⟨hx, hl'⟩ := Ascending.cons.1 hl
    obtain ⟨hy, hr'⟩ := Ascending.cons.1 hr
    cases c with
    | zero => exact ⟨.unwound (.stitch i j) .cmp, by simp [intersectionStitchP, cmpP], rfl, by omega, _, ⟨l, r, hi, hj, hl', hr', rfl⟩, interList_loses hl hr⟩
    | succ c =>
      simp only [intersectionStitchP, cmpP]
      cases hc : compare x y with
      | lt =>
        obtain ⟨i1, g1, g2⟩ := hi.next
        simp only [g1, Exec.ok_bind]
        cases l with
        | nil => exact ⟨.done ((none, .stitch i1 j), c), by simp, by simp [interList, hc], [], r, g2, hj, hl', hr', by simp [interList, hc]⟩
        | cons x' l =>
          obtain ⟨z, e1, e2⟩ := ih x' y g2 hj hl' hr (by simp at hf ⊢; omega) c
          refine ⟨z, by simp only [List.head?_cons, e1], ?_⟩
          have : interList (x :: x' :: l) (y :: r) = interList (x' :: l) (y :: r) := by simp [interList, hc]
          rw [this]
          cases z with
          | done r => exact e2
          | unwound s w => exact ⟨e2.1, by have := e2.2.1; simp at this ⊢; omega, e2.2.2⟩
      | eq => exact ⟨.done ((some x, .stitch i j), c), by simp, by simp [interList, hc], l, r, hi, hj, hl', hr', by simp [interList, hc]⟩
      | gt =>
        obtain ⟨j1, g1, g2⟩ := hj.next
        simp only [g1, Exec.ok_bind]
        cases r with
        | nil => exact ⟨.done ((none, .stitch i j1), c), by simp, by simp [interList, hc], l, [], hi, g2, hl', hr', by simp [interList, hc]⟩
        | cons y' r =>
          obtain ⟨z, e1, e2⟩ := ih x y' hi g2 hl hr' (by simp at hf ⊢; omega) c
          refine ⟨z, by simp only [List.head?_cons, e1], ?_⟩
          have : interList (x :: l) (y :: y' :: r) = interList (x :: l) (y' :: r) := by simp [interList, hc]
          rw [this]
          cases z with
          | done r => exact e2
          | unwound s w => exact ⟨e2.1, by have := e2.2.1; simp at this ⊢; omega, e2.2.2⟩

theorem intersectionSearchP_spec (o : BSet T) (ho : o.map.WF) (cc : T → Bool) (hc : ∀ x, o.contains id x = .ok (cc x)) (fuel : Nat)
    {i : SetIter T} {l} (hi : i.Left l) (hf : l.length < fuel) (c : Nat) :
    ∃ z, intersectionSearchP o fuel i c = .ok z ∧ StepP (Intersection.LeftP o cc) 1 (l.length * o.searchCost) c (l.filter (cc ·)) z := by
  induction fuel generalizing i l c with
  | zero => omega
  | succ fuel ih =>
    obtain ⟨i1, h1, h2⟩ := hi.next
    simp only [intersectionSearchP, h1, Exec.ok_bind]
    cases l with
    | nil => exact ⟨.done ((none, .search i1 o), c), by simp, by simp, rfl, [], h2, by simp⟩
    | cons x l =>
      simp only [List.head?_cons]
      rcases BSet.containsP_spec ho id (hc x) c with ⟨hlt, g⟩ | ⟨c', hle, g⟩
      · refine ⟨.unwound (.search i1 o) .cmp, by simp [g], rfl, ?_, _, ⟨rfl, l, h2, rfl⟩, .filter ..⟩
        simp only [List.length_cons, Nat.succ_mul]; omega
      · simp only [g, Exec.ok_bind]
        cases hx : cc x with
        | true => exact ⟨.done ((some x, .search i1 o), c'), by simp, by simp [hx], rfl, l, h2, by simp [hx]⟩
        | false =>
          obtain ⟨z, e1, e2⟩ := ih h2 (by simpa using hf) c'
          refine ⟨z, by simp [e1], ?_⟩
          have : (x :: l).filter (cc ·) = l.filter (cc ·) := by simp [hx]
          rw [this]
          cases z with
          | done r => exact e2
          | unwound s w =>
            refine ⟨e2.1, ?_, e2.2.2⟩
            have := e2.2.1
            simp only [List.tail_cons, List.length_cons, Nat.succ_mul] at this ⊢
            omega

theorem Intersection.nextP_spec (o : BSet T) (ho : o.map.WF) (cc : T → Bool) (hc : ∀ x, o.contains id x = .ok (cc x)) {d : Intersection T} {out : List T}
    (h : Intersection.LeftP o cc d out) : ∃ N, ∀ c, ∃ z, d.nextP c = .ok z ∧ StepP (Intersection.LeftP o cc) 1 N c out z := by
  cases d with
  | stitch i j =>
    obtain ⟨l, r, h1, h2, h3, h4, rfl⟩ := h
    refine ⟨l.length + r.length + 1, fun c => ?_⟩
    obtain ⟨i1, g1, g2⟩ := h1.next
    simp only [Intersection.nextP, g1, Exec.ok_bind]
    cases l with
    | nil => exact ⟨.done ((none, .stitch i1 j), c), by simp, by simp, [], r, g2, h2, h3, h4, by simp⟩
    | cons x l =>
      obtain ⟨j1, k1, k2⟩ := h2.next
      simp only [List.head?_cons, k1, Exec.ok_bind]
      cases r with
      | nil => exact ⟨.done ((none, .stitch i1 j1), c), by simp, by simp, l, [], g2, k2, (Ascending.cons.1 h3).2, h4, by simp⟩
      | cons y r =>
        obtain ⟨z, e1, e2⟩ := intersectionStitchP_spec o cc (i1.len + j1.len + 1) x y g2 k2 h3 h4 (by rw [g2.len, k2.len]; omega) c
        refine ⟨z, e1, ?_⟩
        cases z with
        | done r => exact e2
        | unwound s w => exact ⟨e2.1, by have := e2.2.1; simp at this ⊢; omega, e2.2.2⟩
  | search i o' =>
    obtain ⟨rfl, l, h1, rfl⟩ := h
    exact ⟨_, fun c => intersectionSearchP_spec o' ho cc hc (i.len + 1) h1 (by rw [h1.len]; omega) c⟩

end loops

/-! ### the four together -/

/-- How many items a panic in `next` can cost. -/
def algLoss : AlgKind → Nat
  | .difference => 1
  | .symmetricDifference => 0
  | .intersection => 1
  | .union => 0

/-- The iterator is of kind `k`, walks ascending lists and has the items `out` still to come. -/
def AlgIsP [Ord T] (o oi : BSet T) (c ci : T → Bool) (k : AlgKind) (v : AlgView T) (out : List T) : Prop :=
  match k, v with
  | .difference, .difference d => Difference.LeftP o c d out
  | .symmetricDifference, .symmetricDifference t => t.SymLeft out
  | .intersection, .intersection d => Intersection.LeftP oi ci d out
  | .union, .union t => t.UnionLeft out
  | _, _ => False

/-- As `AlgIs`, whatever set the difference was started from. -/
def AlgIsW [Ord T] (o oi : BSet T) (c ci : T → Bool) (v : AlgView T) (out : List T) : Prop :=
  match v with
  | .difference d => ∃ base, Difference.Left o c base d out
  | .symmetricDifference t => t.SymLeft out
  | .intersection d => Intersection.Left oi ci d out
  | .union t => t.UnionLeft out

theorem AlgIsW.yields [Ord T] {o oi : BSet T} {c ci : T → Bool} (hc : ∀ x, o.contains id x = .ok (c x)) (hci : ∀ x, oi.contains id x = .ok (ci x)) :
    Yields AlgView.next (AlgIsW o oi c ci) := by
  intro v out h
  cases v with
  | difference d =>
    obtain ⟨base, h⟩ := h
    obtain ⟨d', h1, h2⟩ := Difference.yields o c hc base d out h
    exact ⟨.difference d', by simp only [AlgView.next, h1, Exec.ok_bind], base, h2⟩
  | symmetricDifference t =>
    obtain ⟨d', h1, h2⟩ := TwoIters.symYields t out h
    exact ⟨.symmetricDifference d', by simp only [AlgView.next, h1, Exec.ok_bind], h2⟩
  | intersection d =>
    obtain ⟨d', h1, h2⟩ := Intersection.yields oi ci hci d out h
    exact ⟨.intersection d', by simp only [AlgView.next, h1, Exec.ok_bind], h2⟩
  | union t =>
    obtain ⟨d', h1, h2⟩ := TwoIters.unionYields t out h
    exact ⟨.union d', by simp only [AlgView.next, h1, Exec.ok_bind], h2⟩

theorem AlgIsP.weak [Ord T] {o oi : BSet T} {c ci : T → Bool} {k v} {out : List T} (h : AlgIsP o oi c ci k v out) : AlgIsW o oi c ci v out := by
  cases k <;> cases v <;> try exact h.elim
  · rename_i d
    cases d with
    | stitch i j => obtain ⟨l, r, h1, h2, _, _, h3⟩ := h; exact ⟨[], l, r, h1, h2, h3⟩
    | search i o' => obtain ⟨h0, l, h1, h2⟩ := h; exact ⟨l, h0, l, h1, List.suffix_refl _, h2⟩
  · exact h
  · rename_i d
    cases d with
    | stitch i j => obtain ⟨l, r, h1, h2, _, _, h3⟩ := h; exact ⟨l, r, h1, h2, h3⟩
    | search i o' => exact h
  · exact h

theorem StepP.wrap {S : Type} {I : S → List T → Prop} {J : AlgView T → List T → Prop} {f : S → AlgView T} (hf : ∀ s out, I s out → J (f s) out)
    {loss cost c : Nat} {out : List T} {z : Outcome S ((Option T × S) × Nat)} (h : StepP I loss cost c out z) : StepP J loss cost c out (z.wrap f) := by
  cases z with
  | done r => exact ⟨h.1, hf _ _ h.2⟩
  | unwound s w => exact ⟨h.1, h.2.1, h.2.2.imp fun out' h => ⟨hf _ _ h.1, h.2⟩⟩

theorem AlgIsP.next [Ord T] [Std.TransOrd T] {o oi : BSet T} (ho : o.map.WF) (hoi : oi.map.WF) {c ci : T → Bool} (hc : ∀ x, o.contains id x = .ok (c x))
    (hci : ∀ x, oi.contains id x = .ok (ci x)) {k v} {out : List T} (h : AlgIsP o oi c ci k v out) :
    ∃ N, ∀ n, ∃ z, v.nextP n = .ok z ∧ StepP (AlgIsP o oi c ci k) (algLoss k) N n out z := by
  cases k <;> cases v <;> try exact h.elim
  · rename_i d
    obtain ⟨N, hN⟩ := Difference.nextP_spec o ho c hc h
    refine ⟨N, fun n => ?_⟩
    obtain ⟨z, e, hz⟩ := hN n
    exact ⟨z.wrap .difference, by simp only [AlgView.nextP, e, Exec.ok_bind], hz.wrap (f := .difference) fun s out h => h⟩
  · rename_i t
    obtain ⟨l, r, h1, h2, rfl⟩ := h
    refine ⟨l.length + r.length + 1, fun n => ?_⟩
    obtain ⟨z, e, hz⟩ := symDiffLoopP_spec (t.a.len + t.b.len + 1) h1 h2 (by rw [h1.len, h2.len]; omega) n
    exact ⟨z.wrap .symmetricDifference, by simp only [AlgView.nextP, e, Exec.ok_bind], hz.wrap (f := .symmetricDifference) fun s out h => h⟩
  · rename_i d
    obtain ⟨N, hN⟩ := Intersection.nextP_spec oi hoi ci hci h
    refine ⟨N, fun n => ?_⟩
    obtain ⟨z, e, hz⟩ := hN n
    exact ⟨z.wrap .intersection, by simp only [AlgView.nextP, e, Exec.ok_bind], hz.wrap (f := .intersection) fun s out h => h⟩
  · rename_i t
    refine ⟨1, fun n => ?_⟩
    obtain ⟨z, e, hz⟩ := TwoIters.unionNextP_spec h n
    exact ⟨z.wrap .union, by simp only [AlgView.nextP, e, Exec.ok_bind], hz.wrap (f := .union) fun s out h => h⟩

/-- For the two iterators that peek, any comparison function will do. -/
theorem AlgIsP.next_peek [Ord T] {o oi : BSet T} {c ci : T → Bool} {k v} (hk : algLoss k = 0) {out : List T} (h : AlgIsP o oi c ci k v out) :
    ∃ N, ∀ n, ∃ z, v.nextP n = .ok z ∧ StepP (AlgIsP o oi c ci k) 0 N n out z := by
  cases k <;> cases v <;> try exact h.elim
  · simp [algLoss] at hk
  · rename_i t
    obtain ⟨l, r, h1, h2, rfl⟩ := h
    refine ⟨l.length + r.length + 1, fun n => ?_⟩
    obtain ⟨z, e, hz⟩ := symDiffLoopP_spec (t.a.len + t.b.len + 1) h1 h2 (by rw [h1.len, h2.len]; omega) n
    exact ⟨z.wrap .symmetricDifference, by simp only [AlgView.nextP, e, Exec.ok_bind], hz.wrap (f := .symmetricDifference) fun s out h => h⟩
  · simp [algLoss] at hk
  · rename_i t
    refine ⟨1, fun n => ?_⟩
    obtain ⟨z, e, hz⟩ := TwoIters.unionNextP_spec h n
    exact ⟨z.wrap .union, by simp only [AlgView.nextP, e, Exec.ok_bind], hz.wrap (f := .union) fun s out h => h⟩

/-- Any number of calls of `next`, some of which panic. -/
theorem AlgView.callsP_spec [Ord T] {I : AlgView T → List T → Prop} {loss : Nat}
    (hI : ∀ v out, I v out → ∃ N, ∀ n, ∃ z, v.nextP n = .ok z ∧ StepP I loss N n out z) (cs : List Nat) {v out} (h : I v out) :
    ∃ xs v' items n rest, v.callsP cs = .ok (xs, v') ∧ xs.length = cs.length ∧ xs.filterMap id = items.map some ++ List.replicate n none ∧
      (n ≠ 0 → rest = []) ∧ I v' rest ∧ Loses (loss * xs.countP Option.isNone) out (items ++ rest) := by
  induction cs generalizing v out with
  | nil => exact ⟨[], v, [], 0, out, rfl, rfl, rfl, by simp, h, .refl ..⟩
  | cons c cs ih =>
    obtain ⟨_, hN⟩ := hI v out h
    obtain ⟨z, e, hz⟩ := hN c
    cases z with
    | done r =>
      obtain ⟨⟨x, v1⟩, c'⟩ := r
      obtain ⟨hx, h1⟩ := hz
      obtain ⟨xs, v', items, n, rest, g1, g2, g3, g4, g5, g6⟩ := ih h1
      cases out with
      | nil =>
        obtain rfl : x = none := hx
        have hnil := List.sublist_nil.1 g6.1
        obtain ⟨rfl, rfl⟩ := List.append_eq_nil_iff.1 hnil
        exact ⟨some none :: xs, v', [], n + 1, [], by simp [AlgView.callsP, e, g1], by simp [g2], by simpa [List.replicate_succ] using g3, fun _ => rfl, g5, .refl ..⟩
      | cons a out =>
        obtain rfl : x = some a := hx
        refine ⟨some (some a) :: xs, v', a :: items, n, rest, by simp [AlgView.callsP, e, g1], by simp [g2], by simpa using g3, g4, g5, ?_⟩
        obtain ⟨g6, g7⟩ := g6
        exact ⟨g6.cons_cons a, by simp at g7 ⊢; omega⟩
    | unwound v1 w =>
      obtain ⟨_, _, out', h1, h2⟩ := hz
      obtain ⟨xs, v', items, n, rest, g1, g2, g3, g4, g5, g6⟩ := ih h1
      refine ⟨none :: xs, v', items, n, rest, by simp [AlgView.callsP, e, g1], by simp [g2], by simpa using g3, g4, g5, ?_⟩
      have := h2.trans g6
      simp only [List.countP_cons, Option.isNone_none, if_true, Nat.mul_add, Nat.mul_one]
      rwa [Nat.add_comm]

end Verif.BTree
