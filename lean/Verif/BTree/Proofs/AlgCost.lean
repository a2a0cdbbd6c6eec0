import Verif.BTree.Proofs.AlgUnwind
import Verif.BTree.Proofs.SetAny
import Verif.BTree.AlgCost
import Verif.SpecAlgCost
import Verif.Heap.Proofs.CostPool
/-
How many comparisons of elements the set-algebra iterators and predicates make, whatever the comparison function.
-/
namespace Verif.BTree
open Verif Verif.Spec

variable {T : Type} [Ord T]

/-- A call of `next` that starts with `c` comparisons left and `p` of them set aside: it returns the next item, and what it has used up was set aside. -/
def PayStep {S : Type} (I : S → List T → Nat → Prop) (c p : Nat) (out : List T) (z : Exec (Outcome S ((Option T × S) × Nat))) : Prop :=
  ∃ s c' p', z = .ok (.done ((out.head?, s), c')) ∧ I s out.tail p' ∧ c + p' ≤ c' + p

/-- What is set aside for two lists that are walked side by side. -/
def TwoIters.UnionPot (t : TwoIters T) (out : List T) (p : Nat) : Prop :=
  ∃ l r, t.a.Left l ∧ t.b.Left r ∧ out = unionList l r ∧ p = l.length + r.length - 1

def TwoIters.SymPot (t : TwoIters T) (out : List T) (p : Nat) : Prop :=
  ∃ l r, t.a.Left l ∧ t.b.Left r ∧ out = symList l r ∧ p = l.length + r.length - 1

/-- For a difference: as above, or one search for every element left. -/
def Difference.Pot (o : BSet T) (cc : T → Bool) (d : Difference T) (out : List T) (p : Nat) : Prop :=
  match d with
  | .stitch i j => ∃ l r, i.Left l ∧ j.Left r ∧ out = diffList l r ∧ p = l.length + r.length - 1
  | .search i o' => o' = o ∧ ∃ l, i.Left l ∧ out = l.filter (!cc ·) ∧ p = l.length * o.searchCost

def Intersection.Pot (o : BSet T) (cc : T → Bool) (d : Intersection T) (out : List T) (p : Nat) : Prop :=
  match d with
  | .stitch i j => ∃ l r, i.Left l ∧ j.Left r ∧ out = interList l r ∧ p = l.length + r.length - 1
  | .search i o' => o' = o ∧ ∃ l, i.Left l ∧ out = l.filter (cc ·) ∧ p = l.length * o.searchCost

theorem TwoIters.unionNextP_cost {t : TwoIters T} {out : List T} {p : Nat} (h : t.UnionPot out p) {c : Nat} (hc : p ≤ c) :
    PayStep TwoIters.UnionPot c p out (t.unionNextP c) := by
  obtain ⟨l, r, ha, hb, rfl, rfl⟩ := h
  obtain ⟨a1, h1, h2⟩ := ha.peek
  obtain ⟨b1, h3, h4⟩ := hb.peek
  simp only [TwoIters.unionNextP, h1, h3, Exec.ok_bind]
  obtain ⟨a2, g1, g2⟩ := h2.next
  obtain ⟨b2, g3, g4⟩ := h4.next
  cases l with
  | nil => exact ⟨⟨a1, b2⟩, c, _, by simp [cmpP, g3], ⟨[], r.tail, h2, g4, by simp, rfl⟩, by simp⟩
  | cons x l =>
    cases r with
    | nil => exact ⟨⟨a2, b1⟩, c, _, by simp [cmpP, g1], ⟨l, [], g2, h4, by simp, rfl⟩, by simp⟩
    | cons y r =>
      cases c with
      | zero => simp at hc
      | succ c =>
        simp only [List.head?_cons, cmpP]
        cases hc' : compare x y with
        | lt => exact ⟨⟨a2, b1⟩, c, _, by simp [g1, unionList, hc'], ⟨l, y :: r, g2, h4, by simp [unionList, hc'], rfl⟩, by simp at hc ⊢; omega⟩
        | gt => exact ⟨⟨a1, b2⟩, c, _, by simp [g3, unionList, hc'], ⟨x :: l, r, h2, g4, by simp [unionList, hc'], rfl⟩, by simp at hc ⊢; omega⟩
        | eq => exact ⟨⟨a2, b2⟩, c, _, by simp [g1, g3, unionList, hc'], ⟨l, r, g2, g4, by simp [unionList, hc'], rfl⟩, by simp at hc ⊢; omega⟩

theorem symDiffLoopP_cost (fuel : Nat) {t : TwoIters T} {l r} (ha : t.a.Left l) (hb : t.b.Left r) (hf : l.length + r.length < fuel) {c : Nat}
    (hc : l.length + r.length - 1 ≤ c) : PayStep TwoIters.SymPot c (l.length + r.length - 1) (symList l r) (symDiffLoopP fuel t c) := by
  induction fuel generalizing t l r c with
  | zero => omega
  | succ fuel ih =>
    obtain ⟨a1, h1, h2⟩ := ha.peek
    obtain ⟨b1, h3, h4⟩ := hb.peek
    simp only [symDiffLoopP, h1, h3, Exec.ok_bind]
    obtain ⟨a2, g1, g2⟩ := h2.next
    obtain ⟨b2, g3, g4⟩ := h4.next
    cases l with
    | nil => exact ⟨⟨a1, b2⟩, c, _, by simp [cmpP, g3], ⟨[], r.tail, h2, g4, by simp, rfl⟩, by simp⟩
    | cons x l =>
      cases r with
      | nil => exact ⟨⟨a2, b1⟩, c, _, by simp [cmpP, g1], ⟨l, [], g2, h4, by simp, rfl⟩, by simp⟩
      | cons y r =>
        cases c with
        | zero => simp at hc
        | succ c =>
          simp only [List.head?_cons, cmpP]
          cases hc' : compare x y with
          | lt => exact ⟨⟨a2, b1⟩, c, _, by simp [g1, symList, hc'], ⟨l, y :: r, g2, h4, by simp [symList, hc'], rfl⟩, by simp at hc ⊢; omega⟩
          | gt => exact ⟨⟨a1, b2⟩, c, _, by simp [g3, symList, hc'], ⟨x :: l, r, h2, g4, by simp [symList, hc'], rfl⟩, by simp at hc ⊢; omega⟩
          | eq =>
            simp only [List.length_cons] at hc hf ⊢
            obtain ⟨s, c', p', e, hs, hle⟩ := ih (t := ⟨a2, b2⟩) (l := l) (r := r) g2 g4 (by omega) (c := c) (by omega)
            have : symList (x :: l) (y :: r) = symList l r := by simp [symList, hc']
            rw [this]
            exact ⟨s, c', p', by simp only [g1, g3, Exec.ok_bind, e], hs, by omega⟩

theorem differenceStitchP_cost (o : BSet T) (cc : T → Bool) (fuel : Nat) (x : T) {i : SetIter T} {j : Peekable T} {l r} (hi : i.Left l)
    (hj : j.Left r) (hf : r.length < fuel) {c : Nat} (hc : l.length + r.length ≤ c) :
    PayStep (Difference.Pot o cc) c (l.length + r.length) (diffList (x :: l) r) (differenceStitchP fuel x i j c) := by
  induction fuel generalizing x i j l r c with
  | zero => omega
  | succ fuel ih =>
    obtain ⟨j1, h1, h2⟩ := hj.peek
    simp only [differenceStitchP, h1, Exec.ok_bind]
    cases r with
    | nil => exact ⟨.stitch i j1, c, _, by simp [cmpP], ⟨l, [], hi, h2, by simp, rfl⟩, by simp⟩
    | cons y r =>
      simp only [List.length_cons] at hc hf ⊢
      cases c with
      | zero => omega
      | succ c =>
        simp only [List.head?_cons, cmpP]
        cases hc' : compare x y with
        | lt => exact ⟨.stitch i j1, c, _, by simp [diffList, hc'], ⟨l, y :: r, hi, h2, by simp [diffList, hc'], rfl⟩, by simp; omega⟩
        | eq =>
          obtain ⟨i1, g1, g2⟩ := hi.next
          simp only [g1, Exec.ok_bind]
          cases l with
          | nil => exact ⟨.stitch i1 j1, c, _, by simp [diffList, hc'], ⟨[], y :: r, g2, h2, by simp [diffList, hc'], rfl⟩, by simp; omega⟩
          | cons x' l =>
            obtain ⟨j2, k1, k2⟩ := h2.next
            simp only [List.length_cons] at hc ⊢
            obtain ⟨s, c', p', e, hs, hle⟩ := ih x' (l := l) (r := r) g2 k2 (by omega) (c := c) (by omega)
            have : diffList (x :: x' :: l) (y :: r) = diffList (x' :: l) r := by simp [diffList, hc']
            rw [this]
            exact ⟨s, c', p', by simp only [List.head?_cons, k1, Exec.ok_bind, e], hs, by omega⟩
        | gt =>
          obtain ⟨j2, k1, k2⟩ := h2.next
          obtain ⟨s, c', p', e, hs, hle⟩ := ih x (l := l) (r := r) hi k2 (by omega) (c := c) (by omega)
          have : diffList (x :: l) (y :: r) = diffList (x :: l) r := by simp [diffList, hc']
          rw [this]
          exact ⟨s, c', p', by simp only [k1, Exec.ok_bind, e], hs, by omega⟩

theorem BSet.containsP_cost {o : BSet T} (ho : o.map.WF) {x : T} {b : Bool} (hb : o.contains id x = .ok b) {c n : Nat} (hc : (n + 1) * o.searchCost ≤ c) :
    ∃ c', o.containsP id x c = .ok (some (b, c')) ∧ n * o.searchCost ≤ c' ∧ c + n * o.searchCost ≤ c' + (n + 1) * o.searchCost := by
  rw [Nat.succ_mul] at hc ⊢
  rcases BSet.containsP_spec ho id hb c with ⟨hlt, _⟩ | ⟨c', hle, g⟩
  · omega
  · exact ⟨c', g, by omega, by omega⟩

theorem differenceSearchP_cost (o : BSet T) (ho : o.map.WF) (cc : T → Bool) (hcc : ∀ x, o.contains id x = .ok (cc x)) (fuel : Nat)
    {i : SetIter T} {l} (hi : i.Left l) (hf : l.length < fuel) {c : Nat} (hc : l.length * o.searchCost ≤ c) :
    PayStep (Difference.Pot o cc) c (l.length * o.searchCost) (l.filter (!cc ·)) (differenceSearchP o fuel i c) := by
  induction fuel generalizing i l c with
  | zero => omega
  | succ fuel ih =>
    obtain ⟨i1, h1, h2⟩ := hi.next
    simp only [differenceSearchP, h1, Exec.ok_bind]
    cases l with
    | nil => exact ⟨.search i1 o, c, _, by simp, ⟨rfl, [], h2, by simp, rfl⟩, by simp⟩
    | cons x l =>
      simp only [List.length_cons] at hc hf ⊢
      obtain ⟨c', g, hc', hle⟩ := BSet.containsP_cost ho (hcc x) hc
      simp only [List.head?_cons, g, Exec.ok_bind]
      cases hx : cc x with
      | false => exact ⟨.search i1 o, c', _, by simp [hx], ⟨rfl, l, h2, by simp [hx], rfl⟩, hle⟩
      | true =>
        obtain ⟨s, c'', p', e, hs, hle'⟩ := ih (l := l) h2 (by omega) (c := c') hc'
        have : (x :: l).filter (!cc ·) = l.filter (!cc ·) := by simp [hx]
        rw [this]
        exact ⟨s, c'', p', by simp [e], hs, by omega⟩

theorem Difference.nextP_cost (o : BSet T) (ho : o.map.WF) (cc : T → Bool) (hcc : ∀ x, o.contains id x = .ok (cc x)) {d : Difference T} {out : List T}
    {p : Nat} (h : Difference.Pot o cc d out p) {c : Nat} (hc : p ≤ c) : PayStep (Difference.Pot o cc) c p out (d.nextP c) := by
  cases d with
  | stitch i j =>
    obtain ⟨l, r, h1, h2, rfl, rfl⟩ := h
    obtain ⟨i1, g1, g2⟩ := h1.next
    simp only [Difference.nextP, g1, Exec.ok_bind]
    cases l with
    | nil => exact ⟨.stitch i1 j, c, _, by simp, ⟨[], r, g2, h2, by simp, rfl⟩, by simp⟩
    | cons x l =>
      have hs : (x :: l).length + r.length - 1 = l.length + r.length := by simp
      rw [hs] at hc ⊢
      exact differenceStitchP_cost o cc (j.len + 1) x (l := l) g2 h2 (by rw [h2.len]; omega) hc
  | search i o' =>
    obtain ⟨rfl, l, h1, rfl, rfl⟩ := h
    exact differenceSearchP_cost o' ho cc hcc (i.len + 1) h1 (by rw [h1.len]; omega) hc

theorem intersectionStitchP_cost (o : BSet T) (cc : T → Bool) (fuel : Nat) (x y : T) {i j : SetIter T} {l r} (hi : i.Left l)
    (hj : j.Left r) (hf : l.length + r.length < fuel) {c : Nat} (hc : l.length + r.length + 1 ≤ c) :
    PayStep (Intersection.Pot o cc) c (l.length + r.length + 1) (interList (x :: l) (y :: r)) (intersectionStitchP fuel x y i j c) := by
  induction fuel generalizing x y i j l r c with
  | zero => omega
  | succ fuel ih =>
    cases c with
    | zero => omega
    | succ c =>
      simp only [intersectionStitchP, cmpP]
      cases hc' : compare x y with
      | lt =>
        obtain ⟨i1, g1, g2⟩ := hi.next
        simp only [g1, Exec.ok_bind]
        cases l with
        | nil => exact ⟨.stitch i1 j, c, _, by simp [interList, hc'], ⟨[], r, g2, hj, by simp [interList, hc'], rfl⟩, by simp; omega⟩
        | cons x' l =>
          simp only [List.length_cons] at hc hf ⊢
          obtain ⟨s, c', p', e, hs, hle⟩ := ih x' y (l := l) (r := r) g2 hj (by omega) (c := c) (by omega)
          have : interList (x :: x' :: l) (y :: r) = interList (x' :: l) (y :: r) := by simp [interList, hc']
          rw [this]
          exact ⟨s, c', p', by simp only [List.head?_cons, e], hs, by omega⟩
      | eq => exact ⟨.stitch i j, c, _, by simp [interList, hc'], ⟨l, r, hi, hj, by simp [interList, hc'], rfl⟩, by omega⟩
      | gt =>
        obtain ⟨j1, g1, g2⟩ := hj.next
        simp only [g1, Exec.ok_bind]
        cases r with
        | nil => exact ⟨.stitch i j1, c, _, by simp [interList, hc'], ⟨l, [], hi, g2, by simp [interList, hc'], rfl⟩, by simp; omega⟩
        | cons y' r =>
          simp only [List.length_cons] at hc hf ⊢
          obtain ⟨s, c', p', e, hs, hle⟩ := ih x y' (l := l) (r := r) hi g2 (by omega) (c := c) (by omega)
          have : interList (x :: l) (y :: y' :: r) = interList (x :: l) (y' :: r) := by simp [interList, hc']
          rw [this]
          exact ⟨s, c', p', by simp only [List.head?_cons, e], hs, by omega⟩

theorem intersectionSearchP_cost (o : BSet T) (ho : o.map.WF) (cc : T → Bool) (hcc : ∀ x, o.contains id x = .ok (cc x)) (fuel : Nat)
    {i : SetIter T} {l} (hi : i.Left l) (hf : l.length < fuel) {c : Nat} (hc : l.length * o.searchCost ≤ c) :
    PayStep (Intersection.Pot o cc) c (l.length * o.searchCost) (l.filter (cc ·)) (intersectionSearchP o fuel i c) := by
  induction fuel generalizing i l c with
  | zero => omega
  | succ fuel ih =>
    obtain ⟨i1, h1, h2⟩ := hi.next
    simp only [intersectionSearchP, h1, Exec.ok_bind]
    cases l with
    | nil => exact ⟨.search i1 o, c, _, by simp, ⟨rfl, [], h2, by simp, rfl⟩, by simp⟩
    | cons x l =>
      simp only [List.length_cons] at hc hf ⊢
      obtain ⟨c', g, hc', hle⟩ := BSet.containsP_cost ho (hcc x) hc
      simp only [List.head?_cons, g, Exec.ok_bind]
      cases hx : cc x with
      | true => exact ⟨.search i1 o, c', _, by simp [hx], ⟨rfl, l, h2, by simp [hx], rfl⟩, hle⟩
      | false =>
        obtain ⟨s, c'', p', e, hs, hle'⟩ := ih (l := l) h2 (by omega) (c := c') hc'
        have : (x :: l).filter (cc ·) = l.filter (cc ·) := by simp [hx]
        rw [this]
        exact ⟨s, c'', p', by simp [e], hs, by omega⟩

theorem Intersection.nextP_cost (o : BSet T) (ho : o.map.WF) (cc : T → Bool) (hcc : ∀ x, o.contains id x = .ok (cc x)) {d : Intersection T} {out : List T}
    {p : Nat} (h : Intersection.Pot o cc d out p) {c : Nat} (hc : p ≤ c) : PayStep (Intersection.Pot o cc) c p out (d.nextP c) := by
  cases d with
  | stitch i j =>
    obtain ⟨l, r, h1, h2, rfl, rfl⟩ := h
    obtain ⟨i1, g1, g2⟩ := h1.next
    simp only [Intersection.nextP, g1, Exec.ok_bind]
    cases l with
    | nil => exact ⟨.stitch i1 j, c, _, by simp, ⟨[], r, g2, h2, by simp, rfl⟩, by simp⟩
    | cons x l =>
      obtain ⟨j1, k1, k2⟩ := h2.next
      simp only [List.head?_cons, k1, Exec.ok_bind]
      cases r with
      | nil => exact ⟨.stitch i1 j1, c, _, by simp, ⟨l, [], g2, k2, by simp, rfl⟩, by simp⟩
      | cons y r =>
        have hs : (x :: l).length + (y :: r).length - 1 = l.length + r.length + 1 := by simp; omega
        rw [hs] at hc ⊢
        exact intersectionStitchP_cost o cc (i1.len + j1.len + 1) x y g2 k2 (by rw [g2.len, k2.len]; simp) hc
  | search i o' =>
    obtain ⟨rfl, l, h1, rfl, rfl⟩ := h
    exact intersectionSearchP_cost o' ho cc hcc (i.len + 1) h1 (by rw [h1.len]; omega) hc

/-! ### the four together -/

/-- The iterator has the items `out` still to come, and `p` comparisons set aside for them. -/
def AlgPot (o oi : BSet T) (c ci : T → Bool) (v : AlgView T) (out : List T) (p : Nat) : Prop :=
  match v with
  | .difference d => Difference.Pot o c d out p
  | .symmetricDifference t => t.SymPot out p
  | .intersection d => Intersection.Pot oi ci d out p
  | .union t => t.UnionPot out p

omit [Ord T] in
theorem PayStep.wrap {S : Type} {I : S → List T → Nat → Prop} {J : AlgView T → List T → Nat → Prop} {f : S → AlgView T}
    (hf : ∀ s out p, I s out p → J (f s) out p) {c p : Nat} {out : List T} {z : Exec (Outcome S ((Option T × S) × Nat))} (h : PayStep I c p out z) :
    PayStep J c p out (do let r ← z; .ok (r.wrap f)) := by
  obtain ⟨s, c', p', rfl, hs, hle⟩ := h
  exact ⟨f s, c', p', rfl, hf _ _ _ hs, hle⟩

theorem AlgPot.next {o oi : BSet T} (ho : o.map.WF) (hoi : oi.map.WF) {cc ci : T → Bool} (hcc : ∀ x, o.contains id x = .ok (cc x))
    (hci : ∀ x, oi.contains id x = .ok (ci x)) {v : AlgView T} {out : List T} {p : Nat} (h : AlgPot o oi cc ci v out p) {c : Nat} (hc : p ≤ c) :
    PayStep (AlgPot o oi cc ci) c p out (v.nextP c) := by
  cases v with
  | difference d => exact (Difference.nextP_cost o ho cc hcc h hc).wrap (f := .difference) fun s out p h => h
  | symmetricDifference t =>
    obtain ⟨l, r, h1, h2, rfl, rfl⟩ := h
    exact (symDiffLoopP_cost (t.a.len + t.b.len + 1) h1 h2 (by rw [h1.len, h2.len]; omega) hc).wrap (f := .symmetricDifference) fun s out p h => h
  | intersection d => exact (Intersection.nextP_cost oi hoi ci hci h hc).wrap (f := .intersection) fun s out p h => h
  | union t => exact (TwoIters.unionNextP_cost h hc).wrap (f := .union) fun s out p h => h

theorem AlgView.runP_cost {I : AlgView T → List T → Nat → Prop} (hI : ∀ v out p c, I v out p → p ≤ c → PayStep I c p out (v.nextP c)) (n : Nat)
    {v : AlgView T} {out : List T} {p c : Nat} (h : I v out p) (hc : p ≤ c) :
    ∃ v' c', v.runP n c = .ok (some ((answers n out, v'), c')) ∧ c ≤ c' + p := by
  induction n generalizing v out p c with
  | zero => exact ⟨v, c, by simp [AlgView.runP, answers], by omega⟩
  | succ n ih =>
    obtain ⟨v1, c1, p1, e1, h1, hle⟩ := hI v out p c h hc
    obtain ⟨v', c', e, hle'⟩ := ih h1 (c := c1) (by omega)
    refine ⟨v', c', ?_, by omega⟩
    simp only [AlgView.runP, e1, e, Exec.ok_bind]
    cases out <;> simp [answers, List.replicate_succ]

/-! ### predicates -/

theorem subsetStitchP_cost (fuel : Nat) (a b : Option T) {x y : SetIter T} {l r} (hx : x.Left l) (hy : y.Left r)
    (hf : r.length + b.toList.length < fuel) {c : Nat} (hc : r.length + b.toList.length ≤ c) {ans : Bool} (he : subsetStitch fuel a b x y = .ok ans) :
    ∃ c', subsetStitchP fuel a b x y c = .ok (some (ans, c')) ∧ c ≤ c' + (r.length + b.toList.length) := by
  induction fuel generalizing a b x y l r c with
  | zero => omega
  | succ fuel ih =>
    unfold subsetStitch at he
    unfold subsetStitchP
    cases a with
    | none => simp at he; subst he; exact ⟨c, rfl, by omega⟩
    | some a1 =>
      cases b with
      | none => simp at he; subst he; exact ⟨c, rfl, by omega⟩
      | some b1 =>
        simp only [Option.toList_some, List.length_singleton] at hf hc ⊢
        cases c with
        | zero => omega
        | succ c =>
          simp only at he ⊢
          obtain ⟨i1, g1, g2⟩ := hx.next
          obtain ⟨j1, k1, k2⟩ := hy.next
          have hh : r.tail.length + r.head?.toList.length = r.length := by cases r <;> simp
          cases hc' : compare b1 a1 with
          | lt =>
            simp only [hc', k1, Exec.ok_bind] at he ⊢
            obtain ⟨c', e, hle⟩ := ih (some a1) r.head? hx k2 (by omega) (c := c) (by omega) he
            exact ⟨c', e, by omega⟩
          | gt => simp [hc'] at he ⊢; subst he; exact ⟨c, by simp, by omega⟩
          | eq =>
            simp only [hc', g1, k1, Exec.ok_bind] at he ⊢
            obtain ⟨c', e, hle⟩ := ih l.head? r.head? g2 k2 (by omega) (c := c) (by omega) he
            exact ⟨c', e, by omega⟩

theorem subsetSearchP_cost (o : BSet T) (ho : o.map.WF) (cc : T → Bool) (hcc : ∀ x, o.contains id x = .ok (cc x)) (fuel : Nat)
    {i : SetIter T} {l} (hi : i.Left l) (hf : l.length < fuel) {c : Nat} (hc : l.length * o.searchCost ≤ c) {ans : Bool}
    (he : subsetSearch o fuel i = .ok ans) :
    ∃ c', subsetSearchP o fuel i c = .ok (some (ans, c')) ∧ c ≤ c' + l.length * o.searchCost := by
  induction fuel generalizing i l c with
  | zero => omega
  | succ fuel ih =>
    obtain ⟨i1, h1, h2⟩ := hi.next
    simp only [subsetSearch, h1, Exec.ok_bind] at he
    simp only [subsetSearchP, h1, Exec.ok_bind]
    cases l with
    | nil => simp at he; subst he; exact ⟨c, by simp, by omega⟩
    | cons x l =>
      simp only [List.length_cons] at hc hf ⊢
      obtain ⟨c', g, hc', hle⟩ := BSet.containsP_cost ho (hcc x) hc
      simp only [List.head?_cons, hcc, Exec.ok_bind] at he
      simp only [List.head?_cons, g, Exec.ok_bind]
      cases hx : cc x with
      | false => simp [hx] at he; subst he; exact ⟨c', by simp, by omega⟩
      | true =>
        simp only [hx, if_true] at he
        obtain ⟨c'', e, hle'⟩ := ih (l := l) h2 (by omega) (c := c') hc' he
        exact ⟨c'', by simp [e], by omega⟩

/-! ### the operators -/

theorem Map.searchP_cost {K V Q : Type} [Ord Q] {m : Map K V} (h : m.WF) (bor : K → Q) {q : Q} {sr : SearchResult} (e : m.search bor q = .ok sr) {c : Nat}
    (hc : lookCost m.toList.length ≤ c) : ∃ c', m.searchP bor q c = .ok (some (sr, c')) ∧ c ≤ c' + lookCost m.toList.length := by
  have hcost := Heap.height_cost h
  obtain ⟨c', g⟩ := searchTreeP_total (bor := bor) (q := q) c h.below h.shape.1 (by omega) e
  have := searchTreeP_cost h.below h.shape.1 g
  exact ⟨c', g, by omega⟩

theorem Map.tryInsertP_cost {K V : Type} [Ord K] {m : Map K V} (h : m.WF) (k : K) (v : V) (a : Alloc) {r} (e : m.tryInsert k v a = .ok r) {c : Nat}
    (hc : lookCost m.toList.length ≤ c) : ∃ c', m.tryInsertP k v a c = .ok (.done (r, c')) ∧ c ≤ c' + lookCost m.toList.length := by
  obtain ⟨r0, m', a', h1, h2, h3, h4, h5, h6, h7⟩ := Map.ensureRoot_spec h a
  rw [← h3] at hc ⊢
  cases r0 with
  | error er =>
    simp [Map.tryInsert, Map.tryEntry, h1] at e
    exact ⟨c, by simp [Map.tryInsertP, Map.tryEntryP, h1, e], by omega⟩
  | ok u =>
    rcases Map.search_wf h2 id k with ⟨hd, A, kv, B, g1, g2, g3⟩ | ⟨hd, A, B, g1, g2⟩
    · obtain ⟨c', e1, hle⟩ := Map.searchP_cost h2 id g1 hc
      refine ⟨c', ?_, hle⟩
      simp only [Map.tryInsert, Map.tryEntry, h1, g1, Exec.ok_bind] at e
      obtain ⟨x, e2, e3⟩ := Exec.bind_eq_ok.1 e
      simp at e3
      simp [Map.tryInsertP, Map.tryEntryP, h1, e1, e2, e3]
    · obtain ⟨c', e1, hle⟩ := Map.searchP_cost h2 id g1 hc
      refine ⟨c', ?_, hle⟩
      simp only [Map.tryInsert, Map.tryEntry, h1, g1, Exec.ok_bind] at e
      obtain ⟨x, e2, e3⟩ := Exec.bind_eq_ok.1 e
      obtain ⟨r1, m1, a1⟩ := x
      cases r1 <;> simp at e3 <;> simp [Map.tryInsertP, Map.tryEntryP, h1, e1, e2, e3]

theorem AlgView.collectP_cost {I : AlgView T → List T → Nat → Prop} (hI : ∀ v out p c, I v out p → p ≤ c → PayStep I c p out (v.nextP c)) (fk : T → T)
    (fuel : Nat) {v : AlgView T} {out : List T} {p c : Nat} (h : I v out p) (hf : out.length < fuel) {set : BSet T} (hset : set.map.WF) (a : Alloc) {n : Nat}
    (hn : set.map.toList.length + out.length ≤ n) (hc : p + out.length * lookCost n ≤ c) {r} (e : set.extend (out.map fk) a = .ok r) :
    ∃ c', v.collectP fk fuel set a c = .ok (some (r, c')) ∧ c ≤ c' + (p + out.length * lookCost n) := by
  induction fuel generalizing v out p c set a with
  | zero => omega
  | succ fuel ih =>
    obtain ⟨v1, c1, p1, e1, h1, hle⟩ := hI v out p c h (by omega)
    simp only [AlgView.collectP, e1, Exec.ok_bind]
    cases out with
    | nil =>
      simp [BSet.extend] at e
      exact ⟨c1, by simp [e], by omega⟩
    | cons x out =>
      simp only [List.length_cons, Nat.succ_mul] at hn hc hf ⊢
      simp only [List.map_cons, BSet.extend, BSet.tryInsert] at e
      obtain ⟨y, e2, e3⟩ := Exec.bind_eq_ok.1 e
      obtain ⟨z, e4, e5⟩ := Exec.bind_eq_ok.1 e2
      have hmono := Heap.lookCost_mono (n := set.map.toList.length) (n' := n) (by omega)
      obtain ⟨c2, g1, g2⟩ := Map.tryInsertP_cost hset (fk x) () a e4 (c := c1) (by omega)
      obtain ⟨r', m', a', k1, k2, k3⟩ := Map.tryInsert_wf hset (fk x) () a
      obtain rfl := Exec.ok_unique e4 k1
      cases r' with
      | error er => simp at e5; subst e5; simp at e3
      | ok old =>
        simp at e5; subst e5
        simp only at e3 k2
        obtain ⟨c3, g3, g4⟩ := ih (v := v1) (out := out) (p := p1) (c := c2) h1 (by omega) (set := ⟨m'⟩) k2.1 a'
          (by have := k2.2; simp only; split at this <;> omega) (by omega) e3
        refine ⟨c3, ?_, by omega⟩
        simp [BSet.tryInsertP, g1, g3]

end Verif.BTree
