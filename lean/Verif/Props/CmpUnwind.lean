import Verif.Heap.Proofs.CutPool
import Verif.Props.Budget
import Verif.Props.Heap
/-
C69: comparisons of keys that panic in the calls that look for a key and in `extend`, in memory.
-/
namespace Verif.Props
open Verif Verif.Heap Verif.Spec
open Verif.BTree (Map CutStep CutRun)

variable {K V Q : Type} {pl : Nat → Heap.Addr}

theorem ensureRoot_valid [Ord K] {p : List (Map K V)} (hp : ∀ m ∈ p, m.Valid) {i : Nat} {M M' : Map K V} {a a' : Alloc} (hi : p[i]? = some M)
    (h : M.ensureRootIsOwned a = (.ok (), M', a')) :
    (∀ m ∈ p.set i M', m.Valid) ∧ (p.set i M').map Map.toList = p.map Map.toList ∧ (a.Good → a'.Good) := by
  have hM := hp M (List.mem_of_getElem? hi)
  obtain ⟨r, m', b, e1, e2, e3, _, _, _, e4⟩ := Map.ensureRoot_spec hM.toShaped a
  rw [h] at e1
  simp only [Prod.mk.injEq] at e1
  obtain ⟨rfl, rfl, rfl⟩ := e1
  refine ⟨fun m hm => ?_, ?_, fun hg => (e4 hg).2⟩
  · rcases List.mem_or_eq_of_mem_set hm with hm | rfl
    · exact hp m hm
    · exact ⟨e2, by rw [e3]; exact hM.sorted⟩
  · rw [List.map_set, e3]
    exact set_same (by simp [hi])

/-- One call. -/
theorem cutStep_agrees [Ord K] [Std.TransOrd K] [Ord Q] [Std.TransOrd Q] {bor : K → Q} (hbo : BorrowOK bor) {op : Op K V Q} {p p' : List (Map K V)}
    (hp : ∀ m ∈ p, m.Valid) {al al' : Alloc} {n : Option Nat} {o : Option (Out K V)} (h : CutStep bor op p al n o p' al') :
    (al.Good → al'.Good) ∧ ((o = some .failed ∧ ¬ al.Good) ∨ (∀ m ∈ p', m.Valid) ∧
      match n with
      | none => o = some (op.spec bor (p.map Map.toList)).1 ∧ p'.map Map.toList = (op.spec bor (p.map Map.toList)).2
      | some n => o = none ∧ p'.map Map.toList = op.specUpTo bor (p.map Map.toList) n) := by
  cases h with
  | ret h =>
    rcases BTree.Op.run_agrees hbo hp al op with ⟨⟨msg, h1⟩, _⟩ | ⟨o', q, b, h1, h2, h3⟩
    · rw [h1] at h; cases h
    · obtain ⟨rfl, rfl, rfl⟩ := by simpa using BTree.Exec.ok_unique h1 h
      refine ⟨h2, ?_⟩
      rcases h3 with ⟨rfl, h3⟩ | ⟨h3, h4, h5⟩
      · exact .inl ⟨rfl, h3⟩
      · exact .inr ⟨h3, by rw [h4], h5⟩
  | @cut n p1 p2 al1 al2 h1 h2 =>
    have key : (∀ m ∈ p1, m.Valid) ∧ p1.map Map.toList = op.specUpTo bor (p.map Map.toList) n ∧ (al.Good → al1.Good) := by
      unfold Op.specUpTo
      cases hu : op.upTo n with
      | none => rw [hu] at h1; obtain ⟨rfl, rfl⟩ := h1; exact ⟨hp, rfl, id⟩
      | some op' =>
        rw [hu] at h1
        dsimp only at h1 ⊢
        rcases BTree.Op.run_agrees hbo hp al op' with ⟨⟨msg, k1⟩, _⟩ | ⟨o', q, b, k1, k2, k3⟩
        · rw [k1] at h1; cases h1
        · obtain ⟨rfl, rfl, rfl⟩ := by simpa using BTree.Exec.ok_unique k1 h1
          rcases k3 with ⟨k3, _⟩ | ⟨k3, k4, k5⟩
          · cases k3
          · exact ⟨k3, k5, k2⟩
    obtain ⟨g1, g2, g3⟩ := key
    rcases h2 with ⟨rfl, rfl⟩ | ⟨i, M, M', hi, h3, rfl⟩
    · exact ⟨g3, .inr ⟨g1, rfl, g2⟩⟩
    · obtain ⟨k1, k2, k3⟩ := ensureRoot_valid g1 hi h3
      exact ⟨fun h => k3 (g3 h), .inr ⟨k1, rfl, k2.trans g2⟩⟩

/-- A program. -/
theorem cutRun_agrees [Ord K] [Std.TransOrd K] [Ord Q] [Std.TransOrd Q] {bor : K → Q} (hbo : BorrowOK bor) {ops : List (Op K V Q × Option Nat)} {p p' : List (Map K V)}
    {al al' : Alloc} {os : List (Option (Out K V))} (h : CutRun bor ops p al os p' al') (hp : ∀ m ∈ p, m.Valid) :
    ((some .failed ∈ os ∧ ¬ al.Good) ∨ (∀ m ∈ p', m.Valid) ∧ (al.Good → al'.Good) ∧ os = (Op.specsCut bor ops (p.map Map.toList)).1 ∧
      p'.map Map.toList = (Op.specsCut bor ops (p.map Map.toList)).2) := by
  induction h with
  | nil => exact .inr ⟨hp, id, rfl, rfl⟩
  | @cons op n ops p p1 p2 al al1 al2 o os h hs ih =>
    obtain ⟨h1, h2⟩ := cutStep_agrees hbo hp h
    rcases h2 with ⟨rfl, h2⟩ | ⟨h2, h3⟩
    · exact .inl ⟨by simp, h2⟩
    · rcases ih h2 with ⟨k1, k2⟩ | ⟨k1, k2, k3, k4⟩
      · exact .inl ⟨List.mem_cons_of_mem _ k1, fun hg => k2 (h1 hg)⟩
      · cases n with
        | none =>
          obtain ⟨rfl, e⟩ := h3
          rw [e] at k3 k4
          exact .inr ⟨k1, fun h => k2 (h1 h), by rw [Op.specsCut, ← k3], by rw [Op.specsCut, ← k4]⟩
        | some n =>
          obtain ⟨rfl, e⟩ := h3
          rw [e] at k3 k4
          exact .inr ⟨k1, fun h => k2 (h1 h), by rw [Op.specsCut, ← k3], by rw [Op.specsCut, ← k4]⟩

/-- A program that starts with nothing allocated. -/
theorem hcuts_cases [Ord K] [Ord Q] (bor : K → Q) (ops : List (Op K V Q × Nat)) (al : Alloc) (pl : Nat → Addr) :
    match Op.hcuts bor ops [] (Heap.start al pl) with
    | .ok (r, s) => s.Good ∧ CutsPost bor ops [] al r s.world
    | .ub => False
    | .panic msg => ∃ pre os q b op, CutRun bor pre ([] : List (Map K V)) al os q b ∧ BTree.Op.run bor q b op = .panic msg := by
  have h := hcuts_ref (E := fun msg => ∃ pre os q b op, CutRun bor pre ([] : List (Map K V)) al os q b ∧ BTree.Op.run bor q b op = .panic msg) bor ops (hs := [])
    (p := []) (by simp) al (fun pre os q b op _ h1 h2 => ⟨pre, os, q, b, op, h1, h2⟩) emp (Heap.start al pl) (start_good al) (start_world al)
  cases hr : Op.hcuts bor ops [] (Heap.start al pl) with
  | ok r =>
    rw [hr] at h
    exact ⟨h.1, by simpa only [sep_emp] using h.2⟩
  | ub => rw [hr] at h; exact h
  | panic msg => rw [hr] at h; exact h

/-- **C69** Whatever comparisons panic, in a program over any number of maps that catches the panics of its calls and goes on, with any comparison function and
allocator: it is never undefined behaviour. -/
theorem C69_no_ub [Ord K] [Ord Q] (bor : K → Q) (ops : List (Op K V Q × Nat)) (al : Alloc) (pl : Nat → Addr) : Op.hcuts bor ops [] (Heap.start al pl) ≠ .ub := by
  intro h
  have := hcuts_cases bor ops al pl
  rw [h] at this
  exact this

theorem hcuts_ok [Ord K] [Ord Q] {bor : K → Q} {ops : List (Op K V Q × Nat)} {al : Alloc} {rs : List (Option (Out K V))} {p : List HMap} {s : Heap K V}
    (hr : Op.hcuts bor ops [] (Heap.start al pl) = .ok ((rs, true, p), s)) :
    ∃ ns ms al', ns.length = ops.length ∧ CutRun bor ((ops.map (·.1)).zip ns) [] al rs ms al' ∧ (∀ m ∈ ms, m.WF) ∧ s.Good ∧ (pool p ms ∗ sched al') s.world := by
  have h := hcuts_cases bor ops al pl
  rw [hr] at h
  obtain ⟨hg, ⟨ns, ms, al'⟩, hw⟩ := h
  obtain ⟨⟨h1, h2, h3, _⟩, hw⟩ := fact_sep.1 hw
  dsimp only at h1 h2 h3 hw
  simp only [leak, sep_emp] at hw
  exact ⟨ns, ms, al', h1.trans (h3 rfl).1, h2, (h3 rfl).2, hg, hw⟩

/-- **C69** A call none of whose comparisons panics does what the undisturbed call does. -/
theorem C69_returned [Ord K] [Ord Q] {bor : K → Q} {op : Op K V Q} {fuel : Nat} {p p' : List HMap} {s s' : Heap K V} {o : Out K V}
    (h : Op.hcut bor p op fuel s = .ok ((some o, p'), s')) : Op.hrun bor p op s = .ok ((o, p'), s') := by
  have := hcut_judge bor p op fuel s
  rw [h] at this
  exact this

/-- **C69** A call that takes one key or a range is not unwound if `22 * (h + 1) + 2` comparisons return, where `h` is the height of the highest map. -/
theorem C69_enough [Ord K] [Ord Q] {bor : K → Q} {op : Op K V Q} (hop : ∀ i items, op ≠ .extend i items) {fuel : Nat} {p p' : List HMap} {s s' : Heap K V}
    (hf : ∀ m ∈ p, 22 * (m.root.height + 1) + 2 ≤ fuel) : Op.hcut bor p op fuel s ≠ .ok ((none, p'), s') := by
  intro h
  have := hcut_judge bor p op fuel s
  rw [h] at this
  unfold OpJudge at this
  rcases this.2 with ⟨i, items, h⟩ | ⟨m, hm, h⟩
  · exact hop i items h
  · have := hf m hm
    omega

/-- **C69** Nor is `extend`, if enough of them do. -/
theorem C69_enough_extend [Ord K] [Ord Q] (bor : K → Q) (i : Nat) (items : List (K × V)) (p : List HMap) (s : Heap K V) :
    ∃ N, ∀ fuel, N ≤ fuel → ∀ p' s', Op.hcut bor p (.extend i items) fuel s ≠ .ok ((none, p'), s') := by
  cases hi : p[i]? with
  | none =>
    refine ⟨0, fun fuel _ p' s' h => ?_⟩
    have h : onHMapU p i _ s = _ := h
    unfold onHMapU at h
    rw [hi] at h
    injection h with h
    simp only [Prod.mk.injEq] at h
    cases h.1.1
  | some m =>
    obtain ⟨N, hN⟩ := extendC_enough items m s
    refine ⟨N, fun fuel hf p' s' h => ?_⟩
    have h : onHMapU p i _ s = _ := h
    unfold onHMapU at h
    rw [hi] at h
    dsimp only at h
    rw [hm_assoc, bind_run] at h
    cases hx : m.extendC items fuel s with
    | ok r =>
      rw [hx] at h
      obtain ⟨⟨x, m'⟩, s1⟩ := r
      cases x with
      | none => exact hN fuel hf m' s1 hx
      | some x =>
        injection h with h
        simp only [Prod.mk.injEq] at h
        cases h.1.1
    | panic msg => rw [hx] at h; cases h
    | ub => rw [hx] at h; cases h

theorem ensureRoot_length {m m' : HMap} {s s' : Heap K V} (e : m.ensureRootIsOwned s = .ok (some m', s')) : m'.length = m.length := by
  unfold HMap.ensureRootIsOwned at e
  split at e
  · obtain ⟨r, s1, h1, e⟩ := run_bind.1 e
    obtain ⟨e, _⟩ := run_pure.1 e
    cases r with
    | none => cases e
    | some r => cases e; rfl
  · obtain ⟨e, _⟩ := run_pure.1 e
    cases e
    rfl

/-- **C69** A call other than `extend` that is unwound has changed no map: the owning iterators give the same pairs as before it, and after dropping all maps nothing
is allocated.  For any comparison function. -/
theorem C69_unwound [Ord K] [Ord Q] {bor : K → Q} {ops : List (Op K V Q × Nat)} {al : Alloc} {rs : List (Option (Out K V))} {p p' : List HMap} {s s' : Heap K V}
    (hr : Op.hcuts bor ops [] (Heap.start al pl) = .ok ((rs, true, p), s)) {op : Op K V Q} (hop : ∀ i items, op ≠ .extend i items) {fuel : Nat}
    (hc : Op.hcut bor p op fuel s = .ok ((none, p'), s')) :
    p'.map (·.length) = p.map (·.length) ∧ ∃ ls s1 s2, dropAll p s = .ok (ls, s1) ∧ dropAll p' s' = .ok (ls, s2) ∧ ∀ a, s2.cells a = none := by
  obtain ⟨ns, ms, al', h1, h2, h3, hg, hw⟩ := hcuts_ok hr
  obtain ⟨s1, k1, _⟩ := all_freed (dropAll_spec h3) hg hw
  have hj := hcut_judge bor p op fuel s
  rw [hc] at hj
  obtain ⟨⟨n, q, t, c1, c2⟩, _⟩ := hj
  have hu : op.upTo n = none := by
    cases op with
    | extend i items => exact absurd rfl (hop i items)
    | _ => rfl
  rw [hu] at c1
  obtain ⟨rfl, rfl⟩ := c1
  have hpost := hcut_ref (E := fun _ => True) bor h3 al' op fuel (fun _ _ => trivial) emp t hg (by rw [sep_emp]; exact hw)
  rw [hc] at hpost
  obtain ⟨hg', hw'⟩ := hpost
  rw [sep_emp] at hw'
  obtain ⟨⟨n', q', b⟩, hw'⟩ := hw'
  obtain ⟨hs, hw'⟩ := fact_sep.1 hw'
  dsimp only at hs hw'
  rw [sep_emp] at hw'
  have hwf : ∀ m ∈ q', m.WF := by
    rcases hs.wf h3 with ⟨_, h⟩ | h
    · cases h
    · exact h
  obtain ⟨s2, k3, k4⟩ := all_freed (dropAll_spec hwf) hg' hw'
  have hsame : q'.map Map.toList = ms.map Map.toList := by
    cases hs with
    | @cut n p1 p2 al1 al2 d1 d2 =>
      have hu : op.upTo n = none := by
        cases op with
        | extend i items => exact absurd rfl (hop i items)
        | _ => rfl
      rw [hu] at d1
      obtain ⟨rfl, rfl⟩ := d1
      rcases d2 with ⟨rfl, rfl⟩ | ⟨i, M, M', hi, d3, rfl⟩
      · rfl
      · obtain ⟨r, m', a', e1, _, e3, _⟩ := Map.ensureRoot_spec (h3 M (List.mem_of_getElem? hi)) _
        rw [d3] at e1
        simp only [Prod.mk.injEq] at e1
        obtain ⟨_, rfl, _⟩ := e1
        rw [List.map_set, e3]
        exact set_same (by simp [hi])
  refine ⟨?_, _, s1, s2, k1, by rw [← hsame]; exact k3, k4⟩
  rcases c2 with ⟨rfl, rfl⟩ | ⟨i, m, m', hi, c3, rfl⟩
  · rfl
  · rw [List.map_set, ensureRoot_length c3]
    exact set_same (by simp [hi])

/-- **C69** With a lawful order, a program whose calls are unwound here and there does what sorted association lists do: a call that is unwound leaves every list alone,
except that an `extend` has inserted a first part of its pairs.  Dropping the maps at the end drops exactly the pairs of the lists and leaves nothing allocated. -/
theorem C69_history [Ord K] [Std.TransOrd K] [Ord Q] [Std.TransOrd Q] {bor : K → Q} (hbo : BorrowOK bor) {ops : List (Op K V Q × Nat)} {al : Alloc}
    {rs : List (Option (Out K V))} {p : List HMap} {s : Heap K V} (hr : Op.hcuts bor ops [] (Heap.start al pl) = .ok ((rs, true, p), s)) (hf : some .failed ∉ rs) :
    ∃ ns : List (Option Nat), ns.length = ops.length ∧ rs = (Op.specsCut bor ((ops.map (·.1)).zip ns) []).1 ∧
      ∃ s', dropAll p s = .ok ((Op.specsCut bor ((ops.map (·.1)).zip ns) []).2, s') ∧ ∀ a, s'.cells a = none := by
  obtain ⟨ns, ms, al', h1, h2, h3, hg, hw⟩ := hcuts_ok hr
  obtain ⟨s1, k1, k2⟩ := all_freed (dropAll_spec h3) hg hw
  rcases cutRun_agrees hbo h2 (by simp) with ⟨h, _⟩ | ⟨_, _, e1, e2⟩
  · exact absurd h hf
  · rw [List.map_nil] at e1 e2
    exact ⟨ns, h1, e1, s1, by rw [← e2]; exact k1, k2⟩

theorem specsCut_not_failed [Ord K] [Ord Q] (bor : K → Q) : ∀ (ops : List (Op K V Q × Option Nat)) (s : List (List (K × V))) (op : Op K V Q),
    (op, some .failed) ∈ (ops.map (·.1)).zip (Op.specsCut bor ops s).1 → op.inserts = false
  | [], s, op, h => by simp at h
  | (op1, none) :: ops, s, op, h => by
    simp only [Op.specsCut, List.map_cons, List.zip_cons_cons, List.mem_cons, Prod.mk.injEq, Option.some.injEq] at h
    rcases h with ⟨rfl, h⟩ | h
    · cases hi : op.inserts with
      | false => rfl
      | true => exact absurd h.symm (spec_not_failed bor s op hi)
    · exact specsCut_not_failed bor ops _ op h
  | (op1, some n) :: ops, s, op, h => by
    simp only [Op.specsCut, List.map_cons, List.zip_cons_cons, List.mem_cons, Prod.mk.injEq] at h
    rcases h with ⟨rfl, h⟩ | h
    · cases h
    · exact specsCut_not_failed bor ops _ op h

/-- **C69** Nor does a panicking comparison make such a program stop: if the allocator never refuses, it comes to its end. -/
theorem C69_ends [Ord K] [Std.TransOrd K] [Ord Q] [Std.TransOrd Q] {bor : K → Q} (hbo : BorrowOK bor) (ops : List (Op K V Q × Nat)) {al : Alloc} (hg : al.Good) :
    ∃ rs p s, Op.hcuts bor ops [] (Heap.start al pl) = .ok ((rs, true, p), s) ∧
      ∃ ns : List (Option Nat), ns.length = ops.length ∧ rs = (Op.specsCut bor ((ops.map (·.1)).zip ns) []).1 := by
  have hc := hcuts_cases bor ops al pl
  cases hr : Op.hcuts bor ops [] (Heap.start al pl) with
  | ub => rw [hr] at hc; exact hc.elim
  | panic msg =>
    rw [hr] at hc
    obtain ⟨pre, os, q, b, op, h1, h2⟩ := hc
    rcases cutRun_agrees hbo h1 (by simp) with ⟨_, h⟩ | ⟨k1, k2, _, _⟩
    · exact absurd hg h
    · rcases BTree.Op.run_agrees hbo k1 b op with ⟨_, h⟩ | ⟨o', q, b, h3, _⟩
      · exact absurd (k2 hg) h
      · rw [h2] at h3; cases h3
  | ok r =>
    obtain ⟨⟨rs, b, p⟩, s⟩ := r
    rw [hr] at hc
    obtain ⟨_, ⟨ns, ms, al2⟩, hw⟩ := hc
    obtain ⟨⟨g0, g1, g2, g3⟩, _⟩ := fact_sep.1 hw
    dsimp only at g0 g1 g2 g3
    rcases cutRun_agrees hbo g1 (by simp) with ⟨_, h⟩ | ⟨_, _, e1, _⟩
    · exact absurd hg h
    · rw [List.map_nil] at e1
      cases b with
      | true => exact ⟨rs, p, s, rfl, ns, g0.trans (g2 rfl).1, e1⟩
      | false =>
        obtain ⟨op, h, hi⟩ := g3 rfl
        have hz : (ops.map (·.1)).zip rs = (((ops.map (·.1)).zip ns).map (·.1)).zip rs := by
          apply List.ext_getElem?
          intro n
          simp only [List.zip, List.getElem?_zipWith, List.getElem?_map, List.map_zipWith]
          by_cases hn : n < rs.length
          · rw [List.getElem?_eq_getElem (l := ns) (by omega)]
            cases ops[n]? <;> rfl
          · rw [List.getElem?_eq_none (l := rs) (by omega)]
            cases ops[n]? <;> cases ns[n]? <;> rfl
        rw [hz, e1] at h
        have := specsCut_not_failed bor _ _ op h
        rw [hi] at this
        cases this

/-- Two maps; calls of every kind are unwound: insertions, lookups, an entry, a range, a removal, and two calls of `extend` after some of their pairs; then the
maps are used again. -/
def hotKeys : List (Op Nat Nat Nat × Nat) :=
  [(.new, 0), (.new, 0), (.insert 1 1 1, 0), (.extend 0 ((List.range 30).map fun i => (2 * i, i)), 1000), (.insert 0 31 9, 3), (.get 0 40, 2), (.remove 0 4, 2),
    (.extend 0 [(1, 1), (3, 3), (59, 5), (61, 6)], 12), (.entryOrInsert 0 33 1 id, 4), (.range 0 (.included 8) .unbounded [.front], 6), (.insert 1 5 5, 0),
    (.extend 1 [(7, 7), (8, 8)], 1), (.get 0 4, 100), (.len 0, 0), (.len 1, 0), (.remove 0 4, 100)]

/-- What the calls answered, and what dropping the maps gives and leaves allocated. -/
example : (match Op.hcuts id hotKeys [] (Heap.Heap.start allOk fresh) with
    | .ok ((rs, true, p), s) =>
      rs == [some .done, some .done, some (.value none), some .done, none, none, none, none, none, none, none, none, some (.value (some 2)), some (.count 32),
        some (.count 2), some (.value (some 2))] &&
      match dropAll p s with
      | .ok (ls, s') => ls == [[(0, 0), (1, 1), (2, 1), (3, 3)] ++ (List.range' 3 27).map (fun i => (2 * i, i)), [(1, 1), (7, 7)]] && tally s' == (6, 0)
      | _ => false
    | _ => false) = true := by decide +kernel

end Verif.Props
