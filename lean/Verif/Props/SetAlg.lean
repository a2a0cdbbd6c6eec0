import Verif.Heap.Proofs.SetAlg
import Verif.Props.MutLook
import Verif.Props.Collect
import Verif.Props.Set
/-
C78: the set algebra, printing and the set operators in memory.
-/
namespace Verif.Props
open Verif Verif.Heap Verif.Spec
open Verif.BTree (Map BSet)

variable {T Q : Type} {pl : Nat → Heap.Addr}

theorem sched_alloc {P : HProp T Unit} {al : Alloc} {s : Heap T Unit} (hw : (P ∗ sched al) s.world) : s.alloc = al := by
  obtain ⟨w₁, w₂, hd, hsw, _, hs⟩ := hw
  rw [show w₂ = _ from hs] at hsw hd
  have e1 : some s.alloc = (World.union w₁ ⟨fun _ => none, some al⟩).sched := congrArg World.sched hsw
  have e2 : w₁.sched = none := by rcases hd.2 with h | h; exact h; cases h
  simpa [World.union, e2] using e1

/-- `from_iter` that finds enough memory, with the other maps around. -/
theorem fromIterU_pool [Ord T] {items : List (T × Unit)} {p : List HMap} {ms : List (Map T Unit)} (hp : ∀ m ∈ ms, m.WF) (hl : p.length = ms.length) {s : Heap T Unit} (hg : s.Good)
    {al : Alloc} (hw : (pool p ms ∗ sched al) s.world) {M : Map T Unit} {al' : Alloc} (hM : Map.fromIter items al = .ok (M, al')) :
    ∃ m' s', HMap.fromIterU items s = .ok (some m', s') ∧ m'.length = M.len ∧
      ∃ s'', dropAll (p ++ [m']) s' = .ok (ms.map Map.toList ++ [M.toList], s'') ∧ ∀ a, s''.cells a = none := by
  have hwf : (Map.new : Map T Unit).WF := Map.WF_new
  have hw' : ((rep HMap.new (Map.new : Map T Unit) ∗ sched al) ∗ pool p ms) s.world := by
    rw [rep_new, emp_sep, sep_comm]; exact hw
  obtain ⟨⟨b, m1⟩, s1, h1, h2, h3⟩ := Triple.returns (extendU_ref (E := fun _ => False) (l := items) hwf) hg hw'
  unfold ExtendPost at h3
  rw [hex_sep] at h3
  obtain ⟨⟨M1, al1⟩, h3⟩ := h3
  rw [sep_assoc] at h3
  obtain ⟨hf, h4⟩ := fact_sep.1 h3
  dsimp only at hf h4
  rcases hf with ⟨rfl, hf⟩ | ⟨_, hf, _⟩
  · have e := BTree.Exec.ok_unique hM hf
    simp only [Prod.mk.injEq] at e
    obtain ⟨rfl, rfl⟩ := e
    have hM' : M.WF := (BTree.extend_nonempty hwf hf).1
    simp only [leak, sep_emp, sep_assoc] at h4
    refine ⟨m1, s1, ?_, rep_length h4, ?_⟩
    · show HM.bind _ _ s = _
      simp only [HM.bind, h1]
      rfl
    · have hall : ∀ x ∈ ms ++ [M], x.WF := by
        intro x hx
        rcases List.mem_append.1 hx with h | h
        · exact hp x h
        · exact List.mem_singleton.1 h ▸ hM'
      have hd := dropAll_spec (E := fun _ => False) (hs := p ++ [m1]) hall
      rw [List.map_append] at hd
      refine all_freed hd h2 (al := al') ?_
      rw [pool_snoc hl]
      have : ((rep m1 M ∗ pool p ms) ∗ sched al') = (rep m1 M ∗ sched al' ∗ pool p ms) := by ac_rfl
      rw [this]; exact h4
  · rw [show Map.fromIter items al = (Map.new : Map T Unit).extend items al from rfl, hf] at hM; cases hM

/-- `try_insert` adds no key but the one it is given, whatever the order. -/
theorem tryInsert_keys [Ord T] {M M' : Map T Unit} (h : M.WF) {k : T} {a a' : Alloc} {old : Option Unit} (hr : M.tryInsert k () a = .ok (.ok old, M', a')) :
    ∀ x ∈ M'.toList, x.1 = k ∨ x ∈ M.toList := by
  obtain ⟨r, m1, a1, h1, h2, h3, h4, h5, h6⟩ := Map.tryEntry_wf h k a
  simp only [Map.tryInsert, h1, Exec.ok_bind] at hr
  cases r with
  | error e => simp at hr
  | ok e =>
    cases e with
    | occupied hd =>
      obtain ⟨_, A, kv, B, g1, g2⟩ := h5
      obtain ⟨m', k1, k2, k3, k4, k5, k6⟩ := Map.setVal_spec h2 g1 ()
      simp [k1] at hr
      obtain ⟨_, rfl, _⟩ := hr
      intro x hx
      rw [k3.toList] at hx
      rw [← h3, g1.toList]
      exact .inr hx
    | vacant k' hd =>
      obtain ⟨hs, rfl, A, B, g1⟩ := h5
      obtain ⟨r, m', a', k1, k2, k3, k4, k5⟩ := Map.vacantInsert_spec h2 hs g1 k' () a1
      cases r with
      | error e => simp [k1] at hr
      | ok loc =>
        simp [k1] at hr
        obtain ⟨_, rfl, _⟩ := hr
        intro x hx
        rw [k4.2.toList] at hx
        rw [← h3, g1.toList]
        simp only [List.mem_append, List.mem_cons] at hx ⊢
        rcases hx with h | rfl | h
        · exact .inr (.inl h)
        · exact .inl rfl
        · exact .inr (.inr h)

/-- So does `extend`. -/
theorem extend_keys [Ord T] : ∀ {l : List (T × Unit)} {M M' : Map T Unit} {a a' : Alloc}, M.WF → M.extend l a = .ok (M', a') → ∀ x ∈ M'.toList, x ∈ l ∨ x ∈ M.toList
  | [], M, M', a, a', _, hr, x, hx => by
    simp only [BTree.Map.extend, Exec.ok.injEq, Prod.mk.injEq] at hr
    obtain ⟨rfl, _⟩ := hr
    exact .inr hx
  | (k, ()) :: l, M, M', a, a', h, hr, x, hx => by
    obtain ⟨r, M1, a1, h1, h2, _⟩ := Map.tryInsert_wf h k () a
    simp only [BTree.Map.extend, h1, Exec.ok_bind] at hr
    cases r with
    | error e => cases hr
    | ok old =>
      rcases extend_keys h2.1 hr x hx with h3 | h3
      · exact .inl (List.mem_cons_of_mem _ h3)
      · rcases tryInsert_keys h h1 x h3 with rfl | h4
        · exact .inl (List.mem_cons_self ..)
        · exact .inr h4

/-- What the operators do in memory, in terms of the elements to collect. -/
theorem operator_cases [Ord T] [Ord Q] {bor : T → Q} {ops : List (Op T Unit Q)} {al : Alloc} {os : List (Out T Unit)} {p : List HMap} {s : Heap T Unit}
    (hr : Op.hprog bor ops [] (Heap.start al pl) = .ok ((os, true, p), s)) {m n : HMap} {fk : T → T} {k : AlgKind} {out : List T}
    (he : m.operator n fk k s = HMap.fromIterU (out.map fun t => (fk t, ())) s) :
    (∃ M al', Map.fromIter (out.map fun t => (fk t, ())) s.alloc = .ok (M, al') ∧ ∃ m' s', m.operator n fk k s = .ok (some m', s') ∧ m'.length = M.len ∧
      ∃ s2, m'.drop s' = .ok (M.toList, s2) ∧ s2.cells = s.cells) ∨
    (s.alloc 0 = false ∧ ∃ s', m.operator n fk k s = .ok (none, s') ∧ s'.cells = s.cells) ∨
    (s.alloc 0 = true ∧ (∃ msg, Map.fromIter (out.map fun t => (fk t, ())) s.alloc = .panic msg) ∧ m.operator n fk k s = .ub) := by
  obtain ⟨h1, h2⟩ := C64_from_iter hr (out.map fun t => (fk t, ()))
  rw [he]
  rcases Map.extend_wf (out.map fun t => (fk t, ())) (Map.WF_new (K := T) (V := Unit)) s.alloc with ⟨⟨msg, e1⟩, _⟩ | ⟨M, a1, e1, _⟩
  · obtain ⟨h3, h4⟩ := h2 msg e1
    cases h0 : s.alloc 0 with
    | false => exact .inr (.inl ⟨rfl, h3 h0⟩)
    | true => exact .inr (.inr ⟨rfl, ⟨msg, e1⟩, h4 h0⟩)
  · exact .inl ⟨M, a1, e1, h1 M a1 e1⟩

/-- **C78** After any program over sets, with any element order (a set is a map to `()`), take any two of the sets, or one of them twice.  A program that opens, clones,
asks, measures and prints any number of set-algebra iterators over them runs to the end, reads only, and, as long as it does not ask for size hints (which are
promised for a lawful order only), gets the right answers with respect to fixed lists of elements, all of them stored in the two sets.  `is_subset`, `is_superset` and `is_disjoint`
answer, and `{:?}` of a set shows its elements; they, too, change nothing.  An operator (`-`, `^`, `&`, `|`) builds a new set of as many elements as it then
gives back, whose destruction restores the memory; or, if the first request is refused, panics having changed nothing;
or, if the first request is granted and a later one is refused, its unwinding is undefined behaviour (C64). -/
theorem C78_any_order [Ord T] [Ord Q] {bor : T → Q} {ops : List (Op T Unit Q)} {al : Alloc} {os : List (Out T Unit)} {p : List HMap} {s : Heap T Unit}
    (hr : Op.hprog bor ops [] (Heap.start al pl) = .ok ((os, true, p), s)) {i j : Nat} {m n : HMap} (hm : p[i]? = some m) (hn : p[j]? = some n) :
    ∃ p' al' l r, BTree.Op.runs bor ops [] al = .ok (os, p', al') ∧ (p'.map Map.toList)[i]? = some l ∧ (p'.map Map.toList)[j]? = some r ∧
      ∃ outs : AlgKind → List T, (∀ k, ∀ x ∈ outs k, x ∈ l.map Prod.fst ∨ x ∈ r.map Prod.fst) ∧
        (∀ acts, ∃ xs, AlgAct.hruns m n acts [] s = .ok (xs, s) ∧ ((∀ c, AlgAct.hint c ∉ acts) → AlgAct.AllRight outs acts [] xs)) ∧
        (∃ b, m.isSubset n s = .ok (b, s)) ∧ (∃ b, m.isSuperset n s = .ok (b, s)) ∧ m.isDisjoint n s = .ok ((outs .intersection).isEmpty, s) ∧
        m.setDebug s = .ok (l.map Prod.fst, s) ∧
        ∀ (fk : T → T) (k : AlgKind),
          (∃ m' s' l', m.operator n fk k s = .ok (some m', s') ∧ m'.length = l'.length ∧ (∀ x ∈ l', ∃ t ∈ outs k, x = (fk t, ())) ∧
            ∃ s2, m'.drop s' = .ok (l', s2) ∧ s2.cells = s.cells) ∨
          (s.alloc 0 = false ∧ ∃ s', m.operator n fk k s = .ok (none, s') ∧ s'.cells = s.cells) ∨
          (s.alloc 0 = true ∧ (∃ c, 0 < c ∧ s.alloc c = false) ∧ m.operator n fk k s = .ub) := by
  obtain ⟨hg, p', al', h1, hl, hp, hw⟩ := hprog_pool hr
  obtain ⟨M, N, hM, hN, A, R, Kn, hSM, hSN, hA, hk⟩ := pool_known hp hw hl hm hn
  have hK : Knows s Kn := hk hg hA
  obtain ⟨P⟩ := BTree.algPlan hSM.1 hSN.1
  refine ⟨p', al', M.toList, N.toList, h1, by simp [hM], by simp [hN], P.outs, P.mem, fun acts => ?_, ?_, ?_, ?_, setFmt_ref hK hSM, fun fk k => ?_⟩
  · obtain ⟨xs, e⟩ := P.total acts (vs := []) (ps := []) ⟨rfl, by simp⟩
    obtain ⟨ys, e1, rfl⟩ := algRuns_ref hK hSM hSN acts (vs := []) (ws := []) ⟨rfl, by simp⟩ xs e
    refine ⟨ys, e1, fun hh => ?_⟩
    obtain ⟨zs, e2, e3⟩ := P.runs acts fun ⟨c, h⟩ => absurd h (hh c)
    rw [BTree.Exec.ok_unique e e2]; exact e3
  · obtain ⟨b, e⟩ := BSet.isSubset_total hSM.1 hSN.1
    obtain ⟨b', e1, rfl⟩ := isSubset_ref hK hSM hSN b e
    exact ⟨b', e1⟩
  · obtain ⟨b, e⟩ := BSet.isSubset_total hSN.1 hSM.1
    obtain ⟨b', e1, rfl⟩ := isSubset_ref hK hSN hSM b e
    exact ⟨b', e1⟩
  · obtain ⟨b', e1, rfl⟩ := isDisjoint_ref hK hSM hSN _ P.disjoint
    exact e1
  · rcases operator_cases hr (operator_eq hk hg hA hSM hSN P fk k) with ⟨M', a', e1, m', s', e2, e3, s2, e4, e5⟩ | h | ⟨h1, ⟨msg, h2⟩, h3⟩
    · refine .inl ⟨m', s', M'.toList, e2, ?_, ?_, s2, e4, e5⟩
      · rw [e3]
        exact (BTree.extend_nonempty Map.WF_new e1).1.len
      · intro x hx
        rcases extend_keys Map.WF_new e1 x hx with h | h
        · obtain ⟨t, h1, h2⟩ := List.mem_map.1 h
          exact ⟨t, h1, h2.symm⟩
        · simp [Map.toList, Map.new, BTree.emptyLeaf] at h
    · exact .inr (.inl h)
    · refine .inr (.inr ⟨h1, ?_, h3⟩)
      rcases Map.extend_wf ((P.outs k).map fun t => (fk t, ())) (Map.WF_new (K := T) (V := Unit)) s.alloc with ⟨_, hb⟩ | ⟨M1, a1, e1, _⟩
      · obtain ⟨c, hc⟩ := Classical.not_forall.1 hb
        refine ⟨c, ?_, by simpa using hc⟩
        rcases Nat.eq_zero_or_pos c with rfl | h
        · exact absurd h1 hc
        · exact h
      · rw [show Map.fromIter _ s.alloc = (Map.new : Map T Unit).extend _ s.alloc from rfl, e1] at h2
        cases h2

/-- **C78** With a lawful element order and no failed allocation, the lists are the ones the mathematical operations give on the sorted lists the program
computes; every answer, size hints included, is right; the predicates answer the mathematical question; and an operator that finds enough memory builds the
set of (clones of) the elements of its operation, all the other sets staying as they were. -/
theorem C78_history [Ord T] [Std.TransOrd T] [Ord Q] [Std.TransOrd Q] {bor : T → Q} (hbo : BorrowOK bor) {ops : List (Op T Unit Q)} {al : Alloc} {os : List (Out T Unit)}
    {p : List HMap} {s : Heap T Unit} (hr : Op.hprog bor ops [] (Heap.start al pl) = .ok ((os, true, p), s)) (hf : .failed ∉ os)
    {i j : Nat} {m n : HMap} (hm : p[i]? = some m) (hn : p[j]? = some n) :
    ∃ l r, (Op.specs bor ops []).2[i]? = some l ∧ (Op.specs bor ops []).2[j]? = some r ∧
      ∃ outs : AlgKind → List T, IsDifference (l.map Prod.fst) (r.map Prod.fst) (outs .difference) ∧ IsSymDiff (l.map Prod.fst) (r.map Prod.fst) (outs .symmetricDifference) ∧
        (if l.length ≤ r.length then IsIntersection (l.map Prod.fst) (r.map Prod.fst) (outs .intersection)
         else IsIntersection (r.map Prod.fst) (l.map Prod.fst) (outs .intersection)) ∧
        IsUnion (l.map Prod.fst) (r.map Prod.fst) (outs .union) ∧
        (∀ acts, ∃ xs, AlgAct.hruns m n acts [] s = .ok (xs, s) ∧ AlgAct.AllRight outs acts [] xs) ∧
        (∃ b, m.isSubset n s = .ok (b, s) ∧ (b = true ↔ ∀ x ∈ l.map Prod.fst, Has x (r.map Prod.fst))) ∧
        (∃ b, m.isSuperset n s = .ok (b, s) ∧ (b = true ↔ ∀ x ∈ r.map Prod.fst, Has x (l.map Prod.fst))) ∧
        (∃ b, m.isDisjoint n s = .ok (b, s) ∧ (b = true ↔ ∀ x ∈ l.map Prod.fst, ¬ Has x (r.map Prod.fst))) ∧
        m.setDebug s = .ok (l.map Prod.fst, s) ∧
        ∀ (fk : T → T), (∀ x, compare x (fk x) = .eq) → ∀ (k : AlgKind), s.alloc.Good →
          ∃ m' s', m.operator n fk k s = .ok (some m', s') ∧ m'.length = (outs k).length ∧
            ∃ s'', dropAll (p ++ [m']) s' = .ok ((Op.specs bor ops []).2 ++ [(outs k).map fun x => (fk x, ())], s'') ∧ ∀ a, s''.cells a = none := by
  obtain ⟨hg, p', al', hl, hp, he, hw⟩ := hprog_specs hbo hr hf
  have hp' : ∀ m ∈ p', m.WF := fun m h => (hp m h).toShaped
  obtain ⟨M, N, hM, hN, A, R, Kn, hSM, hSN, hA, hk⟩ := pool_known hp' hw hl hm hn
  have hK : Knows s Kn := hk hg hA
  have vM : M.Valid := hp M (List.mem_of_getElem? hM)
  have vN : N.Valid := hp N (List.mem_of_getElem? hN)
  obtain ⟨P⟩ := BTree.algPlan hSM.1 hSN.1
  obtain ⟨hc, ho⟩ := P.lawful vM vN
  have hal : s.alloc = al' := sched_alloc hw
  rw [← he]
  refine ⟨M.toList, N.toList, by simp [hM], by simp [hN], P.outs, ho .difference, ho .symmetricDifference, ?_, ho .union, fun acts => ?_, ?_, ?_, ?_, setFmt_ref hK hSM,
    fun fk hfk k hgood => ?_⟩
  · simpa [AlgKind.Out, BSet.elems] using ho .intersection
  · obtain ⟨xs, e2, e3⟩ := P.runs acts fun _ _ _ h => h.hint vM vN hc
    obtain ⟨ys, e1, rfl⟩ := algRuns_ref hK hSM hSN acts (vs := []) (ws := []) ⟨rfl, by simp⟩ xs e2
    exact ⟨ys, e1, e3⟩
  · obtain ⟨b, e, e2⟩ := BSet.isSubset_valid (s := ⟨M⟩) (o := ⟨N⟩) vM vN
    obtain ⟨b', e1, rfl⟩ := isSubset_ref hK hSM hSN b e
    exact ⟨b', e1, e2⟩
  · obtain ⟨b, e, e2⟩ := BSet.isSubset_valid (s := ⟨N⟩) (o := ⟨M⟩) vN vM
    obtain ⟨b', e1, rfl⟩ := isSubset_ref hK hSN hSM b e
    exact ⟨b', e1, e2⟩
  · obtain ⟨b, e, e2⟩ := BSet.isDisjoint_valid (s := ⟨M⟩) (o := ⟨N⟩) vM vN
    obtain ⟨b', e1, rfl⟩ := isDisjoint_ref hK hSM hSN b e
    exact ⟨b', e1, e2⟩
  · rw [operator_eq hk hg hA hSM hSN P fk k]
    have hasc : Ascending (P.outs k) := by
      have := ho k
      cases k with
      | difference => exact this.1
      | symmetricDifference => exact this.1
      | union => exact this.1
      | intersection =>
        have h2 : if (BSet.elems ⟨M⟩).length ≤ (BSet.elems ⟨N⟩).length then IsIntersection (BSet.elems ⟨M⟩) (BSet.elems ⟨N⟩) (P.outs .intersection)
          else IsIntersection (BSet.elems ⟨N⟩) (BSet.elems ⟨M⟩) (P.outs .intersection) := this
        split at h2 <;> exact h2.1
    rcases BSet.fromAscending (BTree.ascending_map hasc hfk) al' with ⟨_, hb⟩ | ⟨t, a2, g1, g2, g3⟩
    · exact absurd (hal ▸ hgood) hb
    · rw [BSet.extend_eq] at g1
      obtain ⟨⟨M1, a1⟩, g4, g5⟩ := Exec.bind_eq_ok.1 g1
      simp only [Exec.ok.injEq, Prod.mk.injEq] at g5
      obtain ⟨rfl, rfl⟩ := g5
      rw [List.map_map] at g4
      obtain ⟨m', s', f1, f2, f3⟩ := fromIterU_pool hp' hl hg hw g4
      have hlist : M1.toList = (P.outs k).map fun x => (fk x, ()) := by
        have : M1.toList = (M1.toList.map Prod.fst).map fun x => (x, ()) := by
          rw [List.map_map]; exact (List.map_id _).symm
        rw [this, show M1.toList.map Prod.fst = _ from g3, List.map_map]; rfl
      refine ⟨m', s', f1, ?_, ?_⟩
      · have := g2.toShaped.len
        rw [f2]; simp [hlist] at this; exact this
      · rw [← hlist]; exact f3

/-! ### the hypotheses are met -/

def unitsOf (l : List Nat) : List (Nat × Unit) := l.map (·, ())

/-- Four sets: {3, 4, 9, 10, 11, 70}, {1, 4, 10, 80}, the even numbers below 80 (a tree of two levels) and the empty set. -/
def algProgram : List (Op Nat Unit Nat) :=
  [.new, .new, .new, .new, .extend 0 (unitsOf [3, 4, 9, 10, 11, 70]), .extend 1 (unitsOf [1, 4, 10, 80]), .extend 2 (unitsOf ((List.range 40).map (2 * ·)))]

/-- Two of them, and the memory. -/
def onSets (al : Alloc) (i j : Nat) (f : HMap → HMap → Heap Nat Unit → Bool) : Bool :=
  match Op.hprog id algProgram [] (Heap.Heap.start al reuse) with
  | .ok ((_, true, p), s) =>
    match p[i]?, p[j]? with
    | some m, some n => f m n s
    | _, _ => false
  | _ => false

/-- Two iterators, a clone made while an item of the other set is peeked, and printing. -/
example : onSets allOk 0 1 (fun m n s =>
    match AlgAct.hruns m n [.start .symmetricDifference, .next 0, .clone 0, .next 0, .next 0, .next 1, .hint 1, .debug 0, .start .difference, .next 2, .debug 2, .start .intersection,
        .next 3, .debug 3, .next 9] [] s with
    | .ok (xs, _) => xs == [.opened, .item (some 1), .opened, .item (some 3), .item (some 9), .item (some 3), .hint (0, some 8),
        .printed [.peekable [10, 11, 70] none, .peekable [80] (some (some 10))], .opened, .item (some 3), .printed [.iter [4, 9, 10, 11, 70], .peekable [10, 80] (some (some 4))], .opened,
        .item (some 4), .printed [.iter [10, 80], .iter [9, 10, 11, 70]], .skipped]
    | _ => false) = true := by decide +kernel

/-- The operators against the big set (which is searched, not stitched, for `-` and `&`); a set with itself. -/
example : onSets allOk 0 2 (fun m n s =>
    [AlgKind.difference, .intersection, .symmetricDifference, .union].map (fun k =>
      match m.operator n id k s with
      | .ok (some m', s') => match m'.drop s' with
        | .ok (l, s2) => l.map Prod.fst ++ [m'.length, (tally s2).2]
        | _ => []
      | _ => []) ==
    [[3, 9, 11, 3, 9], [4, 10, 70, 3, 9], [0, 2, 3, 6, 8, 9, 11] ++ ((List.range 40).map (2 * ·)).filter (fun x => 10 < x ∧ x ≠ 70) ++ [40, 9],
      [0, 2, 3, 4, 6, 8, 9, 10, 11] ++ ((List.range 40).map (2 * ·)).filter (fun x => 10 < x) ++ [43, 9]]) = true := by decide +kernel

example : onSets allOk 0 0 (fun m n s =>
    (match m.isSubset n s, m.isSuperset n s, m.isDisjoint n s, m.setDebug s with
    | .ok (true, _), .ok (true, _), .ok (false, _), .ok (l, _) => l == [3, 4, 9, 10, 11, 70]
    | _, _, _, _ => false) &&
    (match m.operator n id .difference s with
    | .ok (some m', _) => m'.length == 0
    | _ => false)) = true := by decide +kernel

/-- Out of memory: the program itself needs 9 nodes, `|` needs a first leaf (refused: panic, nothing changed) and more (refused later: undefined behaviour). -/
example : onSets (grants 9) 0 2 (fun m n s => match m.operator n id .union s with
    | .ok (none, s') => (tally s').2 == 9
    | _ => false) = true := by decide +kernel

example : onSets (grants 10) 0 2 (fun m n s => match m.operator n id .union s with
    | .ub => true
    | _ => false) = true := by decide +kernel

end Verif.Props
