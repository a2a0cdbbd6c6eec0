import Verif.Heap.Proofs.Panics
import Verif.Heap.Proofs.PanicAppend
import Verif.Props.AppendUnwind
import Verif.Props.MutLook
import Verif.Props.Collect
/-
C77: destructors and iterators that panic inside `try_insert`, `extend`, `from_iter`/`collect` and `append`.
-/
namespace Verif.Props
open Verif Verif.Heap Verif.Spec
open Verif.BTree (Map Why)

variable {K V Q : Type} {pl : Nat → Heap.Addr}

/-- One map of the pool replaced, and the end of all the maps. -/
theorem pool_put {p : List HMap} {ms : List (Map K V)} (hp : ∀ m ∈ ms, m.WF) {i : Nat} {m : HMap} {M : Map K V} (hl : p.length = ms.length) (hm : p[i]? = some m)
    (hM : ms[i]? = some M) : ∃ F, pool p ms = (rep m M ∗ F) ∧ ∀ {m' : HMap} {M' : Map K V} {al' : Alloc} {s' : Heap K V}, s'.Good → M'.WF →
      ((rep m' M' ∗ sched al') ∗ F) s'.world → ∃ s'', dropAll (p.set i m') s' = .ok ((ms.map Map.toList).set i M'.toList, s'') ∧ ∀ a, s''.cells a = none := by
  obtain ⟨m0, F, e1, e2, e3⟩ := pool_split hl hM
  rw [hm] at e1
  obtain rfl := Option.some.inj e1
  refine ⟨F, e2, fun {m' M' al' s'} hg hM' hw => ?_⟩
  have hw2 : (pool (p.set i m') (ms.set i M') ∗ sched al') s'.world := by
    rw [e3 m' M']
    have : ((rep m' M' ∗ sched al') ∗ F) = ((rep m' M' ∗ F) ∗ sched al') := by ac_rfl
    rw [← this]; exact hw
  have hall : ∀ x ∈ ms.set i M', x.WF := by
    intro x hx
    rcases List.mem_or_eq_of_mem_set hx with h | h
    · exact hp x h
    · exact h ▸ hM'
  have hd := dropAll_spec (E := fun _ => False) (hs := p.set i m') hall
  rw [List.map_set] at hd
  exact all_freed hd hg hw2

/-- The pool of a program and its schedule. -/
theorem hprog_sched [Ord K] [Ord Q] {bor : K → Q} {ops : List (Op K V Q)} {al : Alloc} {os : List (Out K V)} {p : List HMap} {s : Heap K V}
    (hr : Op.hprog bor ops [] (Heap.start al pl) = .ok ((os, true, p), s)) :
    s.Good ∧ ∃ ms, BTree.Op.runs bor ops [] al = .ok (os, ms, s.alloc) ∧ p.length = ms.length ∧ (∀ m ∈ ms, m.WF) ∧ (pool p ms ∗ sched s.alloc) s.world := by
  obtain ⟨ms, h1, h2, hp⟩ := hprog_alloc hr
  obtain ⟨hg, _⟩ := hprog_ok hr
  have hw : (pool p ms ∗ sched s.alloc) s.world := ⟨⟨s.cells, none⟩, ⟨fun _ => none, some s.alloc⟩, ⟨fun _ => .inr rfl, .inl rfl⟩, by
    simp [World.union, Heap.world], hp, rfl⟩
  have hlen : p.length = ms.length := by
    have := Ent.frame pool_length _ _ hw
    rw [sep_assoc] at this
    exact (fact_sep.1 this).1
  exact ⟨hg, ms, h1, hlen, h2, hw⟩

/-- `try_insert` into a map of any program, with a destructor that may panic. -/
theorem tryInsert_panics [Ord K] [Ord Q] {bor : K → Q} {ops : List (Op K V Q)} {al : Alloc} {os : List (Out K V)} {p : List HMap} {s : Heap K V}
    (hr : Op.hprog bor ops [] (Heap.start al pl) = .ok ((os, true, p), s)) {i : Nat} {m : HMap} (hm : p[i]? = some m) (k : K) (v : V) (calm : Nat) :
    ∃ ms M, BTree.Op.runs bor ops [] al = .ok (os, ms, s.alloc) ∧ (∀ m ∈ ms, m.WF) ∧ ms[i]? = some M ∧
    ∃ why old c m' s' M' al', m.tryInsertD k v calm s = .ok ((why, old, c, m'), s') ∧ InsertedD M k v calm s.alloc (why, old, c) (M', al') ∧ m'.length = M'.length ∧
      (why ≠ .mem → ∃ s2, dropAll (p.set i m') s' = .ok ((ms.map Map.toList).set i M'.toList, s2) ∧ ∀ a, s2.cells a = none) := by
  obtain ⟨hg, ms, h1, hl, h2, hw⟩ := hprog_sched hr
  have hlt : i < ms.length := by rw [← hl]; exact (List.getElem?_eq_some_iff.1 hm).1
  obtain ⟨M, hM⟩ : ∃ M, ms[i]? = some M := ⟨_, List.getElem?_eq_getElem hlt⟩
  obtain ⟨F, e1, e2⟩ := pool_put h2 hl hm hM
  have hwf := h2 M (List.mem_of_getElem? hM)
  have hw' : ((rep m M ∗ sched s.alloc) ∗ F) s.world := by
    rw [e1] at hw
    have : ((rep m M ∗ F) ∗ sched s.alloc) = ((rep m M ∗ sched s.alloc) ∗ F) := by ac_rfl
    rw [← this]; exact hw
  obtain ⟨⟨why, old, c, m'⟩, s', k1, k2, k3⟩ := Triple.returns (tryInsertD_spec (E := fun _ => False) (k := k) (v := v) (calm := calm) hwf) hg hw'
  unfold InsertPostD at k3
  rw [hex_sep] at k3
  obtain ⟨⟨M', al'⟩, k3⟩ := k3
  rw [sep_assoc] at k3
  obtain ⟨k4, k5⟩ := fact_sep.1 k3
  dsimp only at k4 k5
  refine ⟨ms, M, h1, h2, hM, why, old, c, m', s', M', al', k1, k4, rep_length (by rw [sep_assoc] at k5; exact k5), fun hne => ?_⟩
  have : leak (K := K) (V := V) (why != .mem) = emp := by
    rw [show (why != Stop.mem) = true by simp [hne]]; rfl
  rw [this, sep_emp] at k5
  refine e2 k2 ?_ k5
  rcases k4 with ⟨q, _⟩ | ⟨_, q, _⟩ | ⟨_, _, _, q, _⟩
  · exact absurd q hne
  · obtain ⟨r, m1, a1, g1, g2, _⟩ := Map.tryInsert_wf hwf k v s.alloc
    rw [q] at g1
    simp only [Exec.ok.injEq, Prod.mk.injEq] at g1
    obtain ⟨rfl, rfl, rfl⟩ := g1
    exact g2.1
  · obtain ⟨rfl, _⟩ := by simpa using q
    exact hwf

theorem tryInsertD_done [Ord K] {m m' : HMap} {k : K} {v : V} {calm c : Nat} {old : Option V} {s s' : Heap K V}
    (h : m.tryInsertD k v calm s = .ok ((.done, old, c, m'), s')) : m.tryInsert k v s = .ok ((some old, m'), s') := by
  unfold HMap.tryInsertD at h
  obtain ⟨⟨e, m1⟩, s1, h1, h2⟩ := run_bind.1 h
  refine run_bind.2 ⟨(e, m1), s1, h1, ?_⟩
  cases e with
  | none =>
    obtain ⟨h2, _⟩ := run_pure.1 h2
    cases h2
  | some e =>
    cases e with
    | occupied e =>
      cases calm with
      | zero =>
        obtain ⟨h2, _⟩ := run_pure.1 h2
        cases h2
      | succ calm =>
        obtain ⟨o, s2, h3, h4⟩ := run_bind.1 h2
        obtain ⟨h4, rfl⟩ := run_pure.1 h4
        simp only [Prod.mk.injEq, true_and] at h4
        obtain ⟨rfl, _, rfl⟩ := h4
        exact run_bind.2 ⟨o, s2, h3, rfl⟩
    | vacant k e =>
      obtain ⟨⟨o, m2⟩, s2, h3, h4⟩ := run_bind.1 h2
      refine run_bind.2 ⟨(o, m2), s2, h3, ?_⟩
      cases o with
      | none =>
        obtain ⟨h4, _⟩ := run_pure.1 h4
        cases h4
      | some o =>
        obtain ⟨h4, rfl⟩ := run_pure.1 h4
        simp only [Prod.mk.injEq, true_and] at h4
        obtain ⟨rfl, _, rfl⟩ := h4
        rfl

theorem not_good {al : Alloc} (h : ¬ al.Good) : ∃ n, al n = false := by
  refine Classical.byContradiction fun hn => h fun n => ?_
  cases hc : al n with
  | true => rfl
  | false => exact absurd ⟨n, hc⟩ hn

/-- **C77** `try_insert` into a map of any program (any key order, any allocator), where the destructor of the caller's key, which runs if an equal key is there, may panic:
nothing undefined happens.  If the call returns, it did what it does when nothing panics; if it is unwound by that destructor, there is an equal
key and every map is as it was; in both cases dropping all the maps leaves nothing allocated.  If neither, memory was refused. -/
theorem C77_try_insert [Ord K] [Ord Q] {bor : K → Q} {ops : List (Op K V Q)} {al : Alloc} {os : List (Out K V)} {p : List HMap} {s : Heap K V}
    (hr : Op.hprog bor ops [] (Heap.start al pl) = .ok ((os, true, p), s)) {i : Nat} {m : HMap} (hm : p[i]? = some m) (k : K) (v : V) (calm : Nat) :
    ∃ before l, (∃ s0, dropAll p s = .ok (before, s0)) ∧ before[i]? = some l ∧
    ∃ why old c m' s', m.tryInsertD k v calm s = .ok ((why, old, c, m'), s') ∧
      ((why = .mem ∧ ∃ n, s.alloc n = false) ∨
       (why = .done ∧ m.tryInsert k v s = .ok ((some old, m'), s') ∧ (∃ after s2, dropAll (p.set i m') s' = .ok (after, s2) ∧ ∀ a, s2.cells a = none) ∧
         c + (if old.isSome then 1 else 0) = calm) ∨
       (why = .drop ∧ calm = 0 ∧ (∃ kv ∈ l, compare k kv.1 = .eq) ∧ m'.length = m.length ∧ ∃ s2, dropAll (p.set i m') s' = .ok (before, s2) ∧ ∀ a, s2.cells a = none)) := by
  obtain ⟨ms, M, h1, hwf, hM, why, old, c, m', s', M', al', k1, k2, k3, k4⟩ := tryInsert_panics hr hm k v calm
  obtain ⟨ms', al2, g1, s0, g2, _⟩ := C51_drop hr
  rw [h1] at g1
  simp only [Exec.ok.injEq, Prod.mk.injEq, true_and] at g1
  obtain ⟨rfl, _⟩ := g1
  have hlen : m.length = M.length := by
    obtain ⟨hg, ms2, q1, q2, q3, q4⟩ := hprog_sched hr
    rw [h1] at q1
    simp only [Exec.ok.injEq, Prod.mk.injEq, true_and, and_true] at q1
    subst q1
    obtain ⟨F, e1, _⟩ := pool_put q3 q2 hm hM
    rw [e1, sep_assoc] at q4
    exact rep_length q4
  refine ⟨ms.map Map.toList, M.toList, ⟨s0, g2⟩, by simp [hM], why, old, c, m', s', k1, ?_⟩
  rcases k2 with ⟨e1, _, _, er, e2⟩ | ⟨e1, e2, e3⟩ | ⟨e1, e2, e3, e4, e5⟩
  · refine .inl ⟨e1, not_good fun hg => ?_⟩
    obtain ⟨r, m1, a1, q1, _, q3⟩ := Map.tryInsert_wf (hwf M (List.mem_of_getElem? hM)) k v s.alloc
    rw [e2] at q1
    simp only [Exec.ok.injEq, Prod.mk.injEq] at q1
    obtain ⟨_, o, ho⟩ := q3 hg
    rw [← q1.1] at ho
    cases ho
  · dsimp only at e1 e2 e3
    subst e1
    obtain ⟨s2, q1, q2⟩ := k4 (by simp)
    refine .inr (.inl ⟨rfl, tryInsertD_done k1, ⟨_, s2, q1, q2⟩, ?_⟩)
    rcases e3 with ⟨rfl, rfl⟩ | ⟨e3, e4⟩
    · simp
    · cases old with
      | none => exact absurd rfl e3
      | some o => simp [e4]
  · dsimp only at e1 e2 e3 e4
    subst e1
    obtain ⟨rfl, _⟩ := by simpa using e4
    obtain ⟨s2, q1, q2⟩ := k4 (by simp)
    refine .inr (.inr ⟨rfl, e3, e5, by rw [k3, hlen], s2, ?_, q2⟩)
    rw [q1]
    have : (ms.map Map.toList).set i M'.toList = ms.map Map.toList := by
      rw [← List.map_set]
      congr 1
      exact List.ext_getElem? fun j => by
        by_cases hj : i = j
        · subst hj
          rw [List.getElem?_set_self (List.getElem?_eq_some_iff.1 hM).1, hM]
        · rw [List.getElem?_set_ne hj]
    rw [this]

/-- `extend` of a map of any program, with destructors and an iterator that may panic. -/
theorem extend_panics [Ord K] [Ord Q] {bor : K → Q} {ops : List (Op K V Q)} {al : Alloc} {os : List (Out K V)} {p : List HMap} {s : Heap K V}
    (hr : Op.hprog bor ops [] (Heap.start al pl) = .ok ((os, true, p), s)) {i : Nat} {m : HMap} (hm : p[i]? = some m) (items : List (K × V)) (bad : Bool) (calm : Nat) :
    ∃ ms M, BTree.Op.runs bor ops [] al = .ok (os, ms, s.alloc) ∧ (∀ m ∈ ms, m.WF) ∧ ms[i]? = some M ∧
    ∃ why m' s' M' al', HMap.extendD bad items calm m s = .ok ((why, m'), s') ∧ ExtendedD M bad items calm s.alloc why (M', al') ∧ m'.length = M'.length ∧
      (why ≠ .mem → ∃ s2, dropAll (p.set i m') s' = .ok ((ms.map Map.toList).set i M'.toList, s2) ∧ ∀ a, s2.cells a = none) ∧
      (∀ n M1 al1, M.extend (items.take n) s.alloc = .ok (M1, al1) → ∃ m1 s1, m.extendU (items.take n) s = .ok ((true, m1), s1) ∧
        m1.length = M1.length ∧ ∃ s2, dropAll (p.set i m1) s1 = .ok ((ms.map Map.toList).set i M1.toList, s2)) := by
  obtain ⟨hg, ms, h1, hl, h2, hw⟩ := hprog_sched hr
  have hlt : i < ms.length := by rw [← hl]; exact (List.getElem?_eq_some_iff.1 hm).1
  obtain ⟨M, hM⟩ : ∃ M, ms[i]? = some M := ⟨_, List.getElem?_eq_getElem hlt⟩
  obtain ⟨F, e1, e2⟩ := pool_put h2 hl hm hM
  have hwf := h2 M (List.mem_of_getElem? hM)
  have hw' : ((rep m M ∗ sched s.alloc) ∗ F) s.world := by
    rw [e1] at hw
    have : ((rep m M ∗ F) ∗ sched s.alloc) = ((rep m M ∗ sched s.alloc) ∗ F) := by ac_rfl
    rw [← this]; exact hw
  obtain ⟨⟨why, m'⟩, s', k1, k2, k3⟩ := Triple.returns (extendD_spec (E := fun _ => False) (items := items) (bad := bad) (calm := calm) hwf) hg hw'
  unfold ExtendPostD at k3
  rw [hex_sep] at k3
  obtain ⟨⟨M', al'⟩, k3⟩ := k3
  rw [sep_assoc] at k3
  obtain ⟨k4, k5⟩ := fact_sep.1 k3
  dsimp only at k4 k5
  refine ⟨ms, M, h1, h2, hM, why, m', s', M', al', k1, k4, rep_length (by rw [sep_assoc] at k5; exact k5), fun hne => ?_, fun n M1 al1 hn => ?_⟩
  · have : leak (K := K) (V := V) (why != .mem) = emp := by
      rw [show (why != Stop.mem) = true by simp [hne]]; rfl
    rw [this, sep_emp] at k5
    refine e2 k2 ?_ k5
    rcases k4 with ⟨q, _⟩ | ⟨_, _, q⟩ | ⟨_, _, q⟩ | ⟨_, _, n, _, q⟩
    · exact absurd q hne
    · exact (BTree.extend_nonempty hwf q).1
    · exact (BTree.extend_nonempty hwf q).1
    · exact (BTree.extend_nonempty hwf q).1
  · obtain ⟨⟨b, m1⟩, s1, q1, q2, q3⟩ := Triple.returns (extendU_ref (E := fun _ => False) (l := items.take n) hwf) hg hw'
    unfold ExtendPost at q3
    rw [hex_sep] at q3
    obtain ⟨⟨M2, al2⟩, q3⟩ := q3
    rw [sep_assoc] at q3
    obtain ⟨q4, q5⟩ := fact_sep.1 q3
    dsimp only at q4 q5
    rcases q4 with ⟨rfl, q4⟩ | ⟨_, q4, _⟩
    · rw [hn] at q4
      simp only [Exec.ok.injEq, Prod.mk.injEq] at q4
      obtain ⟨rfl, rfl⟩ := q4
      simp only [leak, sep_emp] at q5
      obtain ⟨s2, q6, _⟩ := e2 q2 (BTree.extend_nonempty hwf hn).1 q5
      exact ⟨m1, s1, q1, rep_length (by rw [sep_assoc] at q5; exact q5), s2, q6⟩
    · rw [hn] at q4
      cases q4

theorem extended_n [Ord K] {M : Map K V} {bad : Bool} {items : List (K × V)} {calm : Nat} {al : Alloc} {why : Stop} {y : Map K V × Alloc}
    (h : ExtendedD M bad items calm al why y) (hne : why ≠ .mem) : ∃ n, n ≤ items.length ∧ (why ≠ .drop → n = items.length) ∧ M.extend (items.take n) al = .ok y := by
  rcases h with ⟨h1, _⟩ | ⟨h1, _, h3⟩ | ⟨h1, _, h3⟩ | ⟨h1, _, n, h3, h4⟩
  · exact absurd h1 hne
  · exact ⟨items.length, Nat.le_refl _, fun _ => rfl, by rw [List.take_length]; exact h3⟩
  · exact ⟨items.length, Nat.le_refl _, fun _ => rfl, by rw [List.take_length]; exact h3⟩
  · exact ⟨n, h3, fun h => absurd h1 h, h4⟩

theorem extended_why [Ord K] {M : Map K V} (hM : M.WF) {bad : Bool} {items : List (K × V)} {calm : Nat} {al : Alloc} {why : Stop} {y : Map K V × Alloc}
    (h : ExtendedD M bad items calm al why y) : (why = .done → bad = false) ∧ (why = .iter → bad = true) ∧ (why = .drop → calm < 2 * items.length) ∧
      (why = .mem → ∃ n, al n = false) := by
  rcases h with ⟨h1, h2⟩ | ⟨h1, h2, h3⟩ | ⟨h1, h2, h3⟩ | ⟨h1, h2, n, h3, h4⟩ <;> subst h1
  · refine ⟨by simp, by simp, by simp, fun _ => not_good fun hg => ?_⟩
    rcases Map.extend_wf items hM al with ⟨_, q⟩ | ⟨_, _, q, _⟩
    · exact q hg
    · rw [h2] at q; cases q
  · exact ⟨fun _ => h2, by simp, by simp, by simp⟩
  · exact ⟨by simp, fun _ => h2, by simp, by simp⟩
  · exact ⟨by simp, by simp, fun _ => h2, by simp⟩

/-- **C77** `extend` of a map of any program (any key order, any allocator), with an iterator that may panic when its items are used up (so: after any number of
items), and destructors of replaced keys and values any of which may panic: nothing undefined happens.  Unless memory was refused, the map then holds exactly what extending it
with some first part of the items leaves (all of them, unless a destructor panicked), all other maps are as they were, and dropping all the maps leaves nothing allocated. -/
theorem C77_extend [Ord K] [Ord Q] {bor : K → Q} {ops : List (Op K V Q)} {al : Alloc} {os : List (Out K V)} {p : List HMap} {s : Heap K V}
    (hr : Op.hprog bor ops [] (Heap.start al pl) = .ok ((os, true, p), s)) {i : Nat} {m : HMap} (hm : p[i]? = some m) (items : List (K × V)) (bad : Bool) (calm : Nat) :
    ∃ why m' s', HMap.extendD bad items calm m s = .ok ((why, m'), s') ∧
      ((why = .done → bad = false) ∧ (why = .iter → bad = true) ∧ (why = .drop → calm < 2 * items.length) ∧ (why = .mem → ∃ n, s.alloc n = false)) ∧
      (why ≠ .mem → ∃ n m1 s1 ls s2 s3, n ≤ items.length ∧ (why ≠ .drop → n = items.length) ∧ m.extendU (items.take n) s = .ok ((true, m1), s1) ∧
        m'.length = m1.length ∧ dropAll (p.set i m1) s1 = .ok (ls, s2) ∧ dropAll (p.set i m') s' = .ok (ls, s3) ∧ ∀ a, s3.cells a = none) := by
  obtain ⟨ms, M, h1, hwf, hM, why, m', s', M', al', k1, k2, k3, k4, k5⟩ := extend_panics hr hm items bad calm
  have hwm := hwf M (List.mem_of_getElem? hM)
  refine ⟨why, m', s', k1, extended_why hwm k2, fun hne => ?_⟩
  obtain ⟨n, g1, g2, g3⟩ := extended_n k2 hne
  obtain ⟨m1, s1, g4, g8, s2, g5⟩ := k5 n M' al' g3
  obtain ⟨s3, g6, g7⟩ := k4 hne
  exact ⟨n, m1, s1, _, s2, s3, g1, g2, g4, by rw [k3, g8], g5, g6, g7⟩

/-- **C77** … with a lawful order, in terms of the lists the program computes: `try_insert` unwound by the key's destructor changes nothing, and otherwise inserts. -/
theorem C77_try_insert_history [Ord K] [Std.TransOrd K] [Ord Q] [Std.TransOrd Q] {bor : K → Q} (hbo : BorrowOK bor) {ops : List (Op K V Q)} {al : Alloc} {os : List (Out K V)}
    {p : List HMap} {s : Heap K V} (hr : Op.hprog bor ops [] (Heap.start al pl) = .ok ((os, true, p), s)) (hf : .failed ∉ os) {i : Nat} {m : HMap} (hm : p[i]? = some m)
    (k : K) (v : V) (calm : Nat) :
    ∃ l, (Op.specs bor ops []).2[i]? = some l ∧ ∃ why old c m' s', m.tryInsertD k v calm s = .ok ((why, old, c, m'), s') ∧
      ((why = .mem ∧ lookup id k l = none ∧ ∃ n, s.alloc n = false) ∨
       (why = .done ∧ old = lookup id k l ∧ (calm = 0 → lookup id k l = none) ∧
         ∃ s2, dropAll (p.set i m') s' = .ok ((Op.specs bor ops []).2.set i (Spec.insert k v l), s2) ∧ ∀ a, s2.cells a = none) ∨
       (why = .drop ∧ calm = 0 ∧ lookup id k l ≠ none ∧ ∃ s2, dropAll (p.set i m') s' = .ok ((Op.specs bor ops []).2, s2) ∧ ∀ a, s2.cells a = none)) := by
  obtain ⟨ms, M, h1, hwf, hM, why, old, c, m', s', M', al', k1, k2, k3, k4⟩ := tryInsert_panics hr hm k v calm
  rcases runs_agree hbo ops [] (by simp) al with ⟨h, _⟩ | ⟨p3, a3, e1, e2, e3⟩
  · exact absurd ⟨os, ms, _, h1, hf⟩ h
  rw [h1] at e1
  simp only [Exec.ok.injEq, Prod.mk.injEq, List.map_nil] at e1 e3
  obtain ⟨_, rfl, _⟩ := e1
  have hv := e2 M (List.mem_of_getElem? hM)
  rw [← e3]
  obtain ⟨r, M1, al1, g1, g2, g3⟩ := Map.tryInsert_ordered hv k v s.alloc
  refine ⟨M.toList, by simp [hM], why, old, c, m', s', k1, ?_⟩
  rcases k2 with ⟨q1, _, _, er, q2⟩ | ⟨q1, q2, q3⟩ | ⟨q1, q2, q3, q4, kv, q5, q6⟩
  · rw [q2] at g1
    simp only [Exec.ok.injEq, Prod.mk.injEq] at g1
    obtain ⟨rfl, rfl, rfl⟩ := g1
    refine .inl ⟨q1, g2.1, not_good fun hg => ?_⟩
    obtain ⟨_, o, ho⟩ := g3 hg
    cases ho
  · dsimp only at q1 q2 q3
    subst q1
    rw [q2] at g1
    simp only [Exec.ok.injEq, Prod.mk.injEq] at g1
    obtain ⟨rfl, rfl, rfl⟩ := g1
    obtain ⟨g4, g5, g6⟩ := g2
    obtain ⟨s2, u1, u2⟩ := k4 (by simp)
    refine .inr (.inl ⟨rfl, g6, fun hc => ?_, s2, by rw [u1, g5], u2⟩)
    rcases q3 with ⟨q3, _⟩ | ⟨_, q3⟩
    · rw [← g6, q3]
    · omega
  · dsimp only at q1 q2 q3 q4
    subst q1
    obtain ⟨rfl, _⟩ := by simpa using q4
    obtain ⟨s2, u1, u2⟩ := k4 (by simp)
    refine .inr (.inr ⟨rfl, q3, ?_, s2, ?_, u2⟩)
    · intro hn
      simp only [lookup, Option.map_eq_none_iff] at hn
      have := List.find?_eq_none.1 hn kv q5
      exact this (by simp [q6])
    · rw [u1]
      congr 2
      exact List.ext_getElem? fun j => by
        by_cases hj : i = j
        · subst hj
          rw [List.getElem?_set_self (by simpa using (List.getElem?_eq_some_iff.1 hM).1)]
          simp [hM]
        · rw [List.getElem?_set_ne hj]

/-- **C77** … and what `extend` leaves is the list with a first part of the items inserted one after the other. -/
theorem C77_extend_history [Ord K] [Std.TransOrd K] [Ord Q] [Std.TransOrd Q] {bor : K → Q} (hbo : BorrowOK bor) {ops : List (Op K V Q)} {al : Alloc} {os : List (Out K V)}
    {p : List HMap} {s : Heap K V} (hr : Op.hprog bor ops [] (Heap.start al pl) = .ok ((os, true, p), s)) (hf : .failed ∉ os) {i : Nat} {m : HMap} (hm : p[i]? = some m)
    (items : List (K × V)) (bad : Bool) (calm : Nat) :
    ∃ l, (Op.specs bor ops []).2[i]? = some l ∧ ∃ why m' s', HMap.extendD bad items calm m s = .ok ((why, m'), s') ∧
      ((why = .done → bad = false) ∧ (why = .iter → bad = true) ∧ (why = .drop → calm < 2 * items.length) ∧ (why = .mem → ∃ n, s.alloc n = false)) ∧
      (why ≠ .mem → ∃ n s2, n ≤ items.length ∧ (why ≠ .drop → n = items.length) ∧
        dropAll (p.set i m') s' = .ok ((Op.specs bor ops []).2.set i ((items.take n).foldl (fun acc kv => Spec.insert kv.1 kv.2 acc) l), s2) ∧ ∀ a, s2.cells a = none) := by
  obtain ⟨ms, M, h1, hwf, hM, why, m', s', M', al', k1, k2, k3, k4, _⟩ := extend_panics hr hm items bad calm
  rcases runs_agree hbo ops [] (by simp) al with ⟨h, _⟩ | ⟨p3, a3, e1, e2, e3⟩
  · exact absurd ⟨os, ms, _, h1, hf⟩ h
  rw [h1] at e1
  simp only [Exec.ok.injEq, Prod.mk.injEq, List.map_nil] at e1 e3
  obtain ⟨_, rfl, _⟩ := e1
  have hv := e2 M (List.mem_of_getElem? hM)
  rw [← e3]
  refine ⟨M.toList, by simp [hM], why, m', s', k1, extended_why hv.toShaped k2, fun hne => ?_⟩
  obtain ⟨n, g1, g2, g3⟩ := extended_n k2 hne
  obtain ⟨s2, u1, u2⟩ := k4 hne
  refine ⟨n, s2, g1, g2, ?_, u2⟩
  rcases Map.extend_spec (items.take n) hv s.alloc with ⟨⟨_, q⟩, _⟩ | ⟨M2, a2, q1, _, _, q2⟩
  · rw [g3] at q; cases q
  · rw [g3] at q1
    simp only [Exec.ok.injEq, Prod.mk.injEq] at q1
    obtain ⟨rfl, rfl⟩ := q1
    rw [u1, q2]

/-- `from_iter` with an iterator and destructors that may panic. -/
theorem collect_panics [Ord K] {s : Heap K V} (hg : s.Good) (items : List (K × V)) (bad : Bool) (calm : Nat) (hmem : ∀ n, s.alloc n = true) :
    ∃ why o d s' M' al', HMap.fromIterD bad items calm s = .ok ((why, o, d), s') ∧ ExtendedD Map.new bad items calm s.alloc why (M', al') ∧ why ≠ .mem ∧ M'.WF ∧
      (why = .done → d = [] ∧ ∃ m, o = some m ∧ m.length = M'.toList.length ∧ ∃ s2, m.drop s' = .ok (M'.toList, s2) ∧ s2.cells = s.cells) ∧
      (why ≠ .done → o = none ∧ d = M'.toList ∧ s'.cells = s.cells) := by
  let W : HProp K V := fun w => w = ⟨s.cells, none⟩
  have hw : ((rep HMap.new (Map.new : Map K V) ∗ sched s.alloc) ∗ W) s.world := by
    rw [rep_new, emp_sep]
    exact ⟨⟨fun _ => none, some s.alloc⟩, ⟨s.cells, none⟩, ⟨fun _ => .inl rfl, .inr rfl⟩, by simp [World.union, Heap.world], rfl, rfl⟩
  have hwf : (Map.new : Map K V).WF := Map.WF_new
  obtain ⟨⟨why, m1⟩, s1, h1, h2, h3⟩ := Triple.returns (extendD_spec (E := fun _ => False) (items := items) (bad := bad) (calm := calm) hwf) hg hw
  unfold ExtendPostD at h3
  rw [hex_sep] at h3
  obtain ⟨⟨M', al'⟩, h3⟩ := h3
  rw [sep_assoc] at h3
  obtain ⟨hf, h4⟩ := fact_sep.1 h3
  dsimp only at hf h4
  have hne : why ≠ .mem := fun h => by
    obtain ⟨n, hn⟩ := (extended_why hwf hf).2.2.2 h
    rw [hmem n] at hn
    cases hn
  obtain ⟨n, _, _, hn⟩ := extended_n hf hne
  have hM' : M'.WF := (BTree.extend_nonempty hwf hn).1
  have : leak (K := K) (V := V) (why != .mem) = emp := by
    rw [show (why != Stop.mem) = true by simp [hne]]; rfl
  rw [this, sep_emp, sep_assoc] at h4
  have hlen := rep_length h4
  obtain ⟨l, s2, g1, g2, g3⟩ := Triple.returns (mapDrop_spec (E := fun _ => False) (hM'.len.trans (Nat.add_zero _))) h2 h4
  obtain ⟨rfl, g4⟩ := fact_sep.1 g3
  have g5 : s2.cells = s.cells := by
    obtain ⟨w1, w2, _, g6, g7, g8⟩ := g4
    have g9 := congrArg World.cells g6
    rw [show w1 = _ from g7, show w2 = _ from g8] at g9
    simpa [World.union, Heap.world] using g9
  unfold HMap.fromIterD
  cases why with
  | mem => exact absurd rfl hne
  | done => exact ⟨.done, some m1, [], s1, M', al', run_bind.2 ⟨_, _, h1, rfl⟩, hf, by simp, hM', fun _ => ⟨rfl, m1, rfl, by rw [hlen, hM'.len]; rfl, s2, g1, g5⟩, by simp⟩
  | drop => exact ⟨.drop, none, M'.toList, s2, M', al', run_bind.2 ⟨_, _, h1, run_bind.2 ⟨_, _, g1, rfl⟩⟩, hf, by simp, hM', by simp, fun _ => ⟨rfl, rfl, g5⟩⟩
  | iter => exact ⟨.iter, none, M'.toList, s2, M', al', run_bind.2 ⟨_, _, h1, run_bind.2 ⟨_, _, g1, rfl⟩⟩, hf, by simp, hM', by simp, fun _ => ⟨rfl, rfl, g5⟩⟩

/-- **C77** `from_iter` (`collect`), after any program, with an iterator that may panic after any number of items and destructors of replaced keys and values any of which
may panic, with enough memory and any key order: nothing undefined happens.  If it returns, the map holds as many pairs as it says.  If it is unwound, the destructor of the
unfinished map drops exactly what collecting some first part of the items (all of them, if it was the iterator that panicked) gives, and every node it used is freed.
(When memory runs out: C64.) -/
theorem C77_collect [Ord K] [Ord Q] {bor : K → Q} {ops : List (Op K V Q)} {al : Alloc} {os : List (Out K V)} {p : List HMap} {s : Heap K V}
    (hr : Op.hprog bor ops [] (Heap.start al pl) = .ok ((os, true, p), s)) (items : List (K × V)) (bad : Bool) (calm : Nat) (hmem : ∀ n, s.alloc n = true) :
    ∃ why o d s', HMap.fromIterD bad items calm s = .ok ((why, o, d), s') ∧
      ((why = .done → bad = false) ∧ (why = .iter → bad = true) ∧ (why = .drop → calm < 2 * items.length) ∧ why ≠ .mem) ∧
      ∃ n l m1 s1 s2, n ≤ items.length ∧ (why ≠ .drop → n = items.length) ∧ HMap.fromIterU (items.take n) s = .ok (some m1, s1) ∧ m1.drop s1 = .ok (l, s2) ∧
        (why = .done → d = [] ∧ ∃ m, o = some m ∧ m.length = l.length ∧ ∃ s3, m.drop s' = .ok (l, s3) ∧ s3.cells = s.cells) ∧
        (why ≠ .done → o = none ∧ d = l ∧ s'.cells = s.cells) := by
  obtain ⟨hg, _⟩ := hprog_ok hr
  obtain ⟨why, o, d, s', M', al', h1, h2, h3, h4, h5, h6⟩ := collect_panics hg items bad calm hmem
  obtain ⟨a1, a2, a3, _⟩ := extended_why Map.WF_new h2
  obtain ⟨n, g1, g2, g3⟩ := extended_n h2 h3
  obtain ⟨m1, s1, q1, q2, s2, q3, q4⟩ := (C64_from_iter hr (items.take n)).1 M' al' g3
  exact ⟨why, o, d, s', h1, ⟨a1, a2, a3, h3⟩, n, M'.toList, m1, s1, s2, g1, g2, q1, q3, h5, h6⟩

/-- **C77** … and with a lawful order, that is the list built by inserting those items one after the other. -/
theorem C77_collect_history [Ord K] [Std.TransOrd K] [Ord Q] {bor : K → Q} {ops : List (Op K V Q)} {al : Alloc} {os : List (Out K V)} {p : List HMap} {s : Heap K V}
    (hr : Op.hprog bor ops [] (Heap.start al pl) = .ok ((os, true, p), s)) (items : List (K × V)) (bad : Bool) (calm : Nat) (hmem : ∀ n, s.alloc n = true) :
    ∃ why o d s' n, HMap.fromIterD bad items calm s = .ok ((why, o, d), s') ∧ why ≠ .mem ∧ n ≤ items.length ∧ (why ≠ .drop → n = items.length) ∧
      (why = .done → bad = false ∧ d = [] ∧ ∃ m, o = some m ∧ ∃ s3, m.drop s' = .ok ((items.take n).foldl (fun acc kv => Spec.insert kv.1 kv.2 acc) [], s3) ∧ s3.cells = s.cells) ∧
      (why ≠ .done → o = none ∧ d = (items.take n).foldl (fun acc kv => Spec.insert kv.1 kv.2 acc) [] ∧ s'.cells = s.cells) := by
  obtain ⟨hg, _⟩ := hprog_ok hr
  obtain ⟨why, o, d, s', M', al', h1, h2, h3, h4, h5, h6⟩ := collect_panics hg items bad calm hmem
  obtain ⟨a1, _⟩ := extended_why Map.WF_new h2
  obtain ⟨n, g1, g2, g3⟩ := extended_n h2 h3
  have hl : M'.toList = (items.take n).foldl (fun acc kv => Spec.insert kv.1 kv.2 acc) [] := by
    rcases Map.extend_spec (items.take n) (Map.Valid_new : (Map.new : Map K V).Valid) s.alloc with ⟨⟨_, q⟩, _⟩ | ⟨M2, a2, q1, _, _, q2⟩
    · rw [g3] at q; cases q
    · rw [g3] at q1
      simp only [Exec.ok.injEq, Prod.mk.injEq] at q1
      obtain ⟨rfl, rfl⟩ := q1
      rw [q2]; rfl
  refine ⟨why, o, d, s', n, h1, h3, g1, g2, ?_⟩
  rw [← hl]
  refine ⟨fun h => ?_, h6⟩
  obtain ⟨u1, m, u2, _, u3⟩ := h5 h
  exact ⟨a1 h, u1, m, u2, u3⟩

theorem append_drops [Ord K] {m o : HMap} {calm : Nat} {s : Heap K V} (h : ∀ f, ∃ x s', m.appendU o f s = .ok (x, s')) :
    ∃ f w m' o' d d' s', m.appendU o f s = .ok ((w, m', o', d), s') ∧ m.appendD o calm s = .ok ((Stop.ofWhy w, m', o', d'), s') ∧ d'.Perm d := by
  obtain ⟨f, hf⟩ := appendD_sim m o calm s
  obtain ⟨⟨w, m', o', d⟩, s', hx⟩ := h f
  rw [hx] at hf
  cases hd : m.appendD o calm s with
  | panic e => rw [hd] at hf; exact hf.elim
  | ub => rw [hd] at hf; exact hf.elim
  | ok y =>
    rw [hd] at hf
    obtain ⟨⟨h1, h2, h3, h4⟩, h5⟩ := hf
    obtain ⟨⟨w2, m2, o2, d2⟩, s2⟩ := y
    dsimp only at h1 h2 h3 h4 h5
    subst h1 h2 h3 h5
    exact ⟨f, w, m2, o2, d, d2, s2, hx, rfl, h4⟩

/-- **C77** `append` of two maps of any program, with any key order and any allocator, where the destructor of any pair of the left map that is replaced may panic: nothing
undefined happens.  Afterwards every pair is in `self`, in `other`, or has been dropped, exactly once; if the call unwound, `other` is the new map.
All the maps can then be dropped, and nothing stays allocated unless memory was refused. -/
theorem C77_append [Ord K] [Ord Q] {bor : K → Q} {ops : List (Op K V Q)} {al : Alloc} {os : List (Out K V)} {p : List HMap} {s : Heap K V}
    (hr : Op.hprog bor ops [] (Heap.start al pl) = .ok ((os, true, p), s)) {i j : Nat} (hij : i ≠ j) {m o : HMap} (hm : p[i]? = some m) (ho : p[j]? = some o) (calm : Nat) :
    ∃ (before : List (List (K × V))) (l r : List (K × V)), (∃ s0, dropAll p s = .ok (before, s0)) ∧ before[i]? = some l ∧ before[j]? = some r ∧
    ∃ why m' o' dropped s' l' r', m.appendD o calm s = .ok ((why, m', o', dropped), s') ∧ m'.length = l'.length ∧ o'.length = r'.length ∧
      (l' ++ r' ++ dropped).Perm (l ++ r) ∧ (why ≠ .done → o' = HMap.new ∧ r' = []) ∧ why ≠ .iter ∧ (why = .drop → calm < dropped.length) ∧
      ∃ s2, dropAll ((p.set i m').set j o') s' = .ok ((before.set i l').set j r', s2) ∧ (why ≠ .mem → ∀ a, s2.cells a = none) := by
  obtain ⟨f, w, m', o', d, d', s', h1, h2, h3⟩ := append_drops (m := m) (o := o) (calm := calm) (s := s) fun f => by
    obtain ⟨_, _, _, _, _, _, why, m', o', dropped, s', _, _, h, _⟩ := C65_append hr hij hm ho f
    exact ⟨_, _, h⟩
  obtain ⟨before, l, r, g1, g2, g3, why, m2, o2, d2, s2, l', r', g4, g5, g6, g7, g8, s3, g9, g10⟩ := C65_append hr hij hm ho f
  rw [h1] at g4
  simp only [Exec.ok.injEq, Prod.mk.injEq] at g4
  obtain ⟨⟨rfl, rfl, rfl, rfl⟩, rfl⟩ := g4
  refine ⟨before, l, r, g1, g2, g3, Stop.ofWhy w, m', o', d', s', l', r', h2, g5, g6, (List.Perm.append_left _ h3).trans g7, fun h => g8 ?_, ?_, fun h => ?_, s3, g9, fun h => g10 ?_⟩
  · rintro rfl; exact h rfl
  · rcases w with _ | w
    · simp [Stop.ofWhy]
    · cases w <;> simp [Stop.ofWhy]
  · rw [h] at h2
    exact appendD_calm h2
  · rintro rfl; exact h rfl

/-- **C77** … and if the order is lawful: what is left in `self` is the union of the two lists the program computes if the call returned (the pairs of `other` win), and a first part
of it if it unwound; it unwinds for want of memory only if a request was refused. -/
theorem C77_append_history [Ord K] [Std.TransOrd K] [Ord Q] [Std.TransOrd Q] {bor : K → Q} (hbo : BorrowOK bor) {ops : List (Op K V Q)} {al : Alloc}
    {os : List (Out K V)} {p : List HMap} {s : Heap K V} (hr : Op.hprog bor ops [] (Heap.start al pl) = .ok ((os, true, p), s)) (hf : .failed ∉ os) {i j : Nat} (hij : i ≠ j)
    {m o : HMap} (hm : p[i]? = some m) (ho : p[j]? = some o) (calm : Nat) :
    ∃ l r u why m' o' dropped s' l' s2, (Op.specs bor ops []).2[i]? = some l ∧ (Op.specs bor ops []).2[j]? = some r ∧ Spec.union l r u ∧
      m.appendD o calm s = .ok ((why, m', o', dropped), s') ∧
      dropAll ((p.set i m').set j o') s' = .ok (((Op.specs bor ops []).2.set i l').set j [], s2) ∧
      (l' ++ dropped).Perm (l ++ r) ∧ m'.length = l'.length ∧ o'.length = 0 ∧ l' <+: u ∧ (why = .done → l' = u) ∧ (why = .mem → ∃ n, s.alloc n = false) := by
  obtain ⟨f, w, m', o', d, d', s', h1, h2, h3⟩ := append_drops (m := m) (o := o) (calm := calm) (s := s) fun f => by
    obtain ⟨_, _, _, _, _, _, why, m', o', dropped, s', _, _, h, _⟩ := C65_append hr hij hm ho f
    exact ⟨_, _, h⟩
  obtain ⟨l, r, u, why, m2, o2, d2, s2, l', r', s3, g1, g2, g3, g4, g5, g6, g7, g8, g9, g10, g11, _, g13⟩ := C65_append_history hbo hr hf hij hm ho f
  rw [h1] at g4
  simp only [Exec.ok.injEq, Prod.mk.injEq] at g4
  obtain ⟨⟨rfl, rfl, rfl, rfl⟩, rfl⟩ := g4
  subst g9
  refine ⟨l, r, u, Stop.ofWhy w, m', o', d', s', l', s3, g1, g2, g3, h2, g5, ?_, g7, g8, ?_, fun h => ?_, fun h => ?_⟩
  · exact (List.Perm.append_left _ h3).trans (by simpa using g6)
  · by_cases hw : w = none
    · rw [g10 hw]; exact List.prefix_rfl
    · exact g11 hw
  · refine g10 ?_
    rcases w with _ | w
    · rfl
    · cases w <;> simp [Stop.ofWhy] at h
  · refine g13 ?_
    rcases w with _ | w
    · simp [Stop.ofWhy] at h
    · cases w <;> simp [Stop.ofWhy] at h ⊢

/-- The maps of `evensAndThrees` with the (calm+1)-st destructor panicking in `append`: why it ended, how many pairs are left in `self`, how many were dropped, what is
allocated when all is dropped.  Common keys: 0, 6, …, 54. -/
def dropAppend (calm : Nat) : Option (Stop × Nat × Nat × Nat) :=
  match Op.hprog id evensAndThrees [] (Heap.Heap.start (fun _ => true) reuse) with
  | .ok ((_, true, [m, o]), s) => match m.appendD o calm s with
    | .ok ((why, m', o', d), s') => match dropAll [m', o'] s' with
      | .ok ([l, []], s2) => if l.length == m'.length then some (why, l.length, d.length, (tally s2).2) else none
      | _ => none
    | _ => none
  | _ => none

example : dropAppend 10 = some (.done, 40, 10, 0) ∧ dropAppend 9 = some (.drop, 36, 14, 0) ∧ dropAppend 0 = some (.drop, 0, 50, 0) := by decide +kernel

/-- Keys 24 to 35 into the first of the maps of `evensAndThrees`, half of which are there: `extend`. -/
def dropExtend (bad : Bool) (calm : Nat) : Option (Stop × List Nat × Nat) :=
  match Op.hprog id evensAndThrees [] (Heap.Heap.start (fun _ => true) reuse) with
  | .ok ((_, true, [m, o]), s) => match HMap.extendD bad ((List.range 12).map fun i => (24 + i, 7)) calm m s with
    | .ok ((why, m'), s') => match dropAll [m', o] s' with
      | .ok ([l, _], s2) => some (why, (l.filter fun x => x.2 == 7).map (·.1), (tally s2).2)
      | _ => none
    | _ => none
  | _ => none

/-- It returns; the iterator panics; a key's destructor panics (26 is not replaced); a value's destructor panics (26 is). -/
example : dropExtend false 12 = some (.done, (List.range 12).map (24 + ·), 0) ∧ dropExtend true 12 = some (.iter, (List.range 12).map (24 + ·), 0) ∧
    dropExtend false 2 = some (.drop, [24, 25], 0) ∧ dropExtend false 3 = some (.drop, [24, 25, 26], 0) := by decide +kernel

/-- Collecting, with a key that occurs twice. -/
example : (match HMap.fromIterD true ((List.range 30).map fun i => (i, i)) 0 (Heap.start (K := Nat) (V := Nat) (fun _ => true) reuse) with
      | .ok ((.iter, none, l), s) => l == ((List.range 30).map fun i => (i, i)) && (tally s).2 == 0
      | _ => false) = true ∧
    (match HMap.fromIterD false [(1, 1), (2, 2), (1, 3), (4, 4)] 1 (Heap.start (K := Nat) (V := Nat) (fun _ => true) reuse) with
      | .ok ((.drop, none, l), s) => l == [(1, 3), (2, 2)] && (tally s).2 == 0
      | _ => false) = true := by decide +kernel

end Verif.Props
