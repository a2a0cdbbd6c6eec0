import Verif.Heap.Proofs.Footprint
import Verif.Props.Heap
/-
C59: how often each call asks the allocator, and C60: how much memory a map takes.
-/
namespace Verif.Props
open Verif Verif.BTree Verif.Spec

variable {K V Q : Type} {pl : Nat → Heap.Addr}

/-! ### Specification -/

/-- A call that made `n` requests, all granted if it succeeded and all but the last otherwise, on the map `m` that is now `m'`: if it
succeeded, every node it was given is part of the map now. -/
def Charged (m m' : Map K V) (a a' : Alloc) (good : Bool) (n : Nat) : Prop :=
  Asked a a' n good ∧ (good = true → m'.nodes = m.nodes + n)

/-- The calls that may ask the allocator; the others never do. -/
def mayAllocate : Op K V Q → Bool
  | .insert .. | .append .. | .splitOff .. | .extend .. | .clone .. | .tryClone .. | .replace .. => true
  | .entryOrInsert .. | .entryOrInsertWith .. | .entryRemove .. | .entryModify .. | .entryKey .. | .entryInsert .. => true
  | _ => false

/-! ### C59 -/

/-- **C59** `try_insert` asks at most `height + 2` times (once, if the map has never held anything), it fails exactly if the last of its
requests is refused, and if it succeeds every node it got is in the map.  The height is logarithmic in the number of entries. -/
theorem C59_insert [Ord K] {m m' : Map K V} (h : ReachAny m) {k : K} {v : V} {a a' : Alloc} {r : Res (Option V)}
    (hr : m.tryInsert k v a = .ok (r, m', a')) :
    ∃ n, n ≤ m.growth ∧ Charged m m' a a' r.isOk n ∧ (1 ≤ m.height → 2 * 5 ^ m.height ≤ m.len + 1) := by
  obtain ⟨n, h1, h2⟩ := tryInsert_paid (fun hs => (h.wf.shared hs).1) hr
  refine ⟨n, h1, h2, fun h0 => ?_⟩
  have := RootOK.size h.wf.shape h0
  have hl := h.wf.len
  simp only [Map.toList] at hl
  simp only [Map.len]
  omega

/-- **C59** So an insertion whose next `height + 2` requests would be granted succeeds. -/
theorem C59_insert_succeeds [Ord K] {m : Map K V} (h : ReachAny m) (k : K) (v : V) {a : Alloc} (ha : ∀ i, i < m.growth → a i = true) :
    ∃ old m' a', m.tryInsert k v a = .ok (.ok old, m', a') := by
  obtain ⟨r, m', a', h1, _⟩ := Map.tryInsert_wf h.wf k v a
  obtain ⟨n, h2, ⟨⟨_, h4⟩, _⟩, _⟩ := C59_insert h h1
  cases r with
  | ok old => exact ⟨old, m', a', h1⟩
  | error e =>
    obtain ⟨j, e1, _, e3⟩ := h4
    rw [ha j (by omega)] at e3
    cases e3

/-- **C59** `Recover::replace` (the set's `replace`) has the same budget. -/
theorem C59_replace [Ord K] {m m' : Map K V} (h : ReachAny m) {k : K} {v : V} {a a' : Alloc} {r : Res (Option K)}
    (hr : m.replaceKey k v a = .ok (r, m', a')) : ∃ n, n ≤ m.growth ∧ Charged m m' a a' r.isOk n :=
  replaceKey_paid (fun hs => (h.wf.shared hs).1) hr

/-- **C59** `try_entry` asks exactly once on a map that has never held anything (even if the entry is only looked at), and otherwise never. -/
theorem C59_entry [Ord K] {m m' : Map K V} (h : ReachAny m) {k : K} {a a' : Alloc} {r : Res (Entry K)} (hr : m.tryEntry k a = .ok (r, m', a')) :
    Charged m m' a a' r.isOk (if m.shared then 1 else 0) ∧ (m.shared = true → m.len = 0) := by
  refine ⟨?_, fun hs => ?_⟩
  · obtain ⟨e1, e2, e3, n, h1, h2, h3⟩ := tryEntry_paid (fun hs => (h.wf.shared hs).1) hr
    have hn : n = if m.shared then 1 else 0 := by
      cases hs : m.shared with
      | false => simp only [hs, Bool.false_eq_true, if_false] at h1 ⊢; omega
      | true =>
        simp only [hs, if_true] at h1 ⊢
        cases hg : r.isOk with
        | false =>
          rw [hg] at h2
          obtain ⟨j, rfl, _⟩ := h2.2
          omega
        | true =>
          have h4 := h3 hg
          have h5 := e2 hg
          simp only [Map.nodes, h5, hs, Bool.false_eq_true, if_false, if_true] at h4
          have := nodesOf_pos (h := m'.height) (t := m'.root)
          omega
    rw [← hn]
    exact ⟨h2, h3⟩
  · have hl := h.wf.len
    obtain ⟨h1, h2⟩ := h.wf.shared hs
    simp only [Map.toList, h1, h2, toList, emptyLeaf] at hl
    exact hl

/-- **C59** `try_entry` and then `or_try_insert` together stay within the budget of an insertion. -/
theorem C59_or_insert [Ord K] {m m1 m' : Map K V} (h : ReachAny m) {k : K} {v : V} {a a1 a' : Alloc} {e : Entry K} {r : Res Handle}
    (he : m.tryEntry k a = .ok (.ok e, m1, a1)) (hr : m1.orTryInsert e v a1 = .ok (r, m', a')) :
    ∃ n, n ≤ m.growth ∧ Charged m m' a a' r.isOk n := by
  have hz : m.shared = true → m.height = 0 := fun hs => (h.wf.shared hs).1
  obtain ⟨_, _, _, e4⟩ := tryEntry_paid hz he
  cases e with
  | occupied hd =>
    simp only [Map.orTryInsert, Exec.ok.injEq, Prod.mk.injEq] at hr
    obtain ⟨rfl, rfl, rfl⟩ := hr
    exact e4.mono growth_pos
  | vacant k' hd => exact entry_insert_paid hz he hr

/-- **C59** `extend` (and `from_iter`): every request was granted, and every node it got is in the map. -/
theorem C59_extend [Ord K] {m m' : Map K V} (h : ReachAny m) {l : List (K × V)} {a a' : Alloc} (hr : m.extend l a = .ok (m', a')) :
    ∃ n, Charged m m' a a' true n := by
  obtain ⟨n, h1, h2⟩ := extend_paid h.wf hr
  exact ⟨n, h1, fun _ => h2⟩

/-- **C59** `split_off` of a map with entries asks once per level, whatever the key; of an empty one, never. -/
theorem C59_split_off [Ord Q] {m m' : Map K V} {bor : K → Q} {q : Q} {a a' : Alloc} {r : Res (Map K V)} (hr : m.splitOff bor q a = .ok (r, m', a')) :
    ∃ n, n ≤ m.height + 1 ∧ Asked a a' n r.isOk ∧ (m.len = 0 → n = 0) ∧ (m.len ≠ 0 → r.isOk = true → n = m.height + 1) :=
  splitOff_asked hr

/-- **C59** `try_clone` of keys and values whose own clones do not allocate asks at most once per node of the original; if it succeeds it asked
exactly once per node of the copy. -/
theorem C59_try_clone {m : Map K V} (h : ReachAny m) {ck : Cloner K} {cv : Cloner V} (hk : Quiet ck) (hv : Quiet cv) {a a' : Alloc} {r : Res (Map K V)}
    (hr : m.tryClone ck cv a = .ok (r, a')) :
    ∃ n g, n ≤ m.nodes ∧ Asked a a' n g ∧ ∀ c, r = .ok c → g = true ∧ n = c.nodes := by
  unfold Map.tryClone at hr
  split at hr
  · simp only [Exec.ok.injEq, Prod.mk.injEq] at hr
    obtain ⟨rfl, rfl⟩ := hr
    exact ⟨0, true, Nat.zero_le _, Asked.refl a, fun c e => by cases e; exact ⟨rfl, rfl⟩⟩
  · next h0 =>
    have hs : m.shared = false := by
      cases hs : m.shared with
      | false => rfl
      | true =>
        have hl := h.wf.len
        obtain ⟨h1, h2⟩ := h.wf.shared hs
        simp only [Map.toList, h1, h2, toList, emptyLeaf] at hl
        exact absurd hl h0
    obtain ⟨⟨r1, a1⟩, h1, hr⟩ := Exec.bind_eq_ok.1 hr
    have h2 := cloneSubtree_paid hk hv h1
    have hn : m.nodes = nodesOf m.height m.root := by simp [Map.nodes, hs]
    cases r1 with
    | error e =>
      simp only [Exec.ok.injEq, Prod.mk.injEq] at hr
      obtain ⟨rfl, rfl⟩ := hr
      obtain ⟨n, g, h3, h4⟩ := h2
      exact ⟨n, g, by omega, h3, fun c e => by cases e⟩
    | ok x =>
      obtain ⟨t, l⟩ := x
      simp only [Exec.ok.injEq, Prod.mk.injEq] at hr
      obtain ⟨rfl, rfl⟩ := hr
      obtain ⟨n, h3, h4, h5⟩ := h2
      refine ⟨n, true, by omega, h3, fun c e => ?_⟩
      cases e
      refine ⟨rfl, ?_⟩
      simp only [Map.nodes, Bool.false_eq_true, if_false]
      dsimp only at h4
      omega

/-- **C59** `append` of two maps with entries builds the result from new nodes: it asks exactly once per node of the result (and would panic if
refused).  If either map is empty it does not ask at all. -/
theorem C59_append [Ord K] {m o m' o' : Map K V} {a a' : Alloc} (hr : m.append o a = .ok (m', o', a')) :
    if m.len = 0 ∨ o.len = 0 then a' = a else Asked a a' m'.nodes true := by
  unfold Map.append at hr
  by_cases h1 : o.len = 0
  · simp only [h1, if_true, Exec.ok.injEq, Prod.mk.injEq] at hr
    simp only [h1, or_true, if_true]
    exact hr.2.2.symm
  · by_cases h2 : m.len = 0
    · simp only [h1, h2, if_true, if_false, Exec.ok.injEq, Prod.mk.injEq] at hr
      simp only [h2, true_or, if_true]
      exact hr.2.2.symm
    · simp only [h1, h2, if_false] at hr
      simp only [h1, h2, or_self, if_false]
      obtain ⟨l, _, hr⟩ := Exec.bind_eq_ok.1 hr
      obtain ⟨l', _, hr⟩ := Exec.bind_eq_ok.1 hr
      obtain ⟨⟨m1, a1⟩, h3, hr⟩ := Exec.bind_eq_ok.1 hr
      simp only [Exec.ok.injEq, Prod.mk.injEq] at hr
      obtain ⟨rfl, rfl, rfl⟩ := hr
      exact ofSorted_paid h3

theorem onMap_quiet {p p' : List (Map K V)} {i : Nat} {a a' : Alloc} {f : Map K V → Exec (Out K V × Map K V × Alloc)} {o : Out K V}
    (hr : onMap p i a f = .ok (o, p', a')) (hf : ∀ m o m' a', f m = .ok (o, m', a') → a' = a) : a' = a := by
  unfold onMap at hr
  cases hi : p[i]? with
  | none =>
    rw [hi] at hr
    simp only [Exec.ok.injEq, Prod.mk.injEq] at hr
    exact hr.2.2.symm
  | some m =>
    rw [hi] at hr
    obtain ⟨⟨o1, m1, a1⟩, h1, hr⟩ := Exec.bind_eq_ok.1 hr
    simp only [Exec.ok.injEq, Prod.mk.injEq] at hr
    rw [← hr.2.2]
    exact hf _ _ _ _ h1

/-- **C59** Every other call (looking up, removing, iterating, changing values, ranges, clearing, consuming a map) never asks: it cannot fail
for lack of memory. -/
theorem C59_quiet [Ord K] [Ord Q] {bor : K → Q} {p p' : List (Map K V)} {a a' : Alloc} {op : Op K V Q} {o : Out K V} (hq : mayAllocate op = false)
    (hr : BTree.Op.run bor p a op = .ok (o, p', a')) : a' = a := by
  cases op <;> simp only [mayAllocate, Bool.true_eq_false] at hq <;> unfold BTree.Op.run at hr
  case new =>
    simp only [Exec.ok.injEq, Prod.mk.injEq] at hr
    exact hr.2.2.symm
  all_goals
    refine onMap_quiet hr fun m o m' a1 h => ?_
    try dsimp only at h
    repeat
      obtain ⟨_, _, h0⟩ := Exec.bind_eq_ok.1 h
      clear h
      have h := h0
      clear h0
      try dsimp only at h
    simp only [Exec.ok.injEq, Prod.mk.injEq] at h
    exact h.2.2.symm

theorem runs_append [Ord K] [Ord Q] {bor : K → Q} : ∀ {ops ops' : List (Op K V Q)} {p p2 : List (Map K V)} {a a2 : Alloc} {os : List (Out K V)},
    BTree.Op.runs bor (ops ++ ops') p a = .ok (os, p2, a2) → ∃ os1 os2 p1 a1, BTree.Op.runs bor ops p a = .ok (os1, p1, a1) ∧
      BTree.Op.runs bor ops' p1 a1 = .ok (os2, p2, a2) ∧ os = os1 ++ os2
  | [], ops', p, p2, a, a2, os, hr => ⟨[], os, p, a, rfl, hr, rfl⟩
  | op :: ops, ops', p, p2, a, a2, os, hr => by
    rw [List.cons_append] at hr
    unfold BTree.Op.runs at hr
    obtain ⟨⟨o, p1, a1⟩, h1, hr⟩ := Exec.bind_eq_ok.1 hr
    obtain ⟨⟨os', p3, a3⟩, h2, hr⟩ := Exec.bind_eq_ok.1 hr
    simp only [Exec.ok.injEq, Prod.mk.injEq] at hr
    obtain ⟨rfl, rfl, rfl⟩ := hr
    obtain ⟨os1, os2, p4, a4, h3, h4, rfl⟩ := runs_append h2
    refine ⟨o :: os1, os2, p4, a4, ?_, h4, rfl⟩
    unfold BTree.Op.runs
    simp only [h1, h3, Exec.ok_bind]

theorem runs_quiet [Ord K] [Ord Q] {bor : K → Q} : ∀ {ops : List (Op K V Q)} {p p2 : List (Map K V)} {a a2 : Alloc} {os : List (Out K V)},
    (∀ op ∈ ops, mayAllocate op = false) → BTree.Op.runs bor ops p a = .ok (os, p2, a2) → a2 = a
  | [], p, p2, a, a2, os, _, hr => by
    simp only [BTree.Op.runs, Exec.ok.injEq, Prod.mk.injEq] at hr
    exact hr.2.2.symm
  | op :: ops, p, p2, a, a2, os, hq, hr => by
    unfold BTree.Op.runs at hr
    obtain ⟨⟨o, p1, a1⟩, h1, hr⟩ := Exec.bind_eq_ok.1 hr
    obtain ⟨⟨os', p3, a3⟩, h2, hr⟩ := Exec.bind_eq_ok.1 hr
    simp only [Exec.ok.injEq, Prod.mk.injEq] at hr
    obtain ⟨_, _, rfl⟩ := hr
    rw [runs_quiet (fun op h => hq op (by simp [h])) h2]
    exact C59_quiet (hq op (by simp)) h1

/-- The allocator after a program in memory is where the program on trees leaves it. -/
theorem hprog_alloc [Ord K] [Ord Q] {bor : K → Q} {ops : List (Op K V Q)} {al : Alloc} {os : List (Out K V)} {p : List Heap.HMap} {s : Heap.Heap K V}
    (hr : Heap.Op.hprog bor ops [] (Heap.Heap.start al pl) = .ok ((os, true, p), s)) :
    ∃ p', BTree.Op.runs bor ops [] al = .ok (os, p', s.alloc) ∧ (∀ m ∈ p', m.WF) ∧ (Heap.pool p p') ⟨s.cells, none⟩ := by
  obtain ⟨_, p', al', h1, h2, _, hw⟩ := hprog_ok hr
  obtain ⟨h3, h4⟩ := h2 rfl
  rw [h3, List.take_length] at h1
  simp only [Heap.leak, Heap.sep_emp] at hw
  obtain ⟨w₁, w₂, hd, hsw, hp, hs⟩ := hw
  rw [show w₂ = _ from hs] at hsw hd
  have e1 : some s.alloc = (Heap.World.union w₁ ⟨fun _ => none, some al'⟩).sched := congrArg Heap.World.sched hsw
  have e2 : w₁.sched = none := by rcases hd.2 with h | h; exact h; cases h
  have e3 : s.alloc = al' := by simpa [Heap.World.union, e2] using e1
  refine ⟨p', by rw [e3]; exact h1, h4, ?_⟩
  have e4 : s.cells = (Heap.World.union w₁ ⟨fun _ => none, some al'⟩).cells := congrArg Heap.World.cells hsw
  have e5 : w₁ = ⟨s.cells, none⟩ := by
    rw [e4]
    ext1
    · funext x; simp [Heap.World.union]
    · exact e2
  rw [← e5]
  exact hp

/-- **C59** In memory: after any program, a run of such calls asks the allocator for nothing. -/
theorem C59_memory [Ord K] [Ord Q] {bor : K → Q} {ops qs : List (Op K V Q)} {al : Alloc} {os os' : List (Out K V)} {p p' : List Heap.HMap} {s s' : Heap.Heap K V}
    (hr : Heap.Op.hprog bor ops [] (Heap.Heap.start al pl) = .ok ((os, true, p), s)) (hq : ∀ op ∈ qs, mayAllocate op = false)
    (hr' : Heap.Op.hprog bor (ops ++ qs) [] (Heap.Heap.start al pl) = .ok ((os', true, p'), s')) : s'.alloc = s.alloc := by
  obtain ⟨p1, h1, _⟩ := hprog_alloc hr
  obtain ⟨p2, h2, _⟩ := hprog_alloc hr'
  obtain ⟨os1, os2, p3, a3, h3, h4, _⟩ := runs_append h2
  rw [h1] at h3
  simp only [Exec.ok.injEq, Prod.mk.injEq] at h3
  obtain ⟨_, _, rfl⟩ := h3
  exact runs_quiet hq h4

/-! ### C60 -/

/-- **C60** A map of `len` entries has at most `len / 4 + 1` nodes, and at least `len / 11`. -/
theorem C60_footprint {m : Map K V} (h : ReachAny m) : 4 * m.nodes ≤ m.len + 4 ∧ m.len ≤ 11 * m.nodes := by
  have h1 := h.wf.footprint
  have hl := h.wf.len
  simp only [Map.len]
  omega

/-- **C60** After any program over any number of maps, in memory: the nodes allocated are finitely many, at most a quarter of the total
number of entries plus one per map, and at least an eleventh. -/
theorem C60_memory [Ord K] [Ord Q] {bor : K → Q} {ops : List (Op K V Q)} {al : Alloc} {os : List (Out K V)} {p : List Heap.HMap} {s : Heap.Heap K V}
    (hr : Heap.Op.hprog bor ops [] (Heap.Heap.start al pl) = .ok ((os, true, p), s)) :
    ∃ L : List Heap.Addr, L.Nodup ∧ (∀ x, s.cells x ≠ none ↔ x ∈ L) ∧
      4 * L.length ≤ (p.map (·.length)).sum + 4 * p.length ∧ (p.map (·.length)).sum ≤ 11 * L.length := by
  obtain ⟨p', h0, h1, h2⟩ := hprog_alloc hr
  obtain ⟨⟨L, h3, h4, h5⟩, h6⟩ := Heap.covers_pool h2
  have h7 : p.length = p'.length := by simpa using congrArg List.length h6
  refine ⟨L, h3, h5, ?_, ?_⟩ <;> rw [h4, h6]
  · rw [h7]
    clear h0 h2 h3 h4 h5 h6 h7 hr
    induction p' with
    | nil => simp
    | cons m ms ih =>
      have := ih fun m hm => h1 m (by simp [hm])
      have hw := h1 m (by simp)
      have h8 := hw.footprint
      have hl := hw.len
      simp only [List.map_cons, List.sum_cons, List.length_cons]
      omega
  · clear h0 h2 h3 h4 h5 h6 h7 hr
    induction p' with
    | nil => simp
    | cons m ms ih =>
      have := ih fun m hm => h1 m (by simp [hm])
      have hw := h1 m (by simp)
      have h8 := hw.footprint
      have hl := hw.len
      simp only [List.map_cons, List.sum_cons]
      omega

/-! ### Examples -/

/-- A map of the first `n` numbers, inserted in order. -/
def upTo (n : Nat) : Map Nat Nat :=
  match Map.fromIter ((List.range n).map fun i => (i, i)) allOk with
  | .ok (m, _) => m
  | _ => Map.new

/-- An allocator that grants `n` requests. -/
def grants (n : Nat) : Alloc := fun i => i < n

/-- The budget is attained: the 89th number splits a leaf and the root of a map of height 1, three requests. -/
example : (upTo 88).height = 1 ∧ (upTo 88).nodes = 13 ∧
    (match (upTo 88).tryInsert 88 0 (grants 3) with
      | .ok (r, m, a) => r.isOk && m.nodes == 16 && !a 0
      | _ => false) = true ∧
    (match (upTo 88).tryInsert 88 0 (grants 2) with
      | .ok (r, _, a) => !r.isOk && !a 0
      | _ => false) = true := by
  refine ⟨?_, ?_, ?_, ?_⟩ <;> decide +kernel

/-- `demo` has 40 entries in 7 nodes of height 1: splitting it takes two requests, copying it seven. -/
example : demo.nodes = 7 ∧ demo.height = 1 ∧
    (match demo.splitOff id 30 (grants 2) with
      | .ok (r, _, a) => r.isOk && !a 0
      | _ => false) = true ∧
    (match demo.tryClone (fun k a => (.ok k, a)) (fun v a => (.ok v, a)) (grants 7) with
      | .ok (.ok c, a) => c.nodes == 7 && !a 0
      | _ => false) = true ∧
    (match demo.append (upTo 20) (grants 9) with
      | .ok (m, _, a) => m.nodes == 6 && a 2 && !a 3
      | _ => false) = true := by
  refine ⟨?_, ?_, ?_, ?_, ?_⟩ <;> decide +kernel

/-- Looking at an entry of a new map asks once. -/
example : (match (Map.new : Map Nat Nat).tryEntry 1 noMem with
    | .ok (r, m, _) => !r.isOk && m.nodes == 0
    | _ => false) = true := by decide +kernel

/-- Calls that ask for nothing, after the demonstration program; its 6 nodes are within the bounds of C60. -/
def quietCalls : List (Op Nat Nat Nat) := [.remove 2 7, .get 2 8, .iterate 3 [.front, .back], .update 3 40 (· + 1), .clear 1, .intoIter 3 [.back]]
example : (∀ op ∈ quietCalls, mayAllocate op = false) ∧
    (match Heap.Op.hprog id demoProgram [] (Heap.Heap.start (grants 23) Heap.fresh) with
      | .ok ((_, b, p), s) => b && tally s == (23, 6) && !s.alloc 0 && (p.map (·.length)).sum == 36
      | _ => false) = true ∧
    (match Heap.Op.hprog id (demoProgram ++ quietCalls) [] (Heap.Heap.start (grants 23) Heap.fresh) with
      | .ok ((os, b, _), s) => b && os.length == demoProgram.length + 6 && !s.alloc 0
      | _ => false) = true := by
  refine ⟨by simp [quietCalls, mayAllocate], ?_, ?_⟩ <;> decide +kernel

end Verif.Props
