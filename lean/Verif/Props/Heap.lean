import Verif.Heap.Proofs.LayoutOk
import Verif.Props.History
import Verif.BTree.Proofs.NotFailed
/-
C51, C52, C53, and C03 once more: programs run on the memory of nodes, with all pointer and slot accesses checked.
-/
namespace Verif.Props
open Verif Verif.Heap Verif.Spec
open Verif.BTree (Map)

variable {K V Q : Type} {pl : Nat → Heap.Addr}

/-- A program that starts with nothing allocated: what its run means. -/
theorem hprog_cases [Ord K] [Ord Q] (bor : K → Q) (ops : List (Op K V Q)) (al : Alloc) (pl : Nat → Addr) :
    match Op.hprog bor ops [] (Heap.start al pl) with
    | .ok (r, s) => s.Good ∧ ProgPost bor ops [] al r s.world
    | .ub => False
    | .panic msg => BTree.Op.runs bor ops [] al = .panic msg := by
  have h := hprog_ref (E := fun msg => BTree.Op.runs bor ops [] al = .panic msg) bor ops (hs := []) (p := []) (by simp) al (fun _ h => h)
    emp (Heap.start al pl) (start_good al) (start_world al)
  cases hr : Op.hprog bor ops [] (Heap.start al pl) with
  | ok r =>
    rw [hr] at h
    exact ⟨h.1, by simpa only [sep_emp] using h.2⟩
  | ub => rw [hr] at h; exact h
  | panic msg => rw [hr] at h; exact h

theorem hprog_ok [Ord K] [Ord Q] {bor : K → Q} {ops : List (Op K V Q)} {al : Alloc} {os : List (Out K V)} {b : Bool} {p : List HMap} {s : Heap K V}
    (hr : Op.hprog bor ops [] (Heap.start al pl) = .ok ((os, b, p), s)) :
    s.Good ∧ ∃ p' al', BTree.Op.runs bor (ops.take os.length) [] al = .ok (os, p', al') ∧
      (b = true → os.length = ops.length ∧ ∀ m ∈ p', m.WF) ∧ (b = false → ∃ op, (op, .failed) ∈ ops.zip os ∧ op.inserts = true) ∧ (pool p p' ∗ sched al' ∗ leak b) s.world := by
  have h := hprog_cases bor ops al pl
  rw [hr] at h
  obtain ⟨h1, y, h2⟩ := h
  obtain ⟨⟨h3, h4, h5⟩, h6⟩ := fact_sep.1 h2
  exact ⟨h1, y.1, y.2, h3, h4, h5, h6⟩

/-- A computation that takes apart a described memory leaves nothing allocated. -/
theorem all_freed {α : Type} {P : HProp K V} {m : HM K V α} {x : α} {al : Alloc} (ht : Triple (fun _ => False) P m (fun r => fact (r = x))) {s : Heap K V}
    (hg : s.Good) (hs : (P ∗ sched al) s.world) : ∃ s', m s = .ok (x, s') ∧ ∀ a, s'.cells a = none := by
  have h := ht (sched al) s hg hs
  cases hm : m s with
  | ok r =>
    rw [hm] at h
    obtain ⟨h1, h2⟩ := fact_sep.1 h.2
    refine ⟨r.2, by rw [← h1], fun a => ?_⟩
    have h3 := congrArg World.cells (show r.2.world = _ from h2)
    exact congrFun h3 a
  | ub => rw [hm] at h; exact h.elim
  | panic msg => rw [hm] at h; exact h.elim

/-- **C53** No program over any number of maps, with any key order (lawful or not) and any allocator, ever reads an uninitialised or
moved-out slot, a freed or null node or a slot outside an array, overwrites a live slot, or deallocates a node with the wrong
layout: the run of every call is never undefined behaviour, up to and including the first insertion that fails. -/
theorem C53_no_ub [Ord K] [Ord Q] (bor : K → Q) (ops : List (Op K V Q)) (al : Alloc) (pl : Nat → Addr) :
    Op.hprog bor ops [] (Heap.start al pl) ≠ .ub := by
  intro h
  have := hprog_cases bor ops al pl
  rw [h] at this
  exact this

/-- **C53** At every moment of every program, every node of every map has exactly its slots below `len` initialised (`len + 1`
edges in an internal node, none in a leaf), at most 11 of them. -/
theorem C53_storage [Ord K] [Ord Q] {bor : K → Q} {ops : List (Op K V Q)} {al : Alloc} {os : List (Out K V)} {b : Bool} {p : List HMap} {s : Heap K V}
    (hr : Op.hprog bor ops [] (Heap.start al pl) = .ok ((os, b, p), s)) {m : HMap} (hm : m ∈ p) {h : Nat} {a : Addr} (hn : NodeOf s m h a) :
    ∃ n, s.cells a = some n ∧ Stored h n := by
  obtain ⟨_, p', al', _, _, _, hw⟩ := hprog_ok hr
  obtain ⟨i, hi⟩ := List.mem_iff_getElem?.1 hm
  obtain ⟨w₁, w₂, hd, hsw, hpw, _⟩ := hw
  obtain ⟨M, R, h1⟩ := pool_each hpw hi
  have hpart : Part w₁ s := Part.left (w₂ := w₂) (fun x n hx => by rw [← hsw] at hx; exact hx)
  obtain ⟨n, h2, h3, _⟩ := nodeOf_stored h1 hpart hn
  exact ⟨n, h2, h3⟩

/-- **C53** Inserting into a node's array at any position up to its length, while there is room, touches only slots of the array and
shifts the later items by one. -/
theorem C53_slice_insert {α : Type} {s : Slots α} {cap len idx : Nat} (x : α) (hs : ∀ i, (s i).isSome = true ↔ i < len) (hl : len < cap) (hi : idx ≤ len) :
    ∃ s', s.sliceInsert cap len idx x = .ok s' ∧ ∀ i, s' i = if i < idx then s i else if i = idx then some x else s (i - 1) := by
  have hn : ∀ i, len ≤ i → s i = none := fun i h => by
    cases h' : s i with
    | none => rfl
    | some y => have := (hs i).1 (by simp [h']); omega
  have h1 : s.copyWithin cap idx (idx + 1) (len - idx) = .ok (fun x => if idx + 1 ≤ x ∧ x < idx + 1 + (len - idx) then s (idx + (x - (idx + 1)))
      else if idx ≤ x ∧ x < idx + (len - idx) then none else s x) := by
    unfold Slots.copyWithin
    rw [if_pos]
    refine ⟨by omega, by omega, fun d hd => ?_⟩
    by_cases h : idx + 1 + d < len
    · exact .inl ⟨by omega, by omega⟩
    · exact .inr (hn _ (by omega))
  refine ⟨fun i => if i < idx then s i else if i = idx then some x else s (i - 1), ?_, fun i => rfl⟩
  unfold Slots.sliceInsert require
  simp only [hi, decide_true, if_true, Exec.ok_bind, h1]
  unfold Slots.put
  rw [if_pos]
  · rw [Exec.ok.injEq]
    funext i
    by_cases h1 : i = idx
    · simp [h1]
    · rw [if_neg h1]
      dsimp only
      by_cases h2 : i < idx
      · rw [if_neg (by omega), if_neg (by omega), if_pos h2]
      · rw [if_neg h2, if_neg h1]
        by_cases h3 : i ≤ len
        · rw [if_pos (by omega), show idx + (i - (idx + 1)) = i - 1 by omega]
        · rw [if_neg (by omega), if_neg (by omega), hn _ (by omega), hn _ (by omega)]
  · refine ⟨by omega, ?_⟩
    dsimp only
    rw [if_neg (by omega)]
    by_cases h : idx < len
    · rw [if_pos (by omega)]
    · rw [if_neg (by omega)]; exact hn _ (by omega)

/-- **C53** Removing from a node's array at any position below its length moves exactly that item out and shifts the later items back. -/
theorem C53_slice_remove {α : Type} {s : Slots α} {cap len idx : Nat} (hs : ∀ i, (s i).isSome = true ↔ i < len) (hl : len ≤ cap) (hi : idx < len) :
    ∃ x s', s.sliceRemove cap len idx = .ok (x, s') ∧ s idx = some x ∧ ∀ i, s' i = if i < idx then s i else s (i + 1) := by
  have hn : ∀ i, len ≤ i → s i = none := fun i h => by
    cases h' : s i with
    | none => rfl
    | some y => have := (hs i).1 (by simp [h']); omega
  obtain ⟨x, hx⟩ := Option.isSome_iff_exists.1 ((hs idx).2 hi)
  refine ⟨x, fun i => if i < idx then s i else s (i + 1), ?_, hx, fun i => rfl⟩
  unfold Slots.sliceRemove require Slots.take
  simp only [hi, decide_true, if_true, Exec.ok_bind, show idx < cap by omega, hx]
  unfold Slots.copyWithin
  rw [if_pos]
  · simp only [Exec.ok_bind, Exec.ok.injEq, Prod.mk.injEq, true_and]
    funext i
    by_cases h1 : i < idx
    · rw [if_neg (by omega), if_neg (by omega), if_neg (by omega), if_pos h1]
    · rw [if_neg h1]
      by_cases h2 : i + 1 < len
      · rw [if_pos (by omega), if_neg (by omega), show idx + 1 + (i - idx) = i + 1 by omega]
      · rw [if_neg (by omega), hn (i + 1) (by omega)]
        by_cases h3 : i = idx
        · subst h3
          split
          · rfl
          · rw [if_pos rfl]
        · split
          · rfl
          · exact hn i (by omega)
  · refine ⟨by omega, by omega, fun d hd => ?_⟩
    by_cases h : d = 0
    · exact .inr (by simp [h])
    · exact .inl ⟨by omega, by omega⟩

/-- An array of capacity 11 that holds three items meets the hypotheses. -/
example : ∀ i, ((fun i => if i < 3 then some i else none : Slots Nat) i).isSome = true ↔ i < 3 := by
  intro i
  by_cases h : i < 3 <;> simp [h]

/-- **C52** At every moment of every program, every child of every node of every map names that node as its parent and its own
position as its index, and the root names no parent. -/
theorem C52_links [Ord K] [Ord Q] {bor : K → Q} {ops : List (Op K V Q)} {al : Alloc} {os : List (Out K V)} {b : Bool} {p : List HMap} {s : Heap K V}
    (hr : Op.hprog bor ops [] (Heap.start al pl) = .ok ((os, b, p), s)) {m : HMap} (hm : m ∈ p) :
    (∀ n, m.root.node ≠ SHARED → s.cells m.root.node = some n → n.parent = none) ∧
    ∀ h a, NodeOf s m h a → ∃ n, s.cells a = some n ∧ Linked s a n := by
  obtain ⟨_, p', al', _, _, _, hw⟩ := hprog_ok hr
  obtain ⟨i, hi⟩ := List.mem_iff_getElem?.1 hm
  obtain ⟨w₁, w₂, hd, hsw, hpw, _⟩ := hw
  obtain ⟨M, R, h1⟩ := pool_each hpw hi
  have hpart : Part w₁ s := Part.left (w₂ := w₂) (fun x n hx => by rw [← hsw] at hx; exact hx)
  refine ⟨fun n h0 hn => root_parent h1 hpart h0 hn, fun h a hn => ?_⟩
  obtain ⟨n, h2, _, h4⟩ := nodeOf_stored h1 hpart hn
  exact ⟨n, h2, h4⟩

/-- **C52** Going down any edge of any node and up again leads back to that edge. -/
theorem C52_descend_ascend [Ord K] [Ord Q] {bor : K → Q} {ops : List (Op K V Q)} {al : Alloc} {os : List (Out K V)} {b : Bool} {p : List HMap} {s : Heap K V}
    (hr : Op.hprog bor ops [] (Heap.start al pl) = .ok ((os, b, p), s)) {m : HMap} (hm : m ∈ p) {h : Nat} {a : Addr} (hn : NodeOf s m (h + 1) a) {n : Node K V}
    (ha : s.cells a = some n) {i : Nat} (hi : i ≤ n.len) :
    ∃ c, descend ⟨h + 1, a, i⟩ s = .ok (⟨h, c⟩, s) ∧ ascend ⟨h, c⟩ s = .ok (some ⟨h + 1, a, i⟩, s) := by
  obtain ⟨n', h1, h2⟩ := C53_storage hr hm hn
  rw [ha] at h1
  obtain rfl := Option.some.inj h1
  obtain ⟨n', h1, h3⟩ := (C52_links hr hm).2 _ _ hn
  rw [ha] at h1
  obtain rfl := Option.some.inj h1
  have he := (h2.edges i).2 ⟨by omega, hi⟩
  obtain ⟨c, hc⟩ := Option.isSome_iff_exists.1 he
  obtain ⟨nc, k1, k2, k3⟩ := h3 i c hc
  have hsh : s.cells SHARED = none := (hprog_ok hr).1.2.1
  have hcs : c ≠ SHARED := fun e => by rw [e, hsh] at k1; cases k1
  have hlen := h2.len
  have hlay : n.lay = .internal := by rw [h2.lay]; rfl
  have hge : getNode a s = .ok (n, s) := by
    unfold getNode
    have h0 : a ≠ SHARED := fun e => by rw [e, hsh] at ha; cases ha
    rw [if_neg h0, ha]
  have hgc : getNode c s = .ok (nc, s) := by
    unfold getNode
    rw [if_neg hcs, k1]
  refine ⟨c, ?_, ?_⟩
  · unfold descend
    show HM.bind _ _ s = _
    unfold HM.bind HM.req HM.lift require
    simp only [Nat.zero_lt_succ, decide_true, if_true]
    show HM.bind _ _ s = _
    unfold HM.bind
    rw [hge]
    show HM.bind _ _ s = _
    unfold HM.bind
    have : n.peekEdge i = .ok c := by
      unfold Node.peekEdge Slots.peek
      rw [if_pos hlay, if_pos (by show i < 12; omega), hc]
    simp only [this]
    rfl
  · unfold ascend
    rw [if_neg hcs]
    show HM.bind _ _ s = _
    unfold HM.bind
    rw [hgc]
    simp only [k2, k3]
    rfl

/-- **C51** At every moment of a program in which no insertion failed, every allocated node belongs to exactly one of the maps. -/
theorem C51_owned [Ord K] [Ord Q] {bor : K → Q} {ops : List (Op K V Q)} {al : Alloc} {os : List (Out K V)} {p : List HMap} {s : Heap K V}
    (hr : Op.hprog bor ops [] (Heap.start al pl) = .ok ((os, true, p), s)) {a : Addr} {n : Node K V} (ha : s.cells a = some n) :
    ∃ i : Nat, (∃ m h, p[i]? = some m ∧ NodeOf s m h a) ∧ ∀ (j : Nat) m h, p[j]? = some m → NodeOf s m h a → j = i := by
  obtain ⟨_, p', al', _, _, _, hw⟩ := hprog_ok hr
  obtain ⟨w₁, w₂, hd, hsw, hpw, hw₂⟩ := hw
  have hpart : Part w₁ s := Part.left (w₂ := w₂) (fun x n hx => by rw [← hsw] at hx; exact hx)
  have hw3 : sched al' w₂ := by simpa only [leak, sep_emp] using hw₂
  have hx : w₁.cells a = some n := by
    have h1 : s.cells a = (World.union w₁ w₂).cells a := congrFun (congrArg World.cells hsw) a
    rw [ha, show w₂ = _ from hw3] at h1
    simpa [World.union] using h1.symm
  obtain ⟨m, hm, h, hn⟩ := pool_reach hpw hpart hx
  obtain ⟨i, hi⟩ := List.mem_iff_getElem?.1 hm
  exact ⟨i, ⟨m, h, hi, hn⟩, fun j m' h' hj hn' => pool_unique hpw hpart hj hi hn' hn⟩

/-- **C51** Dropping the maps at the end of a program in which no insertion failed returns, hands each entry of each map to its
destructor exactly once, in order, and leaves no node allocated; the entries are those that the answers of the program
determine. -/
theorem C51_drop [Ord K] [Ord Q] {bor : K → Q} {ops : List (Op K V Q)} {al : Alloc} {os : List (Out K V)} {p : List HMap} {s : Heap K V}
    (hr : Op.hprog bor ops [] (Heap.start al pl) = .ok ((os, true, p), s)) :
    ∃ p' al', BTree.Op.runs bor ops [] al = .ok (os, p', al') ∧
      ∃ s', dropAll p s = .ok (p'.map Map.toList, s') ∧ ∀ a, s'.cells a = none := by
  obtain ⟨hg, p', al', h1, h2, _, hw⟩ := hprog_ok hr
  obtain ⟨h3, h4⟩ := h2 rfl
  rw [h3, List.take_length] at h1
  exact ⟨p', al', h1, all_freed (dropAll_spec h4) hg (by simpa only [leak, sep_emp] using hw)⟩

/-- **C51** The same when each map is first made an owning iterator, asked at any sequence of ends and then dropped: each entry is
handed out or dropped, exactly once. -/
theorem C51_into_iter [Ord K] [Ord Q] {bor : K → Q} {ops : List (Op K V Q)} {al : Alloc} {os : List (Out K V)} {p : List HMap} {s : Heap K V}
    (hr : Op.hprog bor ops [] (Heap.start al pl) = .ok ((os, true, p), s)) (ess : List (List End)) :
    ∃ p' al', BTree.Op.runs bor ops [] al = .ok (os, p', al') ∧
      ∃ s', consumeAll p ess s = .ok (popsAll (p'.map Map.toList) ess, s') ∧ ∀ a, s'.cells a = none := by
  obtain ⟨hg, p', al', h1, h2, _, hw⟩ := hprog_ok hr
  obtain ⟨h3, h4⟩ := h2 rfl
  rw [h3, List.take_length] at h1
  exact ⟨p', al', h1, all_freed (consumeAll_spec ess h4) hg (by simpa only [leak, sep_emp] using hw)⟩

theorem specs_not_failed [Ord K] [Ord Q] (bor : K → Q) : ∀ (ops : List (Op K V Q)) (s : List (List (K × V))) (op : Op K V Q),
    (op, .failed) ∈ ops.zip (Op.specs bor ops s).1 → op.inserts = false
  | [], s, op, h => by simp at h
  | op1 :: ops, s, op, h => by
    simp only [Op.specs, List.zip_cons_cons, List.mem_cons, Prod.mk.injEq] at h
    rcases h with ⟨rfl, h⟩ | h
    · cases hi : op.inserts with
      | false => rfl
      | true => exact absurd h.symm (spec_not_failed bor s op hi)
    · exact specs_not_failed bor ops _ op h

theorem runs_take [Ord K] [Ord Q] (bor : K → Q) : ∀ (ops : List (Op K V Q)) (n : Nat) {p p1 p2 : List (Map K V)} {a a1 a2 : Alloc} {os1 os2 : List (Out K V)},
    BTree.Op.runs bor ops p a = .ok (os1, p1, a1) → BTree.Op.runs bor (ops.take n) p a = .ok (os2, p2, a2) → os2 = os1.take n
  | [], n, _, _, _, _, _, _, _, _, h1, h2 => by
    simp only [List.take_nil, BTree.Op.runs, Exec.ok.injEq, Prod.mk.injEq] at h1 h2
    rw [← h1.1, ← h2.1, List.take_nil]
  | _ :: _, 0, _, _, _, _, _, _, _, _, h1, h2 => by
    simp only [List.take_zero, BTree.Op.runs, Exec.ok.injEq, Prod.mk.injEq] at h2
    rw [← h2.1, List.take_zero]
  | op :: ops, n + 1, p, p1, p2, a, a1, a2, os1, os2, h1, h2 => by
    simp only [List.take_succ_cons, BTree.Op.runs] at h1 h2
    obtain ⟨⟨o, p', a'⟩, e1, h1⟩ := Exec.bind_eq_ok.1 h1
    rw [e1, Exec.ok_bind] at h2
    obtain ⟨⟨os3, p3, a3⟩, e3, h1⟩ := Exec.bind_eq_ok.1 h1
    obtain ⟨⟨os4, p4, a4⟩, e4, h2⟩ := Exec.bind_eq_ok.1 h2
    simp only [Exec.ok.injEq, Prod.mk.injEq] at h1 h2
    rw [← h1.1, ← h2.1, List.take_succ_cons, runs_take bor ops n e3 e4]

/-- **C03** (in memory) With a lawful order and an allocator that never refuses, every program run on the memory of nodes ends, every
call answers exactly what it answers on sorted association lists, … -/
theorem C03_memory [Ord K] [Std.TransOrd K] [Ord Q] [Std.TransOrd Q] {bor : K → Q} (hbo : BorrowOK bor) (ops : List (Op K V Q)) {al : Alloc} (hg : al.Good) :
    ∃ p s, Op.hprog bor ops [] (Heap.start al pl) = .ok (((Op.specs bor ops []).1, true, p), s) := by
  rcases runs_agree hbo ops [] (by simp) al with ⟨_, h⟩ | ⟨p', al', h1, h2, h3⟩
  · exact absurd hg h
  · have hc := hprog_cases bor ops al pl
    cases hr : Op.hprog bor ops [] (Heap.start al pl) with
    | ub => rw [hr] at hc; exact hc.elim
    | panic msg => rw [hr] at hc; simp only [List.map_nil] at h1; rw [h1] at hc; cases hc
    | ok r =>
      obtain ⟨⟨os, b, p⟩, s⟩ := r
      obtain ⟨_, p2, al2, g1, g2, g3, _⟩ := hprog_ok hr
      simp only [List.map_nil] at h1
      have ht := runs_take bor ops os.length h1 g1
      cases b with
      | false =>
        obtain ⟨op, hf, hi⟩ := g3 rfl
        have : (op, .failed) ∈ ops.zip (Op.specs bor ops []).1 := by
          rw [ht] at hf
          have hz : ops.zip ((Op.specs bor ops []).1.take os.length) = (ops.take os.length).zip ((Op.specs bor ops []).1.take os.length) := by
            apply List.ext_getElem?
            intro n
            simp only [List.zip, List.getElem?_zipWith, List.getElem?_take]
            by_cases h : n < os.length <;> cases ops[n]? <;> simp [h]
          rw [hz, List.zip, ← List.take_zipWith] at hf
          exact List.mem_of_mem_take hf
        rw [specs_not_failed bor ops [] op this] at hi
        cases hi
      | true =>
        obtain ⟨g4, _⟩ := g2 rfl
        rw [g4, List.take_length] at g1
        rw [h1] at g1
        simp only [Exec.ok.injEq, Prod.mk.injEq] at g1
        rw [g1.1]
        exact ⟨p, s, rfl⟩

/-- **C51** … and the entries handed to destructors when the maps are dropped at the end are exactly those of the lists, with nothing
left allocated. -/
theorem C51_history [Ord K] [Std.TransOrd K] [Ord Q] [Std.TransOrd Q] {bor : K → Q} (hbo : BorrowOK bor) (ops : List (Op K V Q)) {al : Alloc}
    {os : List (Out K V)} {p : List HMap} {s : Heap K V} (hr : Op.hprog bor ops [] (Heap.start al pl) = .ok ((os, true, p), s)) (hf : .failed ∉ os)
    (ess : List (List End)) :
    os = (Op.specs bor ops []).1 ∧
    (∃ s', dropAll p s = .ok ((Op.specs bor ops []).2, s') ∧ ∀ a, s'.cells a = none) ∧
    ∃ s', consumeAll p ess s = .ok (popsAll (Op.specs bor ops []).2 ess, s') ∧ ∀ a, s'.cells a = none := by
  obtain ⟨p', al', h1, h2⟩ := C51_drop hr
  obtain ⟨p2, al2, g1, g2⟩ := C51_into_iter hr ess
  rcases runs_agree hbo ops [] (by simp) al with ⟨h, _⟩ | ⟨p3, a3, e1, e2, e3⟩
  · exact absurd ⟨os, p', al', h1, hf⟩ h
  · rw [h1] at e1 g1
    simp only [Exec.ok.injEq, Prod.mk.injEq, List.map_nil] at e1 g1 e3
    obtain ⟨e4, rfl, rfl⟩ := e1
    obtain ⟨_, rfl, rfl⟩ := g1
    rw [e3] at h2 g2
    exact ⟨e4, h2, g2⟩

/-- The demonstration program again, this time in memory, and its maps consumed from both ends. -/
def demoRun : HM Nat Nat (List (Out Nat Nat) × Bool × List (List (Option (Nat × Nat)) × List (Nat × Nat))) := do
  let r ← Op.hprog id demoProgram []
  let xs ← consumeAll r.2.2 [[], [.front], [.front, .back, .front]]
  pure (r.1, r.2.1, xs)

/-- How many nodes were ever allocated (if no address was used twice), and how many still are. -/
def tally {K V : Type} (s : Heap.Heap K V) : Nat × Nat := (s.next - 1, (List.range s.next).countP fun a => (s.cells a).isSome)

/-- The program ends, with the answers of the lists; it allocated 23 nodes, 6 of which its maps still own. -/
example : (match Op.hprog id demoProgram [] (Heap.Heap.start allOk fresh) with
    | .ok ((os, b, p), s) => os == (Op.specs id demoProgram []).1 && b && p.length == 4 && tally s == (23, 6)
    | _ => false) = true := by decide +kernel

/-- … and after consuming its maps none is allocated. -/
example : (match demoRun (Heap.Heap.start allOk fresh) with
    | .ok ((_, b, xs), s) => b && xs.map (fun x => (x.1.length, x.2.length)) == [(0, 0), (1, 0), (3, 15), (0, 18)] && tally s == (23, 0)
    | _ => false) = true := by decide +kernel

/-- The same if addresses are used again: the nodes lie elsewhere, and fewer addresses are ever in use. -/
example : (match Op.hprog id demoProgram [] (Heap.Heap.start allOk reuse) with
    | .ok ((os, b, p), s) => os == (Op.specs id demoProgram []).1 && b && p.length == 4 && tally s == (17, 6)
    | _ => false) = true := by decide +kernel

/-- A map of 13 entries. -/
def thirteen : List (Op Nat Nat Nat) := .new :: (List.range 13).map fun i => .insert 0 i i

/-- A program reaches a map with an inner node and a second leaf: the hypotheses of C52 and C53 are met. -/
example : ∃ os m s c, Op.hprog id thirteen [] (Heap.Heap.start allOk reuse) = .ok ((os, true, [m]), s) ∧ NodeOf s m 1 m.root.node ∧ NodeOf s m 0 c := by
  have key : (match Op.hprog id thirteen [] (Heap.Heap.start allOk reuse) with
    | .ok ((_, b, [m]), s) => b && m.root.height == 1 && m.root.node != SHARED &&
        (match s.cells m.root.node with
        | some n => n.len == 1 && (n.edges 1).isSome
        | none => false)
    | _ => false) = true := by decide +kernel
  cases hr : Op.hprog id thirteen [] (Heap.Heap.start allOk reuse) with
  | ub => rw [hr] at key; cases key
  | panic _ => rw [hr] at key; cases key
  | ok r =>
    obtain ⟨⟨os, b, p⟩, s⟩ := r
    rw [hr] at key
    match p, key with
    | [m], key =>
      simp only [Bool.and_eq_true, beq_iff_eq, bne_iff_ne] at key
      obtain ⟨⟨⟨rfl, h1⟩, h0⟩, h2⟩ := key
      have hroot : NodeOf s m 1 m.root.node := h1 ▸ NodeOf.root h0
      cases hc : s.cells m.root.node with
      | none => rw [hc] at h2; cases h2
      | some n =>
        rw [hc] at h2
        simp only [Bool.and_eq_true, beq_iff_eq] at h2
        obtain ⟨c, hcc⟩ := Option.isSome_iff_exists.1 h2.2
        exact ⟨os, m, s, c, rfl, hroot, .child (i := 1) hroot hc (by omega) hcc⟩

/-- The same program when the allocator refuses the request number 3 (of `extend`): it panics. -/
example : (match Op.hprog id demoProgram [] (Heap.Heap.start (fun n => n != 3) reuse) with
    | .panic _ => true
    | _ => false) = true := by decide +kernel

/-- A program whose third insertion into a full leaf fails: it stops, with the answer `Err`. -/
example : (match Op.hprog id ((.new : Op Nat Nat Nat) :: (List.range 30).map fun i => .insert 0 i i) [] (Heap.Heap.start (fun n => n != 2) reuse) with
    | .ok ((os, b, _), s) => os.length == 13 && !b && tally s == (2, 2)
    | _ => false) = true := by decide +kernel

end Verif.Props
