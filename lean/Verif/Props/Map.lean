import Verif.BTree.Proofs.SpecLemmas
import Verif.Props.Demo
/-
The properties of `BTreeMap` (C01, C02, C04-C14), about every reachable map.

`Reach m`: `m` was obtained from `new` by API calls none of which was an insertion that returned `Err`.
`m.toListE = .ok l`: iterating over `m` with `iter()` yields exactly the pairs `l`.
-/
namespace Verif.Props
open Verif Verif.BTree Verif.Spec

variable {K V Q : Type}

/-- **C01** `try_insert` returned `Ok(old)`: `old` is what `get` answered before; afterwards every query equal to `k`
finds `v` and every other query answers as before. -/
theorem C01_insert_then_get [Ord K] [Std.TransOrd K] {m m' : Map K V} {k v a old a'} (h : Reach m)
    (hi : m.tryInsert k v a = .ok (.ok old, m', a')) :
    m.get id k = .ok old ∧
    ∀ {Q : Type} [Ord Q] [Std.TransOrd Q] (bor : K → Q), BorrowOK bor → ∀ q : Q,
      (compare q (bor k) = .eq → m'.get bor q = .ok (some v)) ∧
      (compare q (bor k) ≠ .eq → m'.get bor q = m.get bor q) := by
  have hv := h.valid
  obtain ⟨r, m1, a1, h1, h2, _⟩ := Map.tryInsert_ordered hv k v a
  obtain ⟨rfl, rfl, rfl⟩ := by simpa using Exec.ok_unique hi h1
  obtain ⟨g1, g2, g3⟩ := h2
  refine ⟨by rw [Map.get_spec borrowOK_id hv, g3], fun {Q} _ _ bor hbo q => ?_⟩
  rw [Map.get_spec hbo g1, Map.get_spec hbo hv, g2]
  simp only [lookup, find?_insert hbo hv.sorted]
  constructor <;> intro hc <;> simp [hc]

example : ∃ m' a', demo.tryInsert 11 7 allOk = .ok (.ok none, m', a') ∧ m'.get id 11 = .ok (some 7) := ⟨_, _, rfl, rfl⟩
example : ∃ m' a', demo.tryInsert 12 7 allOk = .ok (.ok (some 6), m', a') ∧ m'.get id 12 = .ok (some 7) ∧
    m'.get id 14 = .ok (some 7) := ⟨_, _, rfl, rfl, rfl⟩

/-- **C02** `remove` returns what `get` answered; afterwards that key is absent, every other query is unaffected and
`len` drops by one exactly if something was removed. -/
theorem C02_remove [Ord K] [Std.TransOrd K] [Ord Q] [Std.TransOrd Q] {bor : K → Q} (hbo : BorrowOK bor) {m : Map K V}
    (h : Reach m) (q : Q) :
    ∃ r m', m.remove bor q = .ok (r, m') ∧ m.get bor q = .ok r ∧ m'.get bor q = .ok none ∧
      (∀ q' : Q, compare q' q ≠ .eq → m'.get bor q' = m.get bor q') ∧
      m.len = m'.len + (if r.isSome then 1 else 0) := by
  have hv := h.valid
  obtain ⟨m', h1, h2, h3⟩ := Map.removeEntry_ordered hbo hv q
  refine ⟨_, m', by simp [Map.remove, h1]; rfl, Map.get_spec hbo hv q, ?_, ?_, ?_⟩
  · rw [Map.get_spec hbo h2, h3, lookup, find?_erase]
    simp [Std.ReflCmp.compare_self]
  · intro q' hc
    rw [Map.get_spec hbo h2, Map.get_spec hbo hv, h3, lookup, find?_erase]
    simp [hc, lookup]
  · have := length_erase hbo hv.sorted q
    simp only [Map.len, hv.len, h2.len, h3, Nat.add_zero, this]
    simp [lookup]

example : ∃ m', demo.remove id 30 = .ok (some 15, m') ∧ m'.get id 30 = .ok none ∧ m'.len = 39 := ⟨_, rfl, rfl, rfl⟩

/-- **C04** Iteration yields every entry exactly once in strictly increasing key order, exactly `len()` items; an entry is
yielded iff it is the one lookup finds under its key.  `keys()`/`values()` yield the keys/values of the same sequence. -/
theorem C04_iteration [Ord K] [Std.TransOrd K] {m : Map K V} (h : Reach m) :
    ∃ l, m.toListE = .ok l ∧ Sorted l ∧ l.length = m.len ∧
      (∀ kv, kv ∈ l ↔ m.getKeyValue id kv.1 = .ok (some kv)) ∧
      ∃ it, m.iter = .ok it ∧ ∀ n,
        -- any number of calls of `next`: the items, then `None` for ever
        (∃ it', Iter.run m (List.replicate n .front) it =
          .ok ((l.take n).map some ++ List.replicate (n - l.length) none, it')) ∧
        (∃ it', Iter.runMap (·.1) m (List.replicate n .front) it =
          .ok ((l.take n).map (some ·.1) ++ List.replicate (n - l.length) none, it')) ∧
        (∃ it', Iter.runMap (·.2) m (List.replicate n .front) it =
          .ok ((l.take n).map (some ·.2) ++ List.replicate (n - l.length) none, it')) := by
  have hv := h.valid
  have hl : m.length = m.toList.length := by simpa using hv.len
  obtain ⟨it, h1, h2, h3⟩ := Map.iter_spec hv.toShaped
  refine ⟨m.toList, Map.toListE_spec hv.toShaped, hv.sorted, hl.symm, fun kv => ?_, it, h1, fun n => ?_⟩
  · rw [find?_self hv.sorted, Map.getKeyValue_spec borrowOK_id hv]; simp
  · have hp : ∀ (n : Nat) (l : List (K × V)), (pops (List.replicate n .front) l).1 =
        (l.take n).map some ++ List.replicate (n - l.length) none := by
      intro n
      induction n with
      | zero => simp [pops]
      | succ n ih =>
        intro l
        cases l with
        | nil => simp [List.replicate_succ, pops, pop, ih]
        | cons x l => simp [List.replicate_succ, pops, pop, ih]
    obtain ⟨it', g1, g2⟩ := Iter.run_spec hv.below (List.replicate n .front) h3 (by omega)
    rw [hp] at g1
    refine ⟨⟨it', g1⟩, ⟨it', ?_⟩, ⟨it', ?_⟩⟩
    · rw [Iter.runMap_eq _ _ _ g1]; simp [Function.comp_def]
    · rw [Iter.runMap_eq _ _ _ g1]; simp [Function.comp_def]

example : Reach demo ∧ demo.toListE = .ok demoList ∧ demo.len = 40 := ⟨demo_reach, demo_items, rfl⟩

/-- **C05** Any interleaving of `next` and `next_back`: what came from the front, what is left and the reverse of what came
from the back make up the sorted entries, without overlap; `size_hint` is exact at every moment; `None` means nothing is
left. -/
theorem C05_double_ended [Ord K] [Std.TransOrd K] {m : Map K V} {l} (h : Reach m) (hl : m.toListE = .ok l) :
    ∃ it, m.iter = .ok it ∧ ∀ es : List End, ∃ outs it' rest, Iter.run m es it = .ok (outs, it') ∧
      l = took .front es outs ++ rest ++ (took .back es outs).reverse ∧ outs.length = es.length ∧
      it'.sizeHint = (rest.length, some rest.length) ∧ (none ∈ outs → rest = []) := by
  have hv := h.valid
  obtain rfl := Exec.ok_unique hl (Map.toListE_spec hv.toShaped)
  obtain ⟨it, h1, h2, h3⟩ := Map.iter_spec hv.toShaped
  refine ⟨it, h1, fun es => ?_⟩
  obtain ⟨it', g1, g2⟩ := Iter.run_spec hv.below es h3 (by have := hv.len; omega)
  obtain ⟨p1, p2, p3⟩ := pops_split es m.toList
  exact ⟨_, it', _, g1, p1, p2, by simp [Iter.sizeHint, g2], p3⟩

example : ∃ it it', demo.iter = .ok it ∧ Iter.run demo [.front, .back, .back, .front] it =
    .ok ([some (0, 0), some (78, 39), some (76, 38), some (2, 1)], it') ∧ it'.sizeHint = (36, some 36) :=
  ⟨_, _, rfl, rfl, rfl⟩

/-- **C06** `len()` is the number of entries iteration produces, `is_empty()` iff there are none. -/
theorem C06_len_exact [Ord K] [Std.TransOrd K] {m : Map K V} (h : Reach m) :
    ∃ l, m.toListE = .ok l ∧ m.len = l.length ∧ (m.isEmpty = true ↔ l = []) := by
  have hv := h.valid
  have hl : m.length = m.toList.length := by simpa using hv.len
  refine ⟨m.toList, Map.toListE_spec hv.toShaped, hl, ?_⟩
  simp [Map.isEmpty, Map.len, hl]

example : Reach demo ∧ demo.len = 40 ∧ demo.isEmpty = false ∧ (Map.new : Map Nat Nat).isEmpty = true :=
  ⟨demo_reach, rfl, rfl, rfl⟩

/-- **C07** `range` with any bounds it accepts yields exactly the entries within the bounds, for any interleaving of `next`
and `next_back`. -/
theorem C07_range_exact [Ord K] [Std.TransOrd K] [Ord Q] [Std.TransOrd Q] {bor : K → Q} (hbo : BorrowOK bor) {m : Map K V}
    {l} (h : Reach m) (hl : m.toListE = .ok l) (s e : Bound Q) (hb : badRange s e = false) :
    ∃ r, m.range bor s e = .ok r ∧ ∀ es : List End, ∃ outs r' rest, Range.run m es r = .ok (outs, r') ∧
      within bor s e l = took .front es outs ++ rest ++ (took .back es outs).reverse ∧
      outs.length = es.length ∧ (none ∈ outs → rest = []) := by
  have hv := h.valid
  obtain rfl := Exec.ok_unique hl (Map.toListE_spec hv.toShaped)
  rcases Map.range_ordered hbo hv s e with ⟨h1, _⟩ | ⟨_, r, pre, post, h1, w⟩
  · simp [hb] at h1
  · refine ⟨r, h1, fun es => ?_⟩
    obtain ⟨r', g1⟩ := Range.run_spec hv.below es w
    obtain ⟨p1, p2, p3⟩ := pops_split es (within bor s e m.toList)
    exact ⟨_, r', _, g1, p1, p2, p3⟩

example : ∃ r r', demo.range id (.excluded 20) (.included 25) = .ok r ∧
    Range.run demo [.front, .back, .front] r = .ok ([some (22, 11), some (24, 12), none], r') := ⟨_, _, rfl, rfl⟩
example : badRange (.excluded 20) (.included 25) = false ∧
    within id (.excluded 20) (.included 25) demoList = [(22, 11), (24, 12)] := by decide

/-- **C08** `range` panics exactly when start > end, or start = end and both are excluded; never with "Ord is ill-defined",
and never with undefined behaviour. -/
theorem C08_range_panics [Ord K] [Std.TransOrd K] [Ord Q] [Std.TransOrd Q] {bor : K → Q} (hbo : BorrowOK bor) {m : Map K V}
    (h : Reach m) (s e : Bound Q) :
    ((∃ msg, m.range bor s e = .panic msg) ↔ badRange s e = true) ∧ m.range bor s e ≠ .ub ∧
    m.range bor s e ≠ .panic "Ord is ill-defined in BTreeMap range" := by
  have hv := h.valid
  rcases Map.range_ordered hbo hv s e with ⟨h1, msg, h2⟩ | ⟨h1, r, pre, post, h2, w⟩
  · refine ⟨⟨fun _ => h1, fun _ => ⟨msg, h2⟩⟩, by simp [h2], ?_⟩
    rcases rangeCheck_spec s e with ⟨_, msg', hc⟩ | ⟨hbad, _⟩
    · have hne := rangeCheck_msg s e hc
      have : m.range bor s e = .panic msg' := by simp [Map.range, hc]
      rw [this]; simpa using hne
    · simp [h1] at hbad
  · simp [h1, h2]

/-- The bounds in words: `badRange` is start above end, or start equal to end with both excluded. -/
theorem badRange_iff [Ord Q] (s e : Q) :
    (badRange (.included s) (.included e) = true ↔ compare s e = .gt) ∧
    (badRange (.included s) (.excluded e) = true ↔ compare s e = .gt) ∧
    (badRange (.excluded s) (.included e) = true ↔ compare s e = .gt) ∧
    (badRange (.excluded s) (.excluded e) = true ↔ compare s e = .gt ∨ compare s e = .eq) ∧
    (∀ b : Bound Q, badRange .unbounded b = false ∧ badRange b .unbounded = false) := by
  refine ⟨by simp [badRange], by simp [badRange], by simp [badRange], ?_, fun b => by cases b <;> simp [badRange]⟩
  cases h : compare s e <;> simp [badRange, h]

example : ∃ msg, demo.range id (.excluded 4) (.excluded 4) = .panic msg := ⟨_, rfl⟩
example : ∃ r, demo.range id (.included 4) (.excluded 4) = .ok r := ⟨_, rfl⟩

/-- **C09** `split_off(q)` returned `Ok(right)`: `self` keeps exactly the entries below `q`, `right` has exactly those at or
above it, both with exact `len()`, and both are again reachable maps. -/
theorem C09_split_off [Ord K] [Std.TransOrd K] [Ord Q] [Std.TransOrd Q] {bor : K → Q} (hbo : BorrowOK bor)
    {m m' right : Map K V} {l q a a'} (h : Reach m) (hl : m.toListE = .ok l)
    (hs : m.splitOff bor q a = .ok (.ok right, m', a')) :
    m'.toListE = .ok (below bor q l) ∧ right.toListE = .ok (atLeast bor q l) ∧
    m'.len = (below bor q l).length ∧ right.len = (atLeast bor q l).length ∧ Reach m' ∧ Reach right := by
  have hv := h.valid
  obtain rfl := Exec.ok_unique hl (Map.toListE_spec hv.toShaped)
  have r1 := Reach.splitSelf hbo h hs
  have r2 := Reach.splitRight hbo h hs
  obtain ⟨r, m1, a1, h1, h2, _⟩ := Map.splitOff_ordered hbo hv q a
  obtain ⟨rfl, rfl, rfl⟩ := by simpa using Exec.ok_unique hs h1
  obtain ⟨_, g1, g2⟩ := h2
  have hm := r1.valid.len
  have hr := r2.valid.len
  refine ⟨by rw [← g1]; exact Map.toListE_spec r1.valid.toShaped, by rw [← g2]; exact Map.toListE_spec r2.valid.toShaped,
    ?_, ?_, r1, r2⟩
  · rw [← g1]; simpa [Map.len] using hm
  · rw [← g2]; simpa [Map.len] using hr

example : ∃ right m' a', demo.splitOff id 31 allOk = .ok (.ok right, m', a') ∧ m'.len = 16 ∧ right.len = 24 :=
  ⟨_, _, _, rfl, rfl, rfl⟩

/-- **C10** `split_off` returned `Err`: `self` is exactly what it was. -/
theorem C10_split_off_atomic [Ord K] [Std.TransOrd K] [Ord Q] [Std.TransOrd Q] {bor : K → Q} (hbo : BorrowOK bor)
    {m m' : Map K V} {q a e a'} (h : Reach m) (hs : m.splitOff bor q a = .ok (.error e, m', a')) :
    m'.toListE = m.toListE ∧ m'.len = m.len ∧ m' = m := by
  obtain ⟨r, m1, a1, h1, h2, _⟩ := Map.splitOff_ordered hbo h.valid q a
  obtain ⟨rfl, rfl, rfl⟩ := by simpa using Exec.ok_unique hs h1
  have : m' = m := h2
  subst this; exact ⟨rfl, rfl, rfl⟩

example : ∃ m' a', demo.splitOff id 31 noMem = .ok (.error .allocError, m', a') := ⟨_, _, rfl⟩
/-- the second allocation fails -/
example : ∃ m' a', demo.splitOff id 31 (fun n => n == 0) = .ok (.error .allocError, m', a') := ⟨_, _, rfl⟩

/-- **C11** `append` returned: `self` holds, in order, every entry of `other` and every entry of `self` whose key is not in
`other` (so on equal keys key and value come from `other`); `other` is empty; lengths exact; both reachable. -/
theorem C11_append [Ord K] [Std.TransOrd K] {m o m' o' : Map K V} {l r a a'} (hm : Reach m) (ho : Reach o)
    (hl : m.toListE = .ok l) (hr : o.toListE = .ok r) (ha : m.append o a = .ok (m', o', a')) :
    (∃ out, m'.toListE = .ok out ∧ m'.len = out.length ∧ Sorted out ∧
      ∀ kv, kv ∈ out ↔ kv ∈ r ∨ (kv ∈ l ∧ ∀ kv' ∈ r, compare kv.1 kv'.1 ≠ .eq)) ∧
    o'.toListE = .ok [] ∧ o'.len = 0 ∧ Reach m' ∧ Reach o' := by
  obtain rfl := Exec.ok_unique hl (Map.toListE_spec hm.valid.toShaped)
  obtain rfl := Exec.ok_unique hr (Map.toListE_spec ho.valid.toShaped)
  have r1 := Reach.appendSelf hm ho ha
  have r2 := Reach.appendOther hm ho ha
  rcases Map.append_ordered hm.valid ho.valid a with ⟨⟨msg, h1⟩, _⟩ | ⟨m1, o1, a1, h1, h2, h3, h4, _, h5⟩
  · rw [ha] at h1; simp at h1
  · obtain ⟨rfl, rfl, rfl⟩ := by simpa using Exec.ok_unique ha h1
    have e1 := r1.valid.len
    have e2 := r2.valid.len
    refine ⟨⟨m'.toList, Map.toListE_spec r1.valid.toShaped, by simpa [Map.len] using e1, h5.1, h5.2⟩, ?_, ?_, r1, r2⟩
    · rw [← h4]; exact Map.toListE_spec r2.valid.toShaped
    · rw [h4] at e2; simpa [Map.len] using e2

/-- A second concrete map, overlapping the first. -/
def demo2List : List (Nat × Nat) := (List.range 30).map fun i => (3 * i, 100 + i)
def demo2 : Map Nat Nat :=
  match Map.fromIter demo2List allOk with
  | .ok (m, _) => m
  | _ => Map.new

set_option maxRecDepth 10000 in
theorem demo2_built : (Map.new : Map Nat Nat).extend demo2List allOk = .ok (demo2, allOk) := by rfl
theorem demo2_reach : Reach demo2 := .extend .new demo2_built

theorem allOk_good : allOk.Good := fun _ => rfl

/-- With memory available `append` does return, for any two reachable maps. -/
theorem C11_append_returns [Ord K] [Std.TransOrd K] {m o : Map K V} {a : Alloc} (hm : Reach m) (ho : Reach o) (hg : a.Good) :
    ∃ m' o' a', m.append o a = .ok (m', o', a') := by
  rcases Map.append_ordered hm.valid ho.valid a with ⟨_, h2⟩ | ⟨m1, o1, a1, h1, _⟩
  · exact absurd hg h2
  · exact ⟨m1, o1, a1, h1⟩

example : ∃ m' o' a', demo.append demo2 allOk = .ok (m', o', a') := C11_append_returns demo_reach demo2_reach allOk_good

/-- **C12** `append` has no error result: with memory available it always returns, and if it does not return it panics
("Out of Mem"), it never faults. -/
theorem C12_append_panics_only [Ord K] [Std.TransOrd K] {m o : Map K V} (hm : Reach m) (ho : Reach o) (a : Alloc) :
    (∃ m' o' a', m.append o a = .ok (m', o', a')) ∨ ((∃ msg, m.append o a = .panic msg) ∧ ∃ n, a n = false) := by
  rcases Map.append_ordered hm.valid ho.valid a with ⟨h1, h2⟩ | ⟨m1, o1, a1, h1, _⟩
  · refine .inr ⟨h1, Classical.byContradiction fun hn => h2 fun n => ?_⟩
    cases hc : a n with
    | true => rfl
    | false => exact absurd ⟨n, hc⟩ hn
  · exact .inl ⟨m1, o1, a1, h1⟩

/-- **C12** … and it does panic on two perfectly valid maps when memory runs out. -/
theorem C12_append_can_panic : ∃ (m o : Map Nat Nat) (a : Alloc) (msg : String),
    Reach m ∧ Reach o ∧ m.append o a = .panic msg := by
  have key : ∃ m : Map Nat Nat, ∃ a', (Map.new : Map Nat Nat).tryInsert 1 1 allOk = .ok (.ok none, m, a') ∧
      ∃ msg, m.append m noMem = .panic msg := by
    refine ⟨_, _, rfl, "Out Of Mem", ?_⟩
    simp [Map.append, Map.len, Map.toListE, Map.iter, firstLeafEdge, lastLeafEdge, firstLeafPath, lastLeafPath, Iter.collect,
      Iter.next, Iter.nextH, nextUnchecked, nodeAt, emptyLeaf, Tree.len, Map.readOpt, Map.kvAt, BTree.kvAt, getE, Map.ofSorted,
      Map.ensureRootIsOwned, Alloc.request, noMem, Map.new]
  obtain ⟨m, a', h1, msg, h2⟩ := key
  exact ⟨m, m, noMem, msg, .insert .new h1, .insert .new h1, h2⟩

/-- **C13** `try_clone` returned `Ok(c)`: the entries of `c` are, in order, clones of the entries, with exact length; with
faithful element clones they are the same entries.  (`self` is only read: `try_clone` returns no new `self`.) -/
theorem C13_try_clone [Ord K] [Std.TransOrd K] {m c : Map K V} {l ck cv a a'} (h : Reach m) (hl : m.toListE = .ok l)
    (hc : m.tryClone ck cv a = .ok (.ok c, a')) :
    (∃ l', c.toListE = .ok l' ∧ c.len = l'.length ∧
      All2 (fun x y => (∃ a a', ck x.1 a = (.ok y.1, a')) ∧ (∃ a a', cv x.2 a = (.ok y.2, a'))) l l') ∧
    ((∀ k a k' a', ck k a = (.ok k', a') → k' = k) → (∀ v a v' a', cv v a = (.ok v', a') → v' = v) →
      c.toListE = .ok l ∧ c.len = m.len ∧ Reach c) := by
  have hv := h.valid
  obtain rfl := Exec.ok_unique hl (Map.toListE_spec hv.toShaped)
  obtain ⟨r, a1, h1, h2, _⟩ := Map.tryClone_wf ck cv hv.toShaped a
  obtain ⟨rfl, rfl⟩ := by simpa using Exec.ok_unique hc h1
  obtain ⟨g1, g2⟩ := h2 _ rfl
  have hlen := g1.len
  refine ⟨⟨c.toList, Map.toListE_spec g1, by simpa [Map.len] using hlen, g2⟩, fun hk hv' => ?_⟩
  have heq : m.toList = c.toList := (g2.mono (fun x y hxy => by
    obtain ⟨⟨a, a', e1⟩, b, b', e2⟩ := hxy
    exact Prod.ext (hk _ _ _ _ e1).symm (hv' _ _ _ _ e2).symm)).eq
  refine ⟨by rw [heq]; exact Map.toListE_spec g1, ?_, ?_⟩
  · have := hv.len
    simp only [Map.len, this, hlen, heq]
  · refine Reach.clone (fun k a k' a' e => ?_) h hc
    rw [hk _ _ _ _ e]; exact Std.ReflCmp.compare_self

/-- … and it always returns one way or the other: if memory suffices and each entry of the map can be cloned, it succeeds, and if
some key or value of the map cannot be cloned, it returns `Err`. -/
theorem C13_try_clone_returns [Ord K] [Std.TransOrd K] {m : Map K V} {l} (ck : Cloner K) (cv : Cloner V) (h : Reach m) (hl : m.toListE = .ok l) (a : Alloc) :
    ∃ r a', m.tryClone ck cv a = .ok (r, a') ∧
      (a.Good → (∀ k (a : Alloc), a.Good → (ck k a).2.Good) → (∀ v (a : Alloc), a.Good → (cv v a).2.Good) →
        (∀ kv ∈ l, ∀ a : Alloc, a.Good → (∃ k' a', ck kv.1 a = (.ok k', a')) ∧ ∃ v' a', cv kv.2 a = (.ok v', a')) → ∃ c, r = .ok c) ∧
      (∀ kv ∈ l, (∀ a k' a', ck kv.1 a ≠ (.ok k', a')) ∨ (∀ a v' a', cv kv.2 a ≠ (.ok v', a')) → ∃ e, r = .error e) := by
  have hv := h.valid
  obtain rfl := Exec.ok_unique hl (Map.toListE_spec hv.toShaped)
  obtain ⟨r, a1, h1, h2, h3⟩ := Map.tryClone_wf ck cv hv.toShaped a
  refine ⟨r, a1, h1, fun hg hk hv hc => (h3 hg hk hv).2 fun kv hkv => ⟨fun a hg => (hc kv hkv a hg).1, fun a hg => (hc kv hkv a hg).2⟩, fun kv hkv hn => ?_⟩
  cases r with
  | error e => exact ⟨e, rfl⟩
  | ok c =>
    obtain ⟨y, hy, ⟨b, b', e1⟩, c, c', e2⟩ := (h2 c rfl).2.mem_left hkv
    rcases hn with hn | hn
    · exact absurd e1 (hn _ _ _)
    · exact absurd e2 (hn _ _ _)

example : ∃ a', demo.tryClone (fun k a => (if k = 30 then .error .allocError else .ok k, a)) (fun v a => (.ok v, a)) allOk =
    .ok (.error .allocError, a') := ⟨_, rfl⟩
example : ∃ c a', demo.tryClone (fun k a => (.ok k, a)) (fun v a => (.ok v, a)) allOk = .ok (.ok c, a') ∧ c.len = 40 :=
  ⟨_, _, rfl, rfl⟩
example : ∃ a', demo.tryClone (fun k a => (.ok k, a)) (fun v a => (.ok v, a)) (fun n => n < 2) =
    .ok (.error .allocError, a') := ⟨_, rfl⟩

/-- **C14** Re-inserting an equal key keeps the stored key object and changes only the value. -/
theorem C14_insert_keeps_key [Ord K] [Std.TransOrd K] {m m' : Map K V} {k k₀ v v₀ a r a'} (h : Reach m)
    (hk : m.getKeyValue id k = .ok (some (k₀, v₀))) (hi : m.tryInsert k v a = .ok (r, m', a')) :
    r = .ok (some v₀) ∧ m'.getKeyValue id k = .ok (some (k₀, v)) ∧ m'.len = m.len := by
  have hv := h.valid
  rw [Map.getKeyValue_spec borrowOK_id hv] at hk
  have hk := Exec.ok.inj hk
  obtain ⟨r', m1, a1, h1, h2, _⟩ := Map.tryInsert_ordered hv k v a
  obtain ⟨rfl, rfl, rfl⟩ := by simpa using Exec.ok_unique hi h1
  cases r with
  | error e => simp [lookup, hk] at h2
  | ok old =>
    obtain ⟨g1, g2, g3⟩ := h2
    refine ⟨by simp [g3, lookup, hk], ?_, ?_⟩
    · rw [Map.getKeyValue_spec borrowOK_id g1, g2, find?_insert borrowOK_id hv.sorted, hk]
      simp [Std.ReflCmp.compare_self]
    · have e1 := hv.len
      have e2 := g1.len
      rw [g2, length_insert hv.sorted, hk] at e2
      simp only [Map.len, e1, e2]; simp

example : demo.getKeyValue id 12 = .ok (some (12, 6)) ∧
    ∃ m' a', demo.tryInsert 12 99 noMem = .ok (.ok (some 6), m', a') := ⟨rfl, _, _, rfl⟩

end Verif.Props
