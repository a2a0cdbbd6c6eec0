import Verif.BTree.Proofs.Unwind
import Verif.Props.Oom
/-
What is left when a call unwinds: the key comparison panics, or `append`/`extend` panic for want of memory, and the program catches the panic
and goes on using the map (C61, C62).
-/
namespace Verif.Props
open Verif Verif.BTree Verif.Spec

variable {K V Q : Type}

/-! ### insert, entry, remove: all or nothing -/

/-- **C61** `try_insert`/`insert`, with the comparison panicking after any number of answers, on any map: if the call unwinds then the map
holds exactly what it held before (length and iteration), and it is a map the program could have obtained without the panic, so all the
theorems about `Reach` apply to it; if it returns, it did what the undisturbed call does. -/
theorem C61_insert [Ord K] [Std.TransOrd K] {m : Map K V} {l} (h : Reach m) (hl : m.toListE = .ok l) (k : K) (v : V) (a : Alloc) (fuel : Nat) :
    (∃ m', m.tryInsertP k v a fuel = .ok (.unwound m' .cmp) ∧ Reach m' ∧ m'.toListE = .ok l ∧ m'.len = m.len) ∨
    (∃ r f, m.tryInsertP k v a fuel = .ok (.done (r, f)) ∧ m.tryInsert k v a = .ok r) := by
  have hv := h.valid.toShaped
  rcases Map.tryInsertP_cases hv k v a fuel with ⟨m', h1⟩ | ⟨r, f, h1⟩
  · obtain ⟨_, h2, h3, e, a', h4⟩ := Map.tryEntryP_unwound hv (Map.tryInsertP_unwound h1)
    refine .inl ⟨m', h1, .entry h h4, ?_, ?_⟩
    · rw [Map.toListE_spec h2, h3, ← Map.toListE_spec hv, hl]
    · have e1 := h2.len; have e2 := hv.len
      simp only [Map.len, e1, e2, h3]
  · exact .inr ⟨r, f, h1, Map.tryInsertP_done h1⟩

/-- **C61** the same for obtaining an entry. -/
theorem C61_entry [Ord K] [Std.TransOrd K] {m : Map K V} {l} (h : Reach m) (hl : m.toListE = .ok l) (k : K) (a : Alloc) (fuel : Nat) :
    (∃ m', m.tryEntryP k a fuel = .ok (.unwound m' .cmp) ∧ Reach m' ∧ m'.toListE = .ok l ∧ m'.len = m.len) ∨
    (∃ r f, m.tryEntryP k a fuel = .ok (.done (r, f)) ∧ m.tryEntry k a = .ok r) := by
  have hv := h.valid.toShaped
  obtain ⟨o, h1⟩ := Map.tryEntryP_safe hv k a fuel
  rcases o with ⟨r, f⟩ | ⟨m', w⟩
  · exact .inr ⟨r, f, h1, Map.tryEntryP_done h1⟩
  · obtain ⟨rfl, h2, h3, e, a', h4⟩ := Map.tryEntryP_unwound hv h1
    refine .inl ⟨m', h1, .entry h h4, ?_, ?_⟩
    · rw [Map.toListE_spec h2, h3, ← Map.toListE_spec hv, hl]
    · have e1 := h2.len; have e2 := hv.len
      simp only [Map.len, e1, e2, h3]

/-- **C61** `remove`: if the comparison panics the map is untouched; if the call returns, it did what the undisturbed call does. -/
theorem C61_remove [Ord K] [Std.TransOrd K] [Ord Q] {bor : K → Q} {m : Map K V} (h : Reach m) (q : Q) (fuel : Nat) :
    m.removeEntryP bor q fuel = .ok (.unwound m .cmp) ∨
    (∃ r f, m.removeEntryP bor q fuel = .ok (.done (r, f)) ∧ m.removeEntry bor q = .ok r) := by
  rcases Map.removeEntryP_cases h.valid.toShaped bor q fuel with h1 | ⟨r, f, h1⟩
  · exact .inl h1
  · exact .inr ⟨r, f, h1, Map.removeEntryP_done h1⟩

/-- **C61** the panicking comparison is the only thing that makes these calls unwind: with enough answers they return. -/
theorem C61_enough [Ord K] [Std.TransOrd K] {m : Map K V} (h : Reach m) (k : K) (v : V) (a : Alloc) :
    ∃ n, ∀ fuel, n ≤ fuel → (∃ r f, m.tryInsertP k v a fuel = .ok (.done (r, f))) ∧ (∃ r f, m.removeEntryP id k fuel = .ok (.done (r, f))) := by
  have hv := h.valid.toShaped
  refine ⟨11 * (m.height + 1), fun fuel hf => ⟨?_, ?_⟩⟩
  · rcases Map.tryInsertP_cases hv k v a fuel with ⟨m', h1⟩ | h1
    · obtain ⟨r, f, h2⟩ := Map.tryEntryP_total hv k a fuel hf
      rw [Map.tryInsertP_unwound h1] at h2
      simp at h2
    · exact h1
  · have : ∃ sr, m.search id k = .ok sr := by
      rcases Map.search_wf hv id k with ⟨hd, A, kv, B, k1, _⟩ | ⟨hd, A, B, k1, _⟩ <;> exact ⟨_, k1⟩
    obtain ⟨sr, hs⟩ := this
    obtain ⟨f, h2⟩ := searchTreeP_total (bor := id) (q := k) fuel hv.shape.2.2 hv.shape.1 hf hs
    rcases Map.removeEntryP_cases hv id k fuel with h1 | h1
    · unfold Map.removeEntryP Map.searchP at h1
      simp only [h2, Exec.ok_bind] at h1
      cases sr with
      | goDown => simp at h1
      | found hd =>
        obtain ⟨⟨kv, m1⟩, _, h1⟩ := Exec.bind_eq_ok.1 h1
        simp at h1
    · exact h1

/-- With an order that keeps no law at all: the calls still never run into undefined behaviour, whenever the comparison panics, and what they
leave is a map the program could have obtained without the panic. -/
theorem C61_lawless [Ord K] [Ord Q] {bor : K → Q} {m : Map K V} (h : ReachAny m) (k : K) (v : V) (q : Q) (a : Alloc) (fuel : Nat) :
    (∀ m' w, m.tryInsertP k v a fuel = .ok (.unwound m' w) → ReachAny m') ∧ m.tryInsertP k v a fuel ≠ .ub ∧
    (∀ m' w, m.removeEntryP bor q fuel = .ok (.unwound m' w) → ReachAny m') ∧ m.removeEntryP bor q fuel ≠ .ub := by
  have hv := h.wf
  refine ⟨fun m' w h1 => ?_, ?_, fun m' w h1 => ?_, ?_⟩
  · obtain ⟨_, _, _, e, a', h4⟩ := Map.tryEntryP_unwound hv (Map.tryInsertP_unwound h1)
    exact .entry h h4
  · rcases Map.tryInsertP_cases hv k v a fuel with ⟨m', h1⟩ | ⟨r, f, h1⟩ <;> simp [h1]
  · rw [(Map.removeEntryP_unwound h1).2]; exact h
  · rcases Map.removeEntryP_cases hv bor q fuel with h1 | ⟨r, f, h1⟩ <;> simp [h1]

/-! ### extend: a first part of the pairs is in -/

/-- **C61** `extend`, when it unwinds (a comparison panicked, or memory was refused): the pairs before some point of the list are in, those after
it are not.  If a comparison panicked the map is exactly the one after inserting that first part.  If memory was refused it is what a failed
`try_insert` leaves (C15, C16), which is not necessarily a map that can be iterated over. -/
theorem C61_extend [Ord K] [Std.TransOrd K] {m m' : Map K V} {l0 l a fuel w} (h : Reach m) (hl : m.toListE = .ok l0)
    (hu : m.extendP l a fuel = .ok (.unwound m' w)) :
    ∃ l1 k v l2, l = l1 ++ (k, v) :: l2 ∧
      (w = .cmp → Reach m' ∧ m'.toListE = .ok (l1.foldl (fun acc kv => Spec.insert kv.1 kv.2 acc) l0)) ∧
      (w = .mem → ∃ n, a n = false) ∧
      (w = .mem → ReachOom m' ∧ ∃ m1 a1 e a', m.extend l1 a = .ok (m1, a1) ∧ m1.tryInsert k v a1 = .ok (.error e, m', a')) := by
  obtain ⟨l1, k, v, l2, m1, a1, fuel1, rfl, h1, h2⟩ := Map.extendP_unwound hu
  have hv := h.valid
  obtain rfl := Exec.ok_unique hl (Map.toListE_spec hv.toShaped)
  have hr1 : Reach m1 := .extend h h1
  have hm1 : m1.toList = l1.foldl (fun acc kv => Spec.insert kv.1 kv.2 acc) m.toList ∧ (a.Good → a1.Good) := by
    rcases Map.extend_spec l1 hv a with ⟨⟨_, h3⟩, _⟩ | ⟨m2, a2, h3, _, h5, h4⟩
    · rw [h1] at h3; simp at h3
    · obtain ⟨rfl, rfl⟩ := by simpa using Exec.ok_unique h1 h3
      exact ⟨h4, h5⟩
  refine ⟨l1, k, v, l2, rfl, ?_⟩
  rcases h2 with h2 | ⟨rfl, e, a', h2⟩
  · obtain ⟨rfl, g2, g3, e, a', g4⟩ := Map.tryEntryP_unwound hr1.valid.toShaped (Map.tryInsertP_unwound h2)
    refine ⟨fun _ => ⟨.entry hr1 g4, ?_⟩, by simp, by simp⟩
    rw [Map.toListE_spec g2, g3, hm1.1]
  · refine ⟨by simp, fun _ => ?_, fun _ => ⟨.insert hr1.oom h2, m1, a1, e, a', h1, h2⟩⟩
    refine Classical.byContradiction fun hn => ?_
    have hg : a.Good := fun n => by
      cases hc : a n with
      | true => rfl
      | false => exact absurd ⟨n, hc⟩ hn
    obtain ⟨r, m2, a2, g1, _, g3⟩ := Map.tryInsert_ordered hr1.valid k v a1
    obtain ⟨rfl, rfl, rfl⟩ := by simpa using Exec.ok_unique h2 g1
    obtain ⟨o, ho⟩ := (g3 (hm1.2 hg)).2
    simp at ho

/-! ### append: a first part of the merged pairs is in -/

/-- Maps a program has in its hands after an `append` that unwound, and after whatever it goes on to do with them except removing (see C62):
insertions, entries, writes through references. -/
inductive ReachCut [Ord K] : Map K V → Prop
  | append {m o m' o' a fuel w} : Reach m → Reach o → m.appendP o a fuel = .ok (.unwound (m', o') w) → ReachCut m'
  | insert {m m' k v a old a'} : ReachCut m → m.tryInsert k v a = .ok (.ok old, m', a') → ReachCut m'
  | entry {m m' k a r a'} : ReachCut m → m.tryEntry k a = .ok (r, m', a') → ReachCut m'
  | extend {m m' l a a'} : ReachCut m → m.extend l a = .ok (m', a') → ReachCut m'
  /-- a further `append` that unwound -/
  | again {m o m' o' a fuel w} : ReachCut m → ReachCut o → m.appendP o a fuel = .ok (.unwound (m', o') w) → ReachCut m'

theorem prefix_sorted [Ord K] {l l' : List (K × V)} (h : l' <+: l) (hs : Sorted l) : Sorted l' := List.Pairwise.sublist h.sublist hs

theorem appendP_ordered [Ord K] [Std.TransOrd K] {lo rt : Nat} {m o m' o' : Map K V} {a fuel w} (hm : m.OrderedN lo rt 0) (ho : o.OrderedN lo rt 0)
    (h : m.appendP o a fuel = .ok (.unwound (m', o') w)) :
    m'.OrderedN 0 0 0 ∧ o' = Map.new ∧ (∃ u, Spec.union m.toList o.toList u ∧ m'.toList <+: u) ∧ m.toList ≠ [] ∧ o.toList ≠ [] ∧
      (w = .mem → ¬ a.Good) ∧ (w = .cmp → m'.toList.length = fuel) := by
  have hu := mergeIter_spec m.toList o.toList hm.sorted ho.sorted
  rcases Map.appendP_spec hm.toShaped ho.toShaped a fuel with ⟨m1, w1, h1, h2, h3, h4, h5, h6, h7⟩ | ⟨m1, o1, a1, f, h1, _⟩
  · obtain ⟨⟨rfl, rfl⟩, rfl⟩ := by simpa using Exec.ok_unique h h1
    exact ⟨⟨h2, prefix_sorted h3 hu.1⟩, rfl, ⟨_, hu, h3⟩, h4, h5, h6, fun e => (h7 e).2⟩
  · rw [h] at h1; simp at h1

theorem ReachCut.ordered [Ord K] [Std.TransOrd K] {m : Map K V} (h : ReachCut m) : m.OrderedN 0 0 0 := by
  induction h with
  | append hm ho e => exact (appendP_ordered hm.valid ho.valid e).1
  | @insert m m' k v a old a' _ e ih =>
    obtain ⟨r, m1, a1, h1, h2, _⟩ := Map.tryInsert_ordered ih k v a
    obtain ⟨rfl, rfl, rfl⟩ := by simpa using Exec.ok_unique e h1
    exact h2.1
  | @entry m m' k a r a' _ e ih =>
    obtain ⟨r, m1, a1, h1, h2, _⟩ := Map.tryEntry_ordered ih k a
    obtain ⟨rfl, rfl, rfl⟩ := by simpa using Exec.ok_unique e h1
    exact h2
  | @extend m m' l a a' _ e ih =>
    rcases Map.extend_spec l ih a with ⟨⟨_, h1⟩, _⟩ | ⟨m1, a1, h1, h2, _⟩
    · rw [e] at h1; simp at h1
    · obtain ⟨rfl, rfl⟩ := by simpa using Exec.ok_unique e h1
      exact h2
  | again _ _ e ihm iho => exact (appendP_ordered ihm iho e).1

/-- **C61** `append`, when it unwinds: `other` is empty, and `self` holds exactly a first part, in ascending order, of the pairs the
finished call would have left (`other`'s value where both maps have the key); its length is right, and iteration, `range` and `get` see
exactly that part.  If it was the comparison that panicked, the part is as long as the number of comparisons answered.  (The rest of both
maps is dropped.) -/
theorem C61_append [Ord K] [Std.TransOrd K] {m o m' o' : Map K V} {l r a fuel w} (hm : Reach m) (ho : Reach o)
    (hl : m.toListE = .ok l) (hr : o.toListE = .ok r) (h : m.appendP o a fuel = .ok (.unwound (m', o') w)) :
    o'.toListE = .ok [] ∧ o'.len = 0 ∧ Reach o' ∧ (w = .mem → ∃ n, a n = false) ∧
    ∃ part full, m'.toListE = .ok part ∧ m'.len = part.length ∧ Sees m' part ∧ part <+: full ∧ (w = .cmp → part.length = fuel) ∧
      Sorted full ∧ ∀ kv, kv ∈ full ↔ kv ∈ r ∨ (kv ∈ l ∧ ∀ kv' ∈ r, compare kv.1 kv'.1 ≠ .eq) := by
  obtain rfl := Exec.ok_unique hl (Map.toListE_spec hm.valid.toShaped)
  obtain rfl := Exec.ok_unique hr (Map.toListE_spec ho.valid.toShaped)
  obtain ⟨h1, rfl, ⟨u, hu, hp⟩, _, _, h4, h5⟩ := appendP_ordered hm.valid ho.valid h
  have hlen := h1.len
  refine ⟨rfl, rfl, .new, fun hw => ?_, m'.toList, u, Map.toListE_spec h1.toShaped, by simpa [Map.len] using hlen, Sees.of h1, hp, h5, hu.1, hu.2⟩
  refine Classical.byContradiction fun hn => h4 hw fun n => ?_
  cases hc : a n with
  | true => rfl
  | false => exact absurd ⟨n, hc⟩ hn

/-- **C61** and when it does not unwind it does what the undisturbed call does. -/
theorem C61_append_returns [Ord K] [Std.TransOrd K] {m o : Map K V} (hm : Reach m) (ho : Reach o) (a : Alloc) (fuel : Nat) :
    (∃ m' o' w, m.appendP o a fuel = .ok (.unwound (m', o') w)) ∨
    (∃ r f, m.appendP o a fuel = .ok (.done (r, f)) ∧ m.append o a = .ok r) := by
  rcases Map.appendP_spec hm.valid.toShaped ho.valid.toShaped a fuel with ⟨m1, w1, h1, _⟩ | ⟨m1, o1, a1, f, h1, h2⟩
  · exact .inl ⟨m1, _, w1, h1⟩
  · exact .inr ⟨_, f, h1, h2⟩

/-- **C61** with memory and a comparison that returns `l.length + r.length` times, `append` does not unwind. -/
theorem C61_append_enough [Ord K] [Std.TransOrd K] {m o : Map K V} {l r} (hm : Reach m) (ho : Reach o)
    (hl : m.toListE = .ok l) (hr : o.toListE = .ok r) {a : Alloc} (ha : ∀ n, a n = true) {fuel : Nat} (hf : l.length + r.length ≤ fuel) :
    ∃ r f, m.appendP o a fuel = .ok (.done (r, f)) ∧ m.append o a = .ok r := by
  obtain rfl := Exec.ok_unique hl (Map.toListE_spec hm.valid.toShaped)
  obtain rfl := Exec.ok_unique hr (Map.toListE_spec ho.valid.toShaped)
  rcases Map.appendP_spec hm.valid.toShaped ho.valid.toShaped a fuel with ⟨m1, w1, h1, _, _, _, _, h6, h7⟩ | ⟨m1, o1, a1, f, h1, h2⟩
  · cases w1 with
    | mem => exact absurd ha (h6 rfl)
    | cmp => have := (h7 rfl).1; omega
  · exact ⟨_, f, h1, h2⟩

/-- **C61** A map left by an unwound `append`, and everything it becomes by further insertions, can be used: iteration is in order and
defined, `len`, `range` and `get` agree with it, and inserting inserts. -/
theorem C61_append_usable [Ord K] [Std.TransOrd K] {m : Map K V} (h : ReachCut m) (k : K) (v : V) (a : Alloc) :
    ∃ l, m.toListE = .ok l ∧ m.len = l.length ∧ Sorted l ∧ Sees m l ∧ m.tryInsert k v a ≠ .ub ∧
      ∀ old m' a', m.tryInsert k v a = .ok (.ok old, m', a') →
        old = lookup id k l ∧ m'.toListE = .ok (Spec.insert k v l) ∧ ReachCut m' := by
  have ho := h.ordered
  obtain ⟨r, m1, a1, h1, h2, _⟩ := Map.tryInsert_ordered ho k v a
  refine ⟨m.toList, Map.toListE_spec ho.toShaped, by simpa [Map.len] using ho.len, ho.sorted, Sees.of ho, by simp [h1], ?_⟩
  intro old m' a' h3
  obtain ⟨rfl, rfl, rfl⟩ := by simpa using Exec.ok_unique h1 h3
  exact ⟨h2.2.2, by rw [Map.toListE_spec h2.1.toShaped, h2.2.1], .insert h h3⟩

/-! ### what unwinding breaks -/

/-- **C62** `split_off`, when a comparison panics: `len()` is still what it was, and the map is either unchanged or cut short, and if it is cut short
iterating over it runs past the end (undefined behaviour).  `range` and `get` see the first part that is left. -/
theorem C62_split_off [Ord K] [Std.TransOrd K] [Ord Q] {bor : K → Q} {m m' : Map K V} {l q a fuel w} (h : Reach m) (hl : m.toListE = .ok l)
    (hu : m.splitOffP bor q a fuel = .ok (.unwound m' w)) :
    w = .cmp ∧ m'.len = m.len ∧ ∃ l' rest, l = l' ++ rest ∧ Sees m' l' ∧
      ((rest = [] ∧ m'.toListE = .ok l) ∨ (rest ≠ [] ∧ m'.toListE = .ub)) := by
  have hv := h.valid
  obtain rfl := Exec.ok_unique hl (Map.toListE_spec hv.toShaped)
  rcases Map.splitOffP_spec hv.toShaped bor q a fuel with ⟨m1, rest, h1, h2, h3, h4, _⟩ | ⟨r, f, h1, _⟩
  · obtain ⟨rfl, rfl⟩ := by simpa using Exec.ok_unique hu h1
    have hs : Sorted m'.toList := prefix_sorted ⟨rest, h4.symm⟩ hv.sorted
    refine ⟨rfl, h3, m'.toList, rest, h4, Sees.of ⟨h2, hs⟩, ?_⟩
    by_cases hr : rest = []
    · subst hr
      left
      refine ⟨rfl, ?_⟩
      rw [Map.toListE_spec h2, h4, List.append_nil]
    · exact .inr ⟨hr, Map.toListE_ub h2 (by have := List.length_pos_iff.2 hr; omega)⟩
  · rw [hu] at h1; simp at h1

/-- **C62** … and nothing is cut off that the undisturbed call would have left: what is lost are last pairs of the map it would have returned. -/
theorem C62_split_off_lost [Ord K] [Std.TransOrd K] [Ord Q] {bor : K → Q} {m m' : Map K V} {l l' q a fuel w} (h : Reach m) (hl : m.toListE = .ok l)
    (hu : m.splitOffP bor q a fuel = .ok (.unwound m' w)) (hl' : Sees m' l') :
    ∃ right m2 a2 lr, m.splitOff bor q a = .ok (.ok right, m2, a2) ∧ right.toListE = .ok lr ∧ ∃ rest, l = l' ++ rest ∧ rest <:+ lr := by
  have hv := h.valid
  obtain rfl := Exec.ok_unique hl (Map.toListE_spec hv.toShaped)
  rcases Map.splitOffP_spec hv.toShaped bor q a fuel with ⟨m1, rest, h1, h2, h3, h4, _, _, right, m2, a2, h5, h6⟩ | ⟨r, f, h1, _⟩
  · obtain ⟨rfl, rfl⟩ := by simpa using Exec.ok_unique hu h1
    obtain ⟨r0, m0, a0, k1, k2, _⟩ := Map.splitOff_wf hv.toShaped bor q a
    obtain ⟨rfl, rfl, rfl⟩ := by simpa using Exec.ok_unique h5 k1
    obtain ⟨⟨x1, x2, hx, _, hr⟩, _⟩ := k2
    obtain rfl : x2 = 0 := by omega
    have hs : Sorted m'.toList := prefix_sorted ⟨rest, h4.symm⟩ hv.sorted
    obtain rfl := hl'.unique (Sees.of ⟨h2, hs⟩)
    exact ⟨right, m2, a2, right.toList, h5, Map.toListE_spec hr, rest, h4, h6⟩
  · rw [hu] at h1; simp at h1

/-- **C62** and if it does not unwind it did what the undisturbed call does; with enough comparisons answered it does not unwind. -/
theorem C62_split_off_returns [Ord K] [Std.TransOrd K] [Ord Q] {bor : K → Q} {m : Map K V} (h : Reach m) (q : Q) (a : Alloc) :
    (∀ fuel, (∃ m', m.splitOffP bor q a fuel = .ok (.unwound m' .cmp)) ∨
      (∃ r f, m.splitOffP bor q a fuel = .ok (.done (r, f)) ∧ m.splitOff bor q a = .ok r)) ∧
    ∃ n, ∀ fuel, n ≤ fuel → ∃ r f, m.splitOffP bor q a fuel = .ok (.done (r, f)) := by
  refine ⟨fun fuel => ?_, 11 * (m.height + 1), fun fuel hf => ?_⟩
  · rcases Map.splitOffP_spec h.valid.toShaped bor q a fuel with ⟨m1, rest, h1, _⟩ | ⟨r, f, h1, h2⟩
    · exact .inl ⟨m1, h1⟩
    · exact .inr ⟨r, f, h1, h2⟩
  · rcases Map.splitOffP_spec h.valid.toShaped bor q a fuel with ⟨m1, rest, h1, _, _, _, h5, _⟩ | ⟨r, f, h1, h2⟩
    · omega
    · exact ⟨r, f, h1⟩

/-- The map `{n ↦ n | n in l}`. -/
def numbers (l : List Nat) : Map Nat Nat :=
  match Map.fromIter (l.map fun i => (i, i)) allOk with
  | .ok (m, _) => m
  | _ => Map.new

set_option maxRecDepth 10000 in
/-- **C62 witness** `split_off(&13)` on the numbers 0 to 29, where the fifth comparison panics: `len()` still says 30, the map ends
before it, and iterating is undefined behaviour. -/
theorem C62_split_off_witness : ∃ m m' : Map Nat Nat, Reach m ∧ m.len = 30 ∧ m.splitOffP id 13 allOk 4 = .ok (.unwound m' .cmp) ∧
    m'.len = 30 ∧ m'.get id 29 = .ok none ∧ m'.toListE = .ub :=
  ⟨numbers (List.range 30), _, .extend (l := (List.range 30).map fun i => (i, i)) (a := allOk) (a' := allOk) .new rfl, rfl, rfl, rfl, rfl, rfl⟩

set_option maxRecDepth 10000 in
/-- **C62 witness** After an `append` that unwound in its thirteenth comparison, `remove` of the last of the twelve numbers that made it is
undefined behaviour: it takes the first pair of an empty leaf. -/
theorem C62_remove_after_append_witness : ∃ m o m' o' : Map Nat Nat, Reach m ∧ Reach o ∧
    m.appendP o allOk 12 = .ok (.unwound (m', o') .cmp) ∧ m'.toListE = .ok ((List.range 12).map fun i => (i, i)) ∧
    m'.removeEntry id 11 = .ub :=
  ⟨numbers [0, 1, 2, 3, 4, 5, 20], numbers [6, 7, 8, 9, 10, 11, 21], _, _,
    .extend (l := [0, 1, 2, 3, 4, 5, 20].map fun i => (i, i)) (a := allOk) (a' := allOk) .new rfl,
    .extend (l := [6, 7, 8, 9, 10, 11, 21].map fun i => (i, i)) (a := allOk) (a' := allOk) .new rfl, rfl, rfl, rfl⟩

/-- Remove these keys one after the other. -/
def removeAll (m : Map Nat Nat) : List Nat → Exec (Map Nat Nat)
  | [] => .ok m
  | k :: ks => m.removeEntry id k >>= fun r => removeAll r.2 ks

set_option maxRecDepth 10000 in
/-- **C62 witness** After an `append` that ran out of memory (two requests granted), removing pairs reaches the `unreachable!()` of
`remove_kv`: a panic in a call documented not to. -/
theorem C62_remove_after_oom_witness : ∃ m o m' o' : Map Nat Nat, ∃ msg, Reach m ∧ Reach o ∧
    m.appendP o (fun n => decide (n < 2)) 100 = .ok (.unwound (m', o') .mem) ∧
    removeAll m' (List.range 11) = .panic msg :=
  ⟨numbers [0, 1, 2, 3, 4, 5, 20], numbers [6, 7, 8, 9, 10, 11, 21], _, _, _,
    .extend (l := [0, 1, 2, 3, 4, 5, 20].map fun i => (i, i)) (a := allOk) (a' := allOk) .new rfl,
    .extend (l := [6, 7, 8, 9, 10, 11, 21].map fun i => (i, i)) (a := allOk) (a' := allOk) .new rfl, rfl, rfl⟩

/-! ### the hypotheses are met -/

set_option maxRecDepth 10000 in
/-- An insertion into the 40-entry map that unwinds in its fourth comparison. -/
example : ∃ m', demo.tryInsertP 41 0 allOk 3 = .ok (.unwound m' .cmp) ∧ m'.toListE = .ok demoList := by
  rcases C61_insert demo_reach demo_items 41 0 allOk 3 with ⟨m', h1, _, h2, _⟩ | ⟨r, f, h1, _⟩
  · exact ⟨m', h1, h2⟩
  · have : ∃ m', demo.tryInsertP 41 0 allOk 3 = .ok (.unwound m' .cmp) := ⟨_, rfl⟩
    obtain ⟨m', h2⟩ := this
    rw [h1] at h2; simp at h2

set_option maxRecDepth 10000 in
/-- A removal that unwinds, and an `extend` of which four pairs make it. -/
example : demo.removeEntryP id 41 3 = .ok (.unwound demo .cmp) ∧
    ∃ m', (Map.new : Map Nat Nat).extendP demoList allOk 8 = .ok (.unwound m' .cmp) ∧ m'.toListE = .ok (demoList.take 4) :=
  ⟨rfl, _, rfl, rfl⟩

set_option maxRecDepth 10000 in
/-- The half-built map of the witness can be inserted into and read. -/
example : ∃ m m' : Map Nat Nat, ∃ a', ReachCut m ∧ m.len = 12 ∧ m.tryInsert 30 7 allOk = .ok (.ok none, m', a') ∧ m'.len = 13 ∧
    m'.get id 30 = .ok (some 7) := by
  obtain ⟨m, o', h⟩ : ∃ m o', (numbers [0, 1, 2, 3, 4, 5, 20]).appendP (numbers [6, 7, 8, 9, 10, 11, 21]) allOk 12 = .ok (.unwound (m, o') .cmp) ∧
      m.len = 12 ∧ ∃ m' a', m.tryInsert 30 7 allOk = .ok (.ok none, m', a') ∧ m'.len = 13 ∧ m'.get id 30 = .ok (some 7) :=
    ⟨_, _, rfl, rfl, _, _, rfl, rfl, rfl⟩
  obtain ⟨h1, h2, m', a', h3⟩ := h
  refine ⟨m, m', a', .append ?_ ?_ h1, h2, h3⟩
  · exact .extend (l := [0, 1, 2, 3, 4, 5, 20].map fun i => (i, i)) (a := allOk) (a' := allOk) .new rfl
  · exact .extend (l := [6, 7, 8, 9, 10, 11, 21].map fun i => (i, i)) (a := allOk) (a' := allOk) .new rfl

end Verif.Props
