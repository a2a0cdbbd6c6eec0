import Verif.BTree.Proofs.Oom
import Verif.Props.Map
/-
What a failed insertion leaves behind (C15, C16).
-/
namespace Verif.Props
open Verif Verif.BTree Verif.Spec

variable {K V Q : Type}

/-- What a program sees of a map without using its `len()`: `range(..)` yields exactly `l` (for any mix of `next` and
`next_back`), and `get` finds exactly the pairs of `l`. -/
def Sees [Ord K] (m : Map K V) (l : List (K × V)) : Prop :=
  (∃ r, m.range id .unbounded .unbounded = .ok r ∧ ∀ es, ∃ r', r.run m es = .ok ((pops es l).1, r')) ∧
  ∀ q, m.get id q = .ok (lookup id q l)

theorem Sees.of [Ord K] [Std.TransOrd K] {lo rt x : Nat} {m : Map K V} (h : m.OrderedN lo rt x) : Sees m m.toList := by
  refine ⟨?_, fun q => Map.get_spec borrowOK_id h q⟩
  rcases Map.range_ordered borrowOK_id h .unbounded .unbounded with ⟨hb, _⟩ | ⟨_, r, pre, post, h1, w⟩
  · simp [badRange] at hb
  · have hw : within id .unbounded .unbounded m.toList = m.toList := by
      simp [within, aboveLo, belowHi]
    rw [hw] at w
    refine ⟨r, h1, fun es => ?_⟩
    obtain ⟨r', g⟩ := Range.run_spec h.below es w
    exact ⟨r', g⟩

theorem pops_front_inj {α : Type} {l l' : List α}
    (h : ∀ es, (pops es l).1 = (pops es l').1) : l = l' := by
  induction l generalizing l' with
  | nil =>
    have := h [.front]
    cases l' with
    | nil => rfl
    | cons => simp [pops, pop] at this
  | cons x l ih =>
    cases l' with
    | nil => have := h [.front]; simp [pops, pop] at this
    | cons y l' =>
      have h0 := h [.front]
      simp [pops, pop] at h0
      subst h0
      rw [ih fun es => by have := h (.front :: es); simpa [pops, pop] using this]

/-- What a program sees is determined. -/
theorem Sees.unique [Ord K] {m : Map K V} {l l'} (h : Sees m l) (h' : Sees m l') : l = l' := by
  obtain ⟨⟨r, h1, h2⟩, _⟩ := h
  obtain ⟨⟨r', h1', h2'⟩, _⟩ := h'
  obtain rfl := Exec.ok_unique h1 h1'
  apply pops_front_inj
  intro es
  obtain ⟨_, g⟩ := h2 es
  obtain ⟨_, g'⟩ := h2' es
  exact (Prod.ext_iff.1 (Exec.ok_unique g g')).1

theorem insert_sublist [Ord K] {k : K} {v : V} : ∀ {l : List (K × V)}, lookup id k l = none → l.Sublist (Spec.insert k v l)
  | [], _ => by simp
  | x :: l, h => by
    have hx : compare k x.1 ≠ .eq ∧ lookup id k l = none := by
      simp only [lookup, find?, Option.map_eq_none_iff, List.find?_eq_none] at h ⊢
      exact ⟨by simpa using h x (by simp), fun y hy => h y (by simp [hy])⟩
    simp only [Spec.insert]
    split
    · exact List.sublist_cons_self _ _
    · rename_i hc; exact absurd hc hx.1
    · exact List.Sublist.cons_cons _ (insert_sublist hx.2)

/-- **C16** After a failed insertion (on a map that may already have seen failed insertions) everything `range(..)` and
`get` still see is in ascending order and was there before or is the pair being inserted: what is seen is what was seen before, or the map
with the pair inserted but without one stretch of at least five pairs; and the key was not there before. -/
theorem C16_failed_insert [Ord K] [Std.TransOrd K] {m m' : Map K V} {k v a e a'} (h : ReachOom m)
    (hop : m.tryInsert k v a = .ok (.error e, m', a')) :
    ∃ l l', Sees m l ∧ Sees m' l' ∧ Sorted l ∧ Sorted l' ∧ lookup id k l = none ∧ Torn 5 l (Spec.insert k v l) l' ∧ l'.Sublist (Spec.insert k v l) ∧
      (∀ kv ∈ l', kv ∈ l ∨ kv = (k, v)) ∧ ReachOom m' := by
  obtain ⟨x, ho⟩ := h.ordered
  obtain ⟨r, m1, a1, h1, h2, h3⟩ := Map.tryInsert_ordered ho k v a
  obtain ⟨rfl, rfl, rfl⟩ := by simpa using Exec.ok_unique hop h1
  obtain ⟨g1, g2, g3⟩ := h2
  have ho' : ∃ x', m'.Ordered x' := by
    rcases g3 with ⟨rfl, _⟩ | ⟨_, x', _, g⟩
    · exact ⟨x, ho⟩
    · exact ⟨x', g⟩
  obtain ⟨x', ho'⟩ := ho'
  have g4 : m'.toList.Sublist (Spec.insert k v m.toList) := g2.sublist (insert_sublist g1)
  refine ⟨m.toList, m'.toList, Sees.of ho, Sees.of ho', ho.sorted, ho'.sorted, g1, g2, g4, fun kv hkv => ?_, .insert h hop⟩
  have := g4.subset hkv
  clear g3 g2 g4 h1 hop hkv
  generalize m.toList = l at this g1
  induction l with
  | nil => right; simpa [Spec.insert] using this
  | cons x l ih =>
    have hx : compare k x.1 ≠ .eq ∧ lookup id k l = none := by
      simp only [lookup, find?, Option.map_eq_none_iff, List.find?_eq_none] at g1 ⊢
      exact ⟨by simpa using g1 x (by simp), fun y hy => g1 y (by simp [hy])⟩
    simp only [Spec.insert] at this
    split at this
    · rcases List.mem_cons.1 this with h | h
      · exact .inr h
      · exact .inl h
    · rename_i hc; exact absurd hc hx.1
    · rcases List.mem_cons.1 this with h | h
      · exact .inl (by simp [h])
      · rcases ih h hx.2 with h | h
        · exact .inl (by simp [h])
        · exact .inr h

/-- Eleven pairs: a full root leaf. -/
def eleven : Map Nat Nat :=
  match Map.fromIter ((List.range 11).map fun i => (2 * i, i)) allOk with
  | .ok (m, _) => m
  | _ => Map.new
theorem eleven_reach : Reach eleven :=
  .extend (l := (List.range 11).map fun i => (2 * i, i)) (a := allOk) (a' := allOk) .new rfl

/-- One request is granted, then none. -/
def one : Alloc := fun n => n == 0

/-- **C16** non-vacuous: the leaf split is granted, the new root is not. -/
example : ∃ m' a', eleven.tryInsert 1 100 one = .ok (.error .allocError, m', a') ∧
    Sees m' [(0, 0), (1, 100), (2, 1), (4, 2), (6, 3), (8, 4), (10, 5)] := by
  obtain ⟨m', a', h, hl⟩ : ∃ m' a', eleven.tryInsert 1 100 one = .ok (.error .allocError, m', a') ∧
    m'.toList = [(0, 0), (1, 100), (2, 1), (4, 2), (6, 3), (8, 4), (10, 5)] := ⟨_, _, rfl, rfl⟩
  refine ⟨m', a', h, ?_⟩
  obtain ⟨x, ho⟩ := (ReachOom.insert eleven_reach.oom h).ordered
  rw [← hl]
  exact Sees.of ho

/-- **C15 is false** (length): a map with eleven entries, an allocator that refuses one request; `try_insert` returns `Err`, and
`len()` says twelve.  Iterating over the map then runs past the end of the tree: undefined behaviour. -/
theorem C15_refuted_len : ∃ (m m' : Map Nat Nat) (k v : Nat) (a a' : Alloc) (e : TryReserveError), Reach m ∧
    m.tryInsert k v a = .ok (.error e, m', a') ∧ m.len = 11 ∧ m'.len = 12 ∧ m'.toListE = .ub :=
  ⟨eleven, _, 1, 100, noMem, _, _, eleven_reach, rfl, rfl, rfl, rfl⟩

/-- **C15 is false** (contents): if the leaf splits and then the allocation of the new root is refused, `try_insert`
returns `Err` although entries that were in the map before are gone and the refused pair is in. -/
theorem C15_refuted_contents : ∃ (m m' : Map Nat Nat) (k v : Nat) (a a' : Alloc) (e : TryReserveError), Reach m ∧
    m.tryInsert k v a = .ok (.error e, m', a') ∧ m.get id k = .ok none ∧ m'.get id k = .ok (some v) ∧
    m.get id 20 = .ok (some 10) ∧ m'.get id 20 = .ok none :=
  ⟨eleven, _, 1, 100, one, _, _, eleven_reach, rfl, rfl, rfl, rfl, rfl⟩

theorem vacantInsert_first_refused {m m' : Map K V} {hd k v a e a'} (ha : a 0 = false)
    (h : m.vacantInsert hd k v a = .ok (.error e, m', a')) : m' = { m with length := m.length + 1 } := by
  simp only [Map.vacantInsert] at h
  obtain ⟨⟨r, a1⟩, h1, h2⟩ := Exec.bind_eq_ok.1 h
  rcases insertRec_first_refused ha h1 with ⟨t, loc, rfl⟩ | rfl
  · simp at h2
  · simp at h2
    exact h2.2.1.symm

/-- **C15**, the part that holds.  If `try_insert` returns `Err` then the key was not in the map; a map that is still
`new()` stays `new()`; and if the refused request was the first one the call made, then everything `range(..)` and
`get` see is as before (`len()` is still wrong).  Missing from the full claim, because it is false of the code
(`C15_refuted_len`, `C15_refuted_contents`): `len()` unchanged, and contents unchanged whichever request is refused. -/
theorem C15_failed_insert_partial [Ord K] [Std.TransOrd K] {m m' : Map K V} {k v a e a'} (h : ReachOom m)
    (hop : m.tryInsert k v a = .ok (.error e, m', a')) :
    m.get id k = .ok none ∧ (m = Map.new → a 0 = false → m' = m) ∧
      (a 0 = false → ∃ l, Sees m l ∧ Sees m' l ∧ m'.len ≤ m.len + 1) := by
  obtain ⟨x, ho⟩ := h.ordered
  obtain ⟨r, m1, a1, h1, h2, h3⟩ := Map.tryInsert_ordered ho k v a
  obtain ⟨rfl, rfl, rfl⟩ := by simpa using Exec.ok_unique hop h1
  refine ⟨by rw [Map.get_spec borrowOK_id ho, h2.1], ?_, ?_⟩
  · rintro rfl ha
    simp [Map.tryInsert, Map.tryEntry, Map.ensureRootIsOwned, Map.new, Alloc.request, ha] at hop
    rw [← hop.2.1]; rfl
  · intro ha
    obtain ⟨r, m2, a2, g1, g2, g3, g4, g5, g6⟩ := Map.tryEntry_ordered ho k a
    simp only [Map.tryInsert, g1, Exec.ok_bind] at hop
    cases r with
    | error e =>
      obtain ⟨rfl, rfl, rfl⟩ := by simpa using hop
      exact ⟨m.toList, Sees.of ho, by rw [g5.1]; exact Sees.of ho, by simp [g5.1]⟩
    | ok en =>
      have ha2 : a2 0 = false := by
        clear hop h1
        cases hs : m.shared with
        | true => simp [Map.tryEntry, Map.ensureRootIsOwned, hs, Alloc.request, ha] at g1
        | false =>
          simp only [Map.tryEntry, Map.ensureRootIsOwned, hs] at g1
          obtain ⟨r, e1, e2⟩ := Exec.bind_eq_ok.1 g1
          cases r <;> simp at e2 <;> rw [← e2.2.2] <;> exact ha
      cases en with
      | occupied hd =>
        obtain ⟨⟨m3, o⟩, e1, e2⟩ := Exec.bind_eq_ok.1 hop
        simp at e2
      | vacant k' hd =>
        obtain ⟨⟨r, m3, a3⟩, e1, e2⟩ := Exec.bind_eq_ok.1 hop
        cases r with
        | ok => simp at e2
        | error er =>
          obtain ⟨rfl, rfl, rfl⟩ := by simpa using e2
          have hm := vacantInsert_first_refused ha2 e1
          have ho' : ∃ x', m3.Ordered x' := by
            rcases h2.2.2 with ⟨rfl, _⟩ | ⟨_, x', _, g⟩
            · exact ⟨x, ho⟩
            · exact ⟨x', g⟩
          obtain ⟨x', ho'⟩ := ho'
          have hl : m3.toList = m.toList := by rw [hm, ← g3]; rfl
          refine ⟨m.toList, Sees.of ho, hl ▸ Sees.of ho', ?_⟩
          rw [hm]; simp [Map.len, g4]

/-- **C15** (how bad it is): whenever an insertion into a map that is not empty fails, `len()` is larger than the number
of entries the map still holds, and iterating over it runs past the end: undefined behaviour. -/
theorem C15_failed_insert_then_iter_ub [Ord K] [Std.TransOrd K] {m m' : Map K V} {k v a e a'} (h : ReachOom m)
    (hne : m.isEmpty = false) (hop : m.tryInsert k v a = .ok (.error e, m', a')) :
    ∃ l', Sees m' l' ∧ m.len ≤ m'.len ∧ m'.len ≤ m.len + 1 ∧ l'.length < m'.len ∧ m'.toListE = .ub := by
  obtain ⟨x, ho⟩ := h.ordered
  obtain ⟨r, m1, a1, h1, h2, h3⟩ := Map.tryInsert_ordered ho k v a
  obtain ⟨rfl, rfl, rfl⟩ := by simpa using Exec.ok_unique hop h1
  obtain ⟨g1, g2, g3⟩ := h2
  rcases g3 with ⟨rfl, hnil⟩ | ⟨hl, x', hx, ho'⟩
  · cases x with
    | zero =>
      have := ho.len
      simp [Map.isEmpty, Map.len, hnil] at hne this
      omega
    | succ x =>
      have := ho.len
      exact ⟨m'.toList, Sees.of ho, by simp, by simp, by simp [Map.len]; omega, Map.toListE_ub ho.toShaped (by omega)⟩
  · have := ho'.len
    exact ⟨m'.toList, Sees.of ho', by simp [Map.len]; omega, by simp [Map.len]; omega, by simp [Map.len]; omega, Map.toListE_ub ho'.toShaped (by omega)⟩

end Verif.Props
