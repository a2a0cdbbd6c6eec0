import Verif.BTree.Proofs.Compare
import Verif.Props.Entry
/-
Whole-map operations: comparison and hashing (C23), mutable iteration (C24), extend / from_iter (C25).
-/
namespace Verif.Props
open Verif Verif.BTree Verif.Spec

variable {K V Q : Type}

/-- **C23** (equality) `==` answers `true` exactly if the two entry sequences have the same length and equal entries
position by position. -/
theorem C23_eq [Ord K] [Std.TransOrd K] {m o : Map K V} {l r} (hm : Reach m) (ho : Reach o) (hl : m.toListE = .ok l)
    (hr : o.toListE = .ok r) (eqK : K → K → Bool) (eqV : V → V → Bool) :
    ∃ b, m.eq o eqK eqV = .ok b ∧ (b = true ↔ All2 (fun x y => eqK x.1 y.1 = true ∧ eqV x.2 y.2 = true) l r) := by
  obtain rfl := Exec.ok_unique hl (Map.toListE_spec hm.valid.toShaped)
  obtain rfl := Exec.ok_unique hr (Map.toListE_spec ho.valid.toShaped)
  have e1 : m.len = m.toList.length := by simpa [Map.len] using hm.valid.len
  have e2 : o.len = o.toList.length := by simpa [Map.len] using ho.valid.len
  by_cases h : m.len = o.len
  · refine ⟨_, by simp only [Map.eq, h, if_true, hl, hr, Exec.ok_bind]; rfl, ?_⟩
    rw [zipAll_iff (by omega)]
    simp [Bool.and_eq_true]
  · refine ⟨false, by simp [Map.eq, h], ?_⟩
    simp only [Bool.false_eq_true, false_iff]
    intro ha
    exact h (by rw [e1, e2]; exact ha.length)

/-- **C23** (order) `cmp` is the lexicographic comparison of the entry sequences (each entry compared by key, then
value). -/
theorem C23_cmp {m o : Map K V} {l r} (hl : m.toListE = .ok l)
    (hr : o.toListE = .ok r) (cmpK : K → K → Ordering) (cmpV : V → V → Ordering)
    (hk : ∀ a b, cmpK b a = (cmpK a b).swap) (hv : ∀ a b, cmpV b a = (cmpV a b).swap) :
    ∃ c, m.cmp o cmpK cmpV = .ok c ∧
      (c = .eq ↔ All2 (fun x y => cmpK x.1 y.1 = .eq ∧ cmpV x.2 y.2 = .eq) l r) ∧
      (c = .lt ↔ LexLess (fun x y => (cmpK x.1 y.1).then (cmpV x.2 y.2)) l r) ∧
      (c = .gt ↔ LexLess (fun x y => (cmpK x.1 y.1).then (cmpV x.2 y.2)) r l) := by
  refine ⟨_, by simp only [Map.cmp, hl, hr, Exec.ok_bind], ?_, lexCmp_lt, lexCmp_gt ?_⟩
  · rw [lexCmp_eq]
    have : (fun (a b : K × V) => ((cmpK a.1 b.1).then (cmpV a.2 b.2)) = Ordering.eq) =
        fun x y => cmpK x.1 y.1 = .eq ∧ cmpV x.2 y.2 = .eq := by
      funext a b
      simp [Ordering.then_eq_eq]
    rw [this]
  · intro a b
    rw [hk, hv, Ordering.swap_then]

/-- **C23** (hash) maps that are `==` hash the same whatever their history and shape, for any hasher `feed` that respects the
entries' own equality. -/
theorem C23_hash [Ord K] [Std.TransOrd K] {m o : Map K V} (hm : Reach m) (ho : Reach o)
    {eqK : K → K → Bool} {eqV : V → V → Bool} {S : Type} (feed : S → K × V → S) (s : S)
    (hf : ∀ s x y, eqK x.1 y.1 = true → eqV x.2 y.2 = true → feed s x = feed s y)
    (heq : m.eq o eqK eqV = .ok true) :
    ∃ x, m.hash feed s = .ok x ∧ o.hash feed s = .ok x := by
  have hl := Map.toListE_spec hm.valid.toShaped
  have hr := Map.toListE_spec ho.valid.toShaped
  obtain ⟨b, h1, h2⟩ := C23_eq hm ho hl hr eqK eqV
  obtain rfl := Exec.ok_unique heq h1
  have ha := h2.1 rfl
  refine ⟨_, by simp only [Map.hash, hl, Exec.ok_bind]; rfl, ?_⟩
  simp only [Map.hash, hr, Exec.ok_bind]
  congr 1
  clear hl hr h1 h2 heq
  generalize m.toList = l at ha
  generalize o.toList = r at ha
  induction l generalizing r s with
  | nil => cases r with
    | nil => rfl
    | cons => exact ha.elim
  | cons x l ih => cases r with
    | nil => exact ha.elim
    | cons y r => simp only [List.foldl_cons]; rw [hf s _ _ ha.1.1 ha.1.2]; exact ih _ _ ha.2

/-- The same 40 entries as `demo`, inserted in the opposite order: a differently shaped tree. -/
def demoRev : Map Nat Nat :=
  match Map.fromIter demoList.reverse allOk with
  | .ok (m, _) => m
  | _ => Map.new
set_option maxRecDepth 10000 in
theorem demoRev_built : (Map.new : Map Nat Nat).extend demoList.reverse allOk = .ok (demoRev, allOk) := by rfl
theorem demoRev_reach : Reach demoRev := .extend .new demoRev_built

set_option maxRecDepth 10000 in
example : demoRev.toListE = .ok demoList ∧ demo.root.kvs ≠ demoRev.root.kvs := ⟨rfl, by decide⟩
set_option maxRecDepth 10000 in
example : demo.eq demoRev (· == ·) (· == ·) = .ok true := rfl

/-- **C24** (`iter_mut`, `values_mut`) Any program that takes references from either end, keeps them all, and writes through
them in any order: it reads exactly what the sequence of positions predicts, each position is handed out at most once (the
references are pairwise different), the writes change exactly the values at their positions, and keys, order and `len` stay. -/
theorem C24_iter_mut [Ord K] [Std.TransOrd K] {m : Map K V} {l} (h : Reach m) (hl : m.toListE = .ok l) :
    ∃ it, m.iter = .ok it ∧ ∀ acts : List (MutAct V), ∃ m' refs,
      mutRun Iter.stepH acts m it [] = .ok ((Cursor.acts ⟨l, 0, l.length, []⟩ acts).1, m', refs) ∧
      m'.toListE = .ok (Cursor.acts ⟨l, 0, l.length, []⟩ acts).2.items ∧
      (Cursor.acts ⟨l, 0, l.length, []⟩ acts).2.items.map (·.1) = l.map (·.1) ∧ m'.len = m.len ∧
      refs.Nodup ∧ (Cursor.acts ⟨l, 0, l.length, []⟩ acts).2.refs.Nodup ∧ Reach m' := by
  have hv := h.valid
  obtain rfl := Exec.ok_unique hl (Map.toListE_spec hv.toShaped)
  obtain ⟨it, h1, _⟩ := Map.iter_spec hv.toShaped
  refine ⟨it, h1, fun acts => ?_⟩
  obtain ⟨i1, i2⟩ := MutInv.iter hv.toShaped h1
  obtain ⟨m', refs, g1, g2, g3, g4⟩ := mutRun_spec Iter.stepOK acts i1 (by simpa using i2)
  have hk := Cursor.acts_keys (⟨m.toList, 0, m.toList.length, []⟩ : Cursor K V) acts
  have hn := (Cursor.Ok.acts (c := (⟨m.toList, 0, m.toList.length, []⟩ : Cursor K V)) ⟨List.nodup_nil, by simp⟩ acts).1
  refine ⟨m', refs, g1, by rw [Map.toListE_spec g2, g3], hk, ?_, refs_nodup g4 hn, hn, .iterMut h h1 g1⟩
  have e1 := hv.len
  have e2 := g2.len
  have := congrArg List.length hk
  simp only [List.length_map] at this
  simp only [Map.len, e1, e2, g3, this]

/-- **C24** (`range_mut`) The same for the entries within the bounds, which lie contiguously at positions `lo ..< hi`. -/
theorem C24_range_mut [Ord K] [Std.TransOrd K] [Ord Q] [Std.TransOrd Q] {bor : K → Q} (hbo : BorrowOK bor) {m : Map K V} {l}
    (h : Reach m) (hl : m.toListE = .ok l) (s e : Bound Q) (hb : badRange s e = false) :
    ∃ r pre post, m.range bor s e = .ok r ∧ l = pre ++ within bor s e l ++ post ∧ ∀ acts : List (MutAct V), ∃ m' refs c,
      c = Cursor.acts ⟨l, pre.length, pre.length + (within bor s e l).length, []⟩ acts ∧
      mutRun Range.stepH acts m r [] = .ok (c.1, m', refs) ∧
      m'.toListE = .ok c.2.items ∧ c.2.items.map (·.1) = l.map (·.1) ∧ m'.len = m.len ∧
      refs.Nodup ∧ c.2.refs.Nodup ∧ Reach m' := by
  have hv := h.valid
  obtain rfl := Exec.ok_unique hl (Map.toListE_spec hv.toShaped)
  rcases Map.range_ordered hbo hv s e with ⟨h1, _⟩ | ⟨_, r, pre, post, h1, w⟩
  · simp [hb] at h1
  · refine ⟨r, pre, post, h1, by rw [List.append_assoc]; exact w.all, fun acts => ?_⟩
    obtain ⟨m', refs, g1, g2, g3, g4⟩ := mutRun_spec Range.stepOK acts (MutInv.range hv.toShaped w) trivial
    have hk := Cursor.acts_keys (⟨m.toList, pre.length, pre.length + (within bor s e m.toList).length, []⟩ : Cursor K V) acts
    have hn := (Cursor.Ok.acts (c := (⟨m.toList, pre.length, pre.length + (within bor s e m.toList).length, []⟩ : Cursor K V))
      ⟨List.nodup_nil, by simp⟩ acts).1
    refine ⟨m', refs, _, rfl, g1, by rw [Map.toListE_spec g2, g3], hk, ?_, refs_nodup g4 hn, hn, .rangeMut hbo h h1 g1⟩
    have e1 := hv.len
    have e2 := g2.len
    have := congrArg List.length hk
    simp only [List.length_map] at this
    simp only [Map.len, e1, e2, g3, this]

example : ∃ it m' refs, demo.iter = .ok it ∧
    mutRun Iter.stepH [.take .front, .take .back, .write 0 (· + 500), .take .front, .write 1 (fun _ => 7)] demo it [] =
      .ok ([some (0, 0), some (78, 39), none, some (2, 1), none], m', refs) ∧
    m'.get id 0 = .ok (some 500) ∧ m'.get id 78 = .ok (some 7) ∧ m'.get id 2 = .ok (some 1) := ⟨_, _, _, rfl, rfl, rfl, rfl, rfl⟩
example : ∃ r m' refs, demo.range id (.included 10) (.excluded 20) = .ok r ∧
    mutRun Range.stepH [.take .front, .take .back, .write 1 (fun _ => 7)] demo r [] =
      .ok ([some (10, 5), some (18, 9), none], m', refs) ∧ m'.get id 18 = .ok (some 7) := ⟨_, _, _, rfl, rfl, rfl⟩

/-- **C25** `extend` (and `from_iter`, which is `extend` of a new map) returned: every key has the value of its last
occurrence in the sequence (or its old value if it does not occur), and as key object the first one stored. -/
theorem C25_extend [Ord K] [Std.TransOrd K] {m m' : Map K V} {items : List (K × V)} {l a a'} (h : Reach m) (hl : m.toListE = .ok l)
    (he : m.extend items a = .ok (m', a')) (k : K) :
    m'.getKeyValue id k = .ok
      (match (find? id k l).or (find? id k items), find? id k items.reverse with
       | some first, some last => some (first.1, last.2)
       | some first, none => some first
       | none, _ => none) ∧ Reach m' := by
  have hv := h.valid
  obtain rfl := Exec.ok_unique hl (Map.toListE_spec hv.toShaped)
  rcases Map.extend_spec items hv a with ⟨⟨_, h1⟩, _⟩ | ⟨m1, a1, h1, h2, _, h3⟩
  · rw [he] at h1; simp at h1
  · obtain ⟨rfl, rfl⟩ := by simpa using Exec.ok_unique he h1
    rw [Map.getKeyValue_spec borrowOK_id h2, h3, find?_inserts items hv.sorted]
    exact ⟨rfl, .extend h he⟩

/-- **C25** … it returns when memory is available; otherwise it returns or panics. -/
theorem C25_extend_returns [Ord K] [Std.TransOrd K] {m : Map K V} (h : Reach m) (items : List (K × V)) (a : Alloc) :
    (∃ m' a', m.extend items a = .ok (m', a')) ∨ ((∃ msg, m.extend items a = .panic msg) ∧ ∃ n, a n = false) := by
  rcases Map.extend_spec items h.valid a with ⟨h1, h2⟩ | ⟨m1, a1, h1, _⟩
  · refine .inr ⟨h1, Classical.byContradiction fun hn => h2 fun n => ?_⟩
    cases hc : a n with
    | true => rfl
    | false => exact absurd ⟨n, hc⟩ hn
  · exact .inl ⟨m1, a1, h1⟩

theorem C25_from_iter [Ord K] (items : List (K × V)) (a : Alloc) :
    Map.fromIter items a = (Map.new : Map K V).extend items a ∧ Reach (Map.new : Map K V) ∧
      (Map.new : Map K V).toListE = .ok [] := ⟨rfl, .new, rfl⟩

example : ∃ m' a', demo.extend [(4, 1), (5, 2), (4, 3)] allOk = .ok (m', a') ∧ m'.get id 4 = .ok (some 3) ∧
    m'.get id 5 = .ok (some 2) ∧ m'.get id 6 = .ok (some 3) := ⟨_, _, rfl, rfl, rfl, rfl⟩
example : ∃ msg, demo.extend ((List.range 40).map fun i => (2 * i + 1, i)) noMem = .panic msg := ⟨_, rfl⟩

end Verif.Props
