import Verif.BTree.Reach
import Verif.BTree.Proofs.Entry
/-
Every reachable map is valid.
-/
namespace Verif.BTree
open Verif Verif.Spec

variable {K V Q : Type}

theorem Sorted.of_keys [Ord K] {l l' : List (K × V)} (h : l'.map (·.1) = l.map (·.1)) (hs : Sorted l) : Sorted l' := by
  have : ∀ l : List (K × V), Sorted l ↔ (l.map (·.1)).Pairwise (fun a b => compare a b = .lt) := by
    intro l; simp [Sorted, List.pairwise_map]
  rw [this] at *
  rw [h]; exact hs

theorem Map.getMut_valid [Ord K] [Ord Q] [Std.TransOrd Q] {bor : K → Q} (hbo : BorrowOK bor) {x : Nat} {m : Map K V}
    (h : m.Ordered x) (q : Q) :
    (∃ hd A kv B, m.getMut bor q = .ok (some hd) ∧ m.Points hd A kv B ∧ (∀ a ∈ A, compare q (bor a.1) = .gt) ∧
      compare q (bor kv.1) = .eq ∧ (∀ b ∈ B, compare q (bor b.1) = .lt)) ∨
    (m.getMut bor q = .ok none ∧ find? bor q m.toList = none) := by
  rcases Map.search_valid hbo h q with ⟨hd, A, kv, B, h1, h2, h3, h4, h5⟩ | ⟨hd, A, B, h1, h2, h3, h4⟩
  · exact .inl ⟨hd, A, kv, B, by simp [Map.getMut, h1], h2, h3, h4, h5⟩
  · exact .inr ⟨by simp [Map.getMut, h1], by rw [h2.toList]; exact find?_miss h3 h4⟩

theorem Map.getMut_wf [Ord Q] {bor : K → Q} {x : Nat} {m : Map K V} (h : m.Shaped x) (q : Q) :
    (∃ hd A kv B, m.getMut bor q = .ok (some hd) ∧ m.Points hd A kv B) ∨ m.getMut bor q = .ok none := by
  rcases Map.search_wf h bor q with ⟨hd, A, kv, B, h1, h2, h3⟩ | ⟨hd, A, B, h1, h2⟩
  · exact .inl ⟨hd, A, kv, B, by simp [Map.getMut, h1], h2⟩
  · exact .inr (by simp [Map.getMut, h1])

/-- The start of a mutable iteration over the whole map. -/
theorem MutInv.iter {m : Map K V} (h : m.WF) {it : Iter} (hi : m.iter = .ok it) :
    MutInv 0 Iter.range m it [] ⟨m.toList, 0, m.toList.length, []⟩ ∧ it.length = m.toList.length := by
  obtain ⟨it', h1, h2, h3⟩ := Map.iter_spec h
  rw [hi] at h1
  obtain rfl := Exec.ok.inj h1
  exact ⟨⟨h, rfl, Nat.zero_le _, ⟨[], m.toList, [], h3, rfl, by simp⟩, trivial⟩, by have := h.len; simp at this; omega⟩

/-- The start of a mutable iteration over a window. -/
theorem MutInv.range {x : Nat} {m : Map K V} (h : m.Shaped x) {r : Range} {lo mid hi} (w : Window m r lo mid hi) :
    MutInv x id m r [] ⟨m.toList, lo.length, lo.length + mid.length, []⟩ :=
  ⟨h, rfl, by simp, ⟨lo, mid, hi, w, rfl, rfl⟩, trivial⟩

theorem Exec.ok_unique {α : Type} {x : Exec α} {a b : α} (h1 : x = .ok a) (h2 : x = .ok b) : a = b :=
  Exec.ok.inj (h1.symm.trans h2)

theorem Reach.valid [Ord K] [Std.TransOrd K] {m : Map K V} (h : Reach m) : m.Valid := by
  induction h with
  | new => exact Map.Valid_new
  | insert _ he ih =>
    rename_i m m' k v a old a' _
    obtain ⟨r, m1, a1, h1, h2, h3⟩ := Map.tryInsert_ordered ih k v a
    obtain ⟨rfl, rfl, rfl⟩ := by simpa using Exec.ok_unique he h1
    exact h2.1
  | remove hbo _ he ih =>
    rename_i q _ _
    obtain ⟨m1, h1, h2, h3⟩ := Map.removeEntry_ordered hbo ih q
    obtain ⟨rfl, rfl⟩ := by simpa using Exec.ok_unique he h1
    exact h2
  | getMut hbo _ hg hu ih =>
    rename_i q hd f _
    rcases Map.getMut_valid hbo ih q with ⟨hd', A, kv, B, h1, h2, h3, h4, h5⟩ | ⟨h1, _⟩
    · obtain rfl := by simpa using Exec.ok_unique hg h1
      obtain ⟨m1, e1, e2, e3⟩ := Map.occUpdate_wf ih.toShaped h2 f
      obtain rfl := Exec.ok_unique hu e1
      have hs := ih.sorted
      rw [h2.toList] at hs
      exact ⟨e2, by rw [e3]; exact sorted_set hs rfl⟩
    · simpa using Exec.ok_unique hg h1
  | entry _ he ih =>
    rename_i m m' k a r a' _
    obtain ⟨r', m1, a1, h1, h2, _⟩ := Map.tryEntry_ordered ih k a
    obtain ⟨rfl, rfl, rfl⟩ := by simpa using Exec.ok_unique he h1
    exact h2
  | occupied _ he hu ih =>
    rename_i m m1 m' k a hd a1 f _
    obtain ⟨r', m2, a2, h1, h2, h3, h4, h5, _⟩ := Map.tryEntry_ordered ih k a
    obtain ⟨rfl, rfl, rfl⟩ := by simpa using Exec.ok_unique he h1
    obtain ⟨m3, e1, e2, _⟩ := RefAt.update h2 h5.2 f
    obtain rfl := Exec.ok_unique hu e1
    exact e2
  | occupiedRemove _ he hu ih =>
    rename_i m m1 m' k a hd a1 kv _
    obtain ⟨r', m2, a2, h1, h2, h3, h4, h5, _⟩ := Map.tryEntry_ordered ih k a
    obtain ⟨rfl, rfl, rfl⟩ := by simpa using Exec.ok_unique he h1
    obtain ⟨m3, kv', e1, _, e2, _⟩ := RefAt.removeKv h2 h5.2
    obtain ⟨rfl, rfl⟩ := by simpa using Exec.ok_unique hu e1
    exact e2
  | orInsert _ he hi hu ih =>
    rename_i m m1 m2 m' k a e a1 v ref a2 f _
    obtain ⟨r', m3, a3, h1, h2, h3, h4, h5, _⟩ := Map.tryEntry_ordered ih k a
    obtain ⟨rfl, rfl, rfl⟩ := by simpa using Exec.ok_unique he h1
    cases e with
    | occupied hd =>
      obtain ⟨rfl, rfl, rfl⟩ := by simpa [Map.orTryInsert] using hi
      obtain ⟨m3, e1, e2, _⟩ := RefAt.update h2 h5.2 f
      obtain rfl := Exec.ok_unique hu e1
      exact e2
    | vacant k' hd =>
      obtain ⟨r, m4, a4, g1, g2, _⟩ := EntryAt.vacantInsert h2 h5.1 h5.2 v a1
      obtain ⟨rfl, rfl, rfl⟩ := by simpa using Exec.ok_unique hi g1
      obtain ⟨m3, e1, e2, _⟩ := RefAt.update g2.1 g2.2.2.1 f
      obtain rfl := Exec.ok_unique hu e1
      exact e2
  | extend _ he ih =>
    rename_i m m' l a a' _
    rcases Map.extend_spec l ih a with ⟨⟨_, h1⟩, _⟩ | ⟨m1, a1, h1, h2, _⟩
    · rw [he] at h1; simp at h1
    · obtain ⟨rfl, rfl⟩ := by simpa using Exec.ok_unique he h1
      exact h2
  | appendSelf _ _ he ih1 ih2 =>
    rename_i a a' _ _
    rcases Map.append_ordered ih1 ih2 a with ⟨⟨_, h1⟩, _⟩ | ⟨m1, o1, a1, h1, h2, _⟩
    · rw [he] at h1; simp at h1
    · obtain ⟨rfl, rfl, rfl⟩ := by simpa using Exec.ok_unique he h1
      exact h2
  | appendOther _ _ he ih1 ih2 =>
    rename_i a a' _ _
    rcases Map.append_ordered ih1 ih2 a with ⟨⟨_, h1⟩, _⟩ | ⟨m1, o1, a1, h1, _, h2, _⟩
    · rw [he] at h1; simp at h1
    · obtain ⟨rfl, rfl, rfl⟩ := by simpa using Exec.ok_unique he h1
      exact h2
  | splitSelf hbo _ he ih =>
    rename_i q a r m' a' _
    obtain ⟨r', m1, a1, h1, h2, _⟩ := Map.splitOff_ordered hbo ih q a
    obtain ⟨rfl, rfl, rfl⟩ := by simpa using Exec.ok_unique he h1
    cases r with
    | error => rw [show m' = _ from h2]; exact ih
    | ok right =>
      obtain ⟨⟨x1, x2, hx, g1, g2⟩, _⟩ := h2
      obtain rfl : x1 = 0 := by omega
      exact g1
  | splitRight hbo _ he ih =>
    rename_i q a r m' a' _
    obtain ⟨r', m1, a1, h1, h2, _⟩ := Map.splitOff_ordered hbo ih q a
    obtain ⟨rfl, rfl, rfl⟩ := by simpa using Exec.ok_unique he h1
    obtain ⟨⟨x1, x2, hx, g1, g2⟩, _⟩ := h2
    obtain rfl : x2 = 0 := by omega
    exact g2
  | clone hck _ he ih =>
    rename_i m ck cv a c a' _
    obtain ⟨r, a1, h1, h2, _⟩ := Map.tryClone_wf ck cv ih.toShaped a
    obtain ⟨rfl, rfl⟩ := by simpa using Exec.ok_unique he h1
    obtain ⟨g1, g2⟩ := h2 _ rfl
    refine ⟨g1, (g2.mono ?_).sorted ih.sorted⟩
    rintro x y ⟨⟨a, a', h⟩, _⟩
    exact hck _ _ _ _ h
  | iterMut _ hi hr ih =>
    rename_i m it as xs m' refs _
    obtain ⟨h1, h2⟩ := MutInv.iter ih.toShaped hi
    obtain ⟨m1, refs1, g1, g2, g3, _⟩ := mutRun_spec Iter.stepOK as h1 (by simpa using h2)
    obtain ⟨_, rfl, rfl⟩ := by simpa using Exec.ok_unique hr g1
    exact ⟨g2, Sorted.of_keys (by rw [g3, Cursor.acts_keys]) ih.sorted⟩
  | rangeMut hbo _ hi hr ih =>
    rename_i s e r as xs m' refs _
    rcases Map.range_ordered hbo ih s e with ⟨_, msg, h1⟩ | ⟨_, r', lo, hh, h1, w⟩
    · rw [hi] at h1; simp at h1
    · obtain rfl := Exec.ok_unique hi h1
      obtain ⟨m1, refs1, g1, g2, g3, _⟩ := mutRun_spec Range.stepOK as (MutInv.range ih.toShaped w) trivial
      obtain ⟨_, rfl, rfl⟩ := by simpa using Exec.ok_unique hr g1
      exact ⟨g2, Sorted.of_keys (by rw [g3, Cursor.acts_keys]) ih.sorted⟩

theorem ReachAny.wf {m : Map K V} (h : ReachAny m) : m.WF := by
  induction h with
  | new => exact Map.WF_new
  | insert _ he ih =>
    rename_i m m' k v a old a' _
    obtain ⟨r, m1, a1, h1, h2, h3⟩ := Map.tryInsert_wf ih k v a
    obtain ⟨rfl, rfl, rfl⟩ := by simpa using Exec.ok_unique he h1
    exact h2.1
  | remove _ he ih =>
    rename_i bor m m' q r _
    obtain ⟨r1, m1, h1, h2, h3⟩ := Map.removeEntry_wf ih bor q
    obtain ⟨rfl, rfl⟩ := by simpa using Exec.ok_unique he h1
    exact h2
  | getMut _ hg hu ih =>
    rename_i bor m m' q hd f _
    rcases Map.getMut_wf ih (bor := bor) q with ⟨hd', A, kv, B, h1, h2⟩ | h1
    · obtain rfl := by simpa using Exec.ok_unique hg h1
      obtain ⟨m1, e1, e2, e3⟩ := Map.occUpdate_wf ih h2 f
      obtain rfl := Exec.ok_unique hu e1
      exact e2
    · simpa using Exec.ok_unique hg h1
  | entry _ he ih =>
    rename_i m m' k a r a' _
    obtain ⟨r', m1, a1, h1, h2, _⟩ := Map.tryEntry_wf ih k a
    obtain ⟨rfl, rfl, rfl⟩ := by simpa using Exec.ok_unique he h1
    exact h2
  | occupied _ he hu ih =>
    rename_i m m1 m' k a hd a1 f _
    obtain ⟨r', m2, a2, h1, h2, h3, h4, h5, _⟩ := Map.tryEntry_wf ih k a
    obtain ⟨rfl, rfl, rfl⟩ := by simpa using Exec.ok_unique he h1
    obtain ⟨_, A, kv, B, h5, _⟩ := h5
    obtain ⟨m3, e1, e2, _⟩ := Map.occUpdate_wf h2 h5 f
    obtain rfl := Exec.ok_unique hu e1
    exact e2
  | occupiedRemove _ he hu ih =>
    rename_i m m1 m' k a hd a1 kv _
    obtain ⟨r', m2, a2, h1, h2, h3, h4, h5, _⟩ := Map.tryEntry_wf ih k a
    obtain ⟨rfl, rfl, rfl⟩ := by simpa using Exec.ok_unique he h1
    obtain ⟨_, A, kv, B, h5, _⟩ := h5
    obtain ⟨m3, e1, e2, _⟩ := Map.removeKv_spec h2 h5
    obtain ⟨rfl, rfl⟩ := by simpa using Exec.ok_unique hu e1
    exact e2
  | orInsert _ he hi hu ih =>
    rename_i m m1 m2 m' k a e a1 v ref a2 f _
    obtain ⟨r', m3, a3, h1, h2, h3, h4, h5, _⟩ := Map.tryEntry_wf ih k a
    obtain ⟨rfl, rfl, rfl⟩ := by simpa using Exec.ok_unique he h1
    cases e with
    | occupied hd =>
      obtain ⟨rfl, rfl, rfl⟩ := by simpa [Map.orTryInsert] using hi
      obtain ⟨_, A, kv, B, h5, _⟩ := h5
      obtain ⟨m3, e1, e2, _⟩ := Map.occUpdate_wf h2 h5 f
      obtain rfl := Exec.ok_unique hu e1
      exact e2
    | vacant k' hd =>
      obtain ⟨hsh, rfl, A, B, h5⟩ := h5
      obtain ⟨r, m4, a4, g1, _, _, g2, _⟩ := Map.vacantInsert_spec h2 hsh h5 k' v a1
      obtain ⟨rfl, rfl, rfl⟩ := by simpa using Exec.ok_unique hi g1
      obtain ⟨m3, e1, e2, _⟩ := Map.occUpdate_wf g2.1 g2.2 f
      obtain rfl := Exec.ok_unique hu e1
      exact e2
  | extend _ he ih =>
    rename_i m m' l a a' _
    rcases Map.extend_wf l ih a with ⟨⟨_, h1⟩, _⟩ | ⟨m1, a1, h1, h2, _⟩
    · rw [he] at h1; simp at h1
    · obtain ⟨rfl, rfl⟩ := by simpa using Exec.ok_unique he h1
      exact h2
  | appendSelf _ _ he ih1 ih2 =>
    rename_i a a' _ _
    rcases Map.append_wf ih1 ih2 a with ⟨⟨_, h1⟩, _⟩ | ⟨m1, o1, a1, h1, h2, _⟩
    · rw [he] at h1; simp at h1
    · obtain ⟨rfl, rfl, rfl⟩ := by simpa using Exec.ok_unique he h1
      exact h2
  | appendOther _ _ he ih1 ih2 =>
    rename_i a a' _ _
    rcases Map.append_wf ih1 ih2 a with ⟨⟨_, h1⟩, _⟩ | ⟨m1, o1, a1, h1, _, h2, _⟩
    · rw [he] at h1; simp at h1
    · obtain ⟨rfl, rfl, rfl⟩ := by simpa using Exec.ok_unique he h1
      exact h2
  | splitSelf _ he ih =>
    rename_i bor m q a r m' a' _
    obtain ⟨r', m1, a1, h1, h2, _⟩ := Map.splitOff_wf ih bor q a
    obtain ⟨rfl, rfl, rfl⟩ := by simpa using Exec.ok_unique he h1
    cases r with
    | error => rw [show m' = _ from h2]; exact ih
    | ok right =>
      obtain ⟨⟨x1, x2, hx, g1, g2⟩, _⟩ := h2
      obtain rfl : x1 = 0 := by omega
      exact g1
  | splitRight _ he ih =>
    rename_i bor m q a r m' a' _
    obtain ⟨r', m1, a1, h1, h2, _⟩ := Map.splitOff_wf ih bor q a
    obtain ⟨rfl, rfl, rfl⟩ := by simpa using Exec.ok_unique he h1
    obtain ⟨⟨x1, x2, hx, g1, g2⟩, _⟩ := h2
    obtain rfl : x2 = 0 := by omega
    exact g2
  | clone _ he ih =>
    rename_i m ck cv a c a' _
    obtain ⟨r, a1, h1, h2, _⟩ := Map.tryClone_wf ck cv ih a
    obtain ⟨rfl, rfl⟩ := by simpa using Exec.ok_unique he h1
    exact (h2 _ rfl).1
  | iterMut _ hi hr ih =>
    rename_i m it as xs m' refs _
    obtain ⟨h1, h2⟩ := MutInv.iter ih hi
    obtain ⟨m1, refs1, g1, g2, g3, _⟩ := mutRun_spec Iter.stepOK as h1 (by simpa using h2)
    obtain ⟨_, rfl, rfl⟩ := by simpa using Exec.ok_unique hr g1
    exact g2
  | rangeMut _ hi hr ih =>
    rename_i bor m s e r as xs m' refs _
    rcases Map.range_wf ih bor s e with ⟨msg, h1⟩ | ⟨_, r', lo, mid, hh, h1, w⟩
    · rw [hi] at h1; simp at h1
    · obtain rfl := Exec.ok_unique hi h1
      obtain ⟨m1, refs1, g1, g2, g3, _⟩ := mutRun_spec Range.stepOK as (MutInv.range ih w) trivial
      obtain ⟨_, rfl, rfl⟩ := by simpa using Exec.ok_unique hr g1
      exact g2

end Verif.BTree
