import Verif.BTree.Proofs.Mut
/-
Entries, references to values, `extend`, comparison of maps.
-/
namespace Verif.BTree
open Verif Verif.Spec

variable {K V Q : Type}

/-- A handle designates the pair whose key equals `k`. -/
abbrev RefAt [Ord K] (m : Map K V) (k : K) (hd : Handle) : Prop := EntryAt m k (.occupied hd)

section
variable [Ord K] [Std.TransOrd K]

theorem RefAt.kvAt {m : Map K V} {k : K} {hd} (h : RefAt m k hd) :
    ∃ kv, m.kvAt hd = .ok kv ∧ find? id k m.toList = some kv := by
  obtain ⟨A, kv, B, h1, h2, h3, h4⟩ := h
  exact ⟨kv, h1.kvAt, by rw [h1.toList]; exact find?_hit h2 h3⟩

theorem RefAt.setVal {lo rt x : Nat} {m : Map K V} (ho : m.OrderedN lo rt x) {k : K} {hd} (h : RefAt m k hd) (v : V) :
    ∃ m' old, m.setVal hd v = .ok (m', old) ∧ lookup id k m.toList = some old ∧ m'.OrderedN lo rt x ∧
      m'.toList = Spec.modify id k (fun _ => v) m.toList ∧ m'.length = m.length ∧ m'.shared = m.shared ∧ RefAt m' k hd := by
  obtain ⟨A, kv, B, h1, h2, h3, h4⟩ := h
  obtain ⟨m', e1, e2, e3, e4, e5, e6⟩ := Map.setVal_spec ho.toShaped h1 v
  have hs := ho.sorted
  rw [h1.toList] at hs
  refine ⟨m', kv.2, e1, ?_, ⟨e2, ?_⟩, ?_, e4, e6, A, (kv.1, v), B, e3, h2, h3, h4⟩
  · rw [h1.toList, lookup, find?_hit h2 h3]; rfl
  · rw [e3.toList]; exact sorted_set hs rfl
  · rw [e3.toList, h1.toList, modify_hit h2 h3 h4]

theorem RefAt.update {lo rt x : Nat} {m : Map K V} (ho : m.OrderedN lo rt x) {k : K} {hd} (h : RefAt m k hd) (f : V → V) :
    ∃ m', m.occUpdate hd f = .ok m' ∧ m'.OrderedN lo rt x ∧ m'.shared = m.shared ∧
      m'.toList = Spec.modify id k f m.toList ∧ m'.length = m.length ∧ RefAt m' k hd := by
  obtain ⟨A, kv, B, h1, h2, h3, h4⟩ := h
  obtain ⟨m', old, e1, e2, e3, e4, e5, e6, e7⟩ := RefAt.setVal ho ⟨A, kv, B, h1, h2, h3, h4⟩ (f kv.2)
  refine ⟨m', by simp [Map.occUpdate, h1.kvAt, e1], e3, e6, ?_, e5, e7⟩
  rw [e4, h1.toList, modify_hit (f := fun _ => f kv.2) h2 h3 h4, modify_hit (f := f) h2 h3 h4]

theorem RefAt.removeKv {x : Nat} {m : Map K V} (ho : m.Ordered x) {k : K} {hd} (h : RefAt m k hd) :
    ∃ m' kv, m.removeKv hd = .ok (kv, m') ∧ find? id k m.toList = some kv ∧ m'.Ordered x ∧
      m'.toList = erase id k m.toList := by
  obtain ⟨A, kv, B, h1, h2, h3, h4⟩ := h
  obtain ⟨m', g1, g2, g3, g4⟩ := Map.removeKv_spec ho.toShaped h1
  have hs := ho.sorted
  rw [h1.toList] at hs
  exact ⟨m', kv, g1, by rw [h1.toList]; exact find?_hit h2 h3, ⟨g2, by rw [g3]; exact sorted_remove hs⟩,
    by rw [g3, h1.toList, erase_hit h2 h3 h4]⟩

theorem EntryAt.find {m : Map K V} {k k' : K} {hd} (h : EntryAt m k (.vacant k' hd)) : find? id k m.toList = none := by
  obtain ⟨rfl, A, B, h1, h2, h3⟩ := h
  rw [h1.toList]; exact find?_miss h2 h3

/-- `VacantEntry::try_insert`. -/
theorem EntryAt.vacantInsert {lo rt x : Nat} {m : Map K V} (ho : m.OrderedN lo rt x) (hsh : m.shared = false) {k k' : K} {hd}
    (h : EntryAt m k (.vacant k' hd)) (v : V) (a : Alloc) (hf : lo ≤ 4 ∧ rt ≤ 1 := by decide) :
    ∃ r m' a', m.vacantInsert hd k' v a = .ok (r, m', a') ∧
      (match r with
       | .ok loc => m'.OrderedN lo rt x ∧ m'.toList = Spec.insert k v m.toList ∧ RefAt m' k loc ∧ m'.kvAt loc = .ok (k, v) ∧
           m'.length = m.length + 1 ∧ m'.shared = false
       | .error _ => Torn (lo + 1) m.toList (Spec.insert k v m.toList) m'.toList ∧ m'.length = m.length + 1 ∧
           ∃ x', x < x' ∧ m'.OrderedN lo rt x') ∧
      (a.Good → a'.Good ∧ ∃ o, r = .ok o) := by
  obtain ⟨rfl, A, B, h1, h2, h3⟩ := h
  obtain ⟨r, m', a', k1, k2, k3, k4, k5⟩ := Map.vacantInsert_spec ho.toShaped hsh h1 k' v a hf
  have hs := ho.sorted
  rw [h1.toList] at hs
  have hs' := sorted_insert (v := v) hs h2 h3
  have hin : Spec.insert k' v m.toList = A ++ (k', v) :: B := by rw [h1.toList, insert_miss h2 h3]
  refine ⟨r, m', a', k1, ?_, k5⟩
  cases r with
  | ok loc =>
    obtain ⟨e1, e2⟩ := k4
    exact ⟨⟨e1, by rw [e2.toList]; exact hs'⟩, by rw [e2.toList, hin],
      ⟨A, (k', v), B, e2, h2, Std.ReflCmp.compare_self, h3⟩, e2.kvAt, k3, k2⟩
  | error e =>
    obtain ⟨⟨x', e1, e2⟩, e3⟩ := k4
    exact ⟨by rw [hin]; exact e3, k3, x', e1, e2, List.Pairwise.sublist (e3.sublist (by rw [h1.toList]; simp)) hs'⟩

/-! ### extend -/

theorem Map.extend_spec {lo rt x : Nat} (l : List (K × V)) {m : Map K V} (h : m.OrderedN lo rt x) (a : Alloc) (hf : lo ≤ 4 ∧ rt ≤ 1 := by decide) :
    ((∃ msg, m.extend l a = .panic msg) ∧ ¬ a.Good) ∨
    ∃ m' a', m.extend l a = .ok (m', a') ∧ m'.OrderedN lo rt x ∧ (a.Good → a'.Good) ∧
      m'.toList = l.foldl (fun acc kv => Spec.insert kv.1 kv.2 acc) m.toList := by
  induction l generalizing m a with
  | nil => exact .inr ⟨m, a, rfl, h, id, rfl⟩
  | cons kv l ih =>
    obtain ⟨k, v⟩ := kv
    obtain ⟨r, m', a', h1, h2, h3⟩ := Map.tryInsert_ordered h k v a hf
    simp only [Map.extend, h1, Exec.ok_bind]
    cases r with
    | error e => exact .inl ⟨⟨_, rfl⟩, fun hg => by simpa using (h3 hg).2⟩
    | ok old =>
      obtain ⟨g1, g2, g3⟩ := h2
      rcases ih g1 a' with ⟨i1, i2⟩ | ⟨m2, a2, i1, i2, i3, i4⟩
      · exact .inl ⟨i1, fun hg => i2 (h3 hg).1⟩
      · exact .inr ⟨m2, a2, i1, i2, fun hg => i3 (h3 hg).1, by rw [i4, g2]; rfl⟩

end

theorem Map.extend_wf [Ord K] {lo rt x : Nat} (l : List (K × V)) {m : Map K V} (h : m.ShapedN lo rt x) (a : Alloc) (hf : lo ≤ 4 ∧ rt ≤ 1 := by decide) :
    ((∃ msg, m.extend l a = .panic msg) ∧ ¬ a.Good) ∨
    ∃ m' a', m.extend l a = .ok (m', a') ∧ m'.ShapedN lo rt x ∧ (a.Good → a'.Good) := by
  induction l generalizing m a with
  | nil => exact .inr ⟨m, a, rfl, h, id⟩
  | cons kv l ih =>
    obtain ⟨k, v⟩ := kv
    obtain ⟨r, m', a', h1, h2, h3⟩ := Map.tryInsert_wf h k v a hf
    simp only [Map.extend, h1, Exec.ok_bind]
    cases r with
    | error e => exact .inl ⟨⟨_, rfl⟩, fun hg => by simpa using (h3 hg).2⟩
    | ok old =>
      rcases ih h2.1 a' with ⟨i1, i2⟩ | ⟨m2, a2, i1, i2, i3⟩
      · exact .inl ⟨i1, fun hg => i2 (h3 hg).1⟩
      · exact .inr ⟨m2, a2, i1, i2, fun hg => i3 (h3 hg).1⟩

/-- Any well-shaped pair position can be removed / written; the entry API with an arbitrary order. -/
theorem Map.occUpdate_wf {lo rt x : Nat} {m : Map K V} (h : m.ShapedN lo rt x) {hd A kv B} (hp : m.Points hd A kv B) (f : V → V) :
    ∃ m', m.occUpdate hd f = .ok m' ∧ m'.ShapedN lo rt x ∧ m'.toList = A ++ (kv.1, f kv.2) :: B := by
  obtain ⟨m', e1, e2, e3, e4, e5, e6⟩ := Map.setVal_spec h hp (f kv.2)
  exact ⟨m', by simp [Map.occUpdate, hp.kvAt, e1], e2, e3.toList⟩

end Verif.BTree
