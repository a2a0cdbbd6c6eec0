import Verif.BTree.Proofs.MapOps
/-
`Recover::replace`: overwriting a stored key by an equal one.
-/
namespace Verif.BTree
open Verif Verif.Spec

variable {K V Q : Type}

theorem Map.setKey_spec {x : Nat} {m : Map K V} (h : m.Shaped x) {hd A kv B} (hp : m.Points hd A kv B) (k : K) :
    ∃ m', m.setKey hd k = .ok (m', kv.1) ∧ m'.Shaped x ∧ m'.Points hd A (k, kv.2) B ∧ m'.length = m.length ∧
      m'.height = m.height ∧ m'.shared = m.shared := by
  obtain ⟨t', h1, h2, h3, h4⟩ := KvAt.replaceKv hp (k, kv.2)
  have hp' : ({ m with root := t' } : Map K V).Points hd A (k, kv.2) B := h2
  refine ⟨{ m with root := t' }, by simp [Map.setKey, hp.kvAt, h1], ⟨?_, ?_, ?_, h.tidy⟩, hp', rfl, rfl, rfl⟩
  · obtain ⟨s1, s2, s3⟩ := h.shape
    exact ⟨by simpa [h3] using s1, by simpa [h3] using s2, h4 s3⟩
  · have e1 := h.len; rw [hp.toList] at e1; rw [hp'.toList]; simpa using e1
  · intro hs
    obtain ⟨e1, e2⟩ := h.shared hs
    have := hp.toList
    simp [Map.toList, e1, e2, emptyLeaf] at this

/-- Whatever the `Ord`. -/
theorem Map.replaceKey_wf [Ord K] {z : Nat} {m : Map K V} (h : m.Shaped z) (x : K) (v : V) (a : Alloc) :
    ∃ r m' a', m.replaceKey x v a = .ok (r, m', a') ∧ (∀ old, r = .ok old → m'.Shaped z) ∧ ∃ y, m'.Shaped y := by
  obtain ⟨r0, m1, a1, e1, e2, e3, e4, e5, e6, e7⟩ := Map.ensureRoot_spec h a
  simp only [Map.replaceKey, e1]
  cases r0 with
  | error e => exact ⟨.error e, m1, a1, by simp, by simp, z, e2⟩
  | ok _ =>
    rcases Map.search_wf e2 id x with ⟨hd, A, kv, B, h1, h2, h3⟩ | ⟨hd, A, B, h1, h2⟩
    · obtain ⟨m2, g1, g2, g3⟩ := Map.setKey_spec e2 h2 x
      exact ⟨.ok (some kv.1), m2, a1, by simp [h1, g1], fun _ _ => g2, z, g2⟩
    · obtain ⟨r, m2, a2, g1, g2, g3, g4, g5⟩ := Map.vacantInsert_spec e2 (e5 rfl) h2 x v a1
      refine ⟨r.map (fun _ => none), m2, a2, ?_, ?_, ?_⟩
      · simp only [h1, g1, Exec.ok_bind]
        cases r <;> rfl
      · intro old ho
        cases r with
        | error e => simp [Except.map] at ho
        | ok loc => exact g4.1
      · cases r with
        | error e => exact ⟨_, g4.1.choose_spec.2⟩
        | ok loc => exact ⟨z, g4.1⟩

/-- Replacing the stored key by an equal one. -/
theorem Map.replaceKey_ordered [Ord K] [Std.TransOrd K] {z : Nat} {m : Map K V} (h : m.Ordered z) (x : K) (v : V) (a : Alloc) :
    ∃ r m' a', m.replaceKey x v a = .ok (r, m', a') ∧
      (∀ old, r = .ok old → m'.Ordered z ∧
        ((old = none ∧ find? id x m.toList = none ∧ m'.toList = Spec.insert x v m.toList) ∨
         ∃ A y w B, old = some y ∧ compare x y = .eq ∧ m.toList = A ++ (y, w) :: B ∧ m'.toList = A ++ (x, w) :: B ∧
           find? id x m.toList = some (y, w))) ∧
      (∀ e, r = .error e → find? id x m.toList = none ∧ Torn 5 m.toList (Spec.insert x v m.toList) m'.toList ∧ ∃ y, m'.Ordered y) ∧
      (a.Good → a'.Good ∧ ∃ old, r = .ok old) := by
  obtain ⟨r0, m1, a1, e1, e2, e3, e4, e5, e6, e7⟩ := Map.ensureRoot_spec h.toShaped a
  simp only [Map.replaceKey, e1]
  cases r0 with
  | error e =>
    refine ⟨.error e, m1, a1, by simp, by simp, fun _ _ => ?_, fun hg => ?_⟩
    · obtain rfl := e6 e rfl
      have hn : m1.toList = [] := by
        cases hs : m1.shared with
        | false => simp [Map.ensureRootIsOwned, hs] at e1
        | true =>
          obtain ⟨f1, f2⟩ := h.shared hs
          simp [Map.toList, f1, f2, emptyLeaf]
      exact ⟨by simp [hn, find?], .inl rfl, z, h⟩
    · have := (e7 hg).1
      simp at this
  | ok _ =>
    have hv1 : m1.Ordered z := ⟨e2, by rw [e3]; exact h.sorted⟩
    rcases Map.search_valid borrowOK_id hv1 x with ⟨hd, A, kv, B, h1, h2, h3, h4, h5⟩ | ⟨hd, A, B, h1, h2, h3, h4⟩
    · obtain ⟨m2, g1, g2, g3, g4⟩ := Map.setKey_spec e2 h2 x
      refine ⟨.ok (some kv.1), m2, a1, by simp [h1, g1], ?_, by simp, fun hg => ⟨(e7 hg).2, _, rfl⟩⟩
      rintro old ⟨⟩
      have hl : m2.toList = A ++ (x, kv.2) :: B := g3.toList
      have hl1 : m1.toList = A ++ kv :: B := h2.toList
      refine ⟨⟨g2, ?_⟩, .inr ⟨A, kv.1, kv.2, B, rfl, h4, ?_, hl, ?_⟩⟩
      · rw [hl]
        have hs := hv1.sorted
        rw [hl1] at hs
        obtain ⟨q1, q2, q3⟩ := Sorted.append_iff.1 hs
        obtain ⟨q4, q5⟩ := List.pairwise_cons.1 q2
        refine Sorted.append_iff.2 ⟨q1, List.pairwise_cons.2 ⟨fun b hb => h5 b hb, q5⟩, fun a ha b hb => ?_⟩
        rcases List.mem_cons.1 hb with rfl | hb
        · exact Std.OrientedCmp.gt_iff_lt.1 (h3 a ha)
        · exact q3 a ha b (by simp [hb])
      · rw [← e3, hl1]
      · rw [← e3, hl1]; exact find?_hit h3 h4
    · obtain ⟨r, m2, a2, g1, g2, g3, g4, g5⟩ := Map.vacantInsert_spec hv1.toShaped (e5 rfl) h2 x v a1
      refine ⟨r.map (fun _ => none), m2, a2, ?_, ?_, fun e he => ?_, fun hg => ?_⟩
      · simp only [h1, g1, Exec.ok_bind]
        cases r <;> rfl
      · intro old ho
        cases r with
        | error e => simp [Except.map] at ho
        | ok loc =>
          simp [Except.map] at ho
          subst ho
          have hl : m2.toList = A ++ (x, v) :: B := g4.2.toList
          have hl1 : m1.toList = A ++ B := h2.toList
          have hs := hv1.sorted
          rw [hl1] at hs
          refine ⟨⟨g4.1, by rw [hl]; exact sorted_insert hs h3 h4⟩, .inl ⟨rfl, ?_, ?_⟩⟩
          · rw [← e3, hl1]; exact find?_miss h3 h4
          · rw [← e3, hl1, hl]; exact (insert_miss h3 h4).symm
      · have hl1 : m1.toList = A ++ B := h2.toList
        have hs := hv1.sorted
        rw [hl1] at hs
        cases r with
        | ok loc => simp [Except.map] at he
        | error e =>
          obtain ⟨⟨y, _, g6⟩, g7⟩ := g4
          refine ⟨by rw [← e3, hl1]; exact find?_miss h3 h4, by rw [← e3, hl1, insert_miss h3 h4, ← hl1]; exact g7, y, g6, ?_⟩
          exact (sorted_insert hs h3 h4).sublist (g7.sublist (by rw [hl1]; simp))
      · obtain ⟨k1, k2, k3⟩ := g5 (e7 hg).2
        exact ⟨k1, none, by rw [k3]; rfl⟩

end Verif.BTree
