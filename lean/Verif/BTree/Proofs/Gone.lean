import Verif.BTree.Proofs.MapOps
/-
What a failed insertion takes away: one stretch of the map with the pair inserted.
-/
namespace Verif.BTree
open Verif Verif.Spec

variable {K V : Type}

/-- The pairs `g` takes away are one stretch of `full`, and the rest is `l'`: without a half only the pair of the call is gone. -/
def Gone.Cuts (lo : Nat) (g : Gone K V) (kv : K × V) (full l' : List (K × V)) : Prop :=
  ∃ P S, full = P ++ (g.list ++ S) ∧ l' = P ++ S ∧
    match g.half with
    | none => g.pair = kv
    | some r => InnerN lo r.1 r.2

theorem Map.vacantGone_spec {lo rt x : Nat} {m : Map K V} (h : m.ShapedN lo rt x) (hsh : m.shared = false) {hd A B} (hg : m.Gap hd A B)
    {k : K} {v : V} {a : Alloc} {e m' a'} (hop : m.vacantInsert hd k v a = .ok (.error e, m', a')) (hf : lo ≤ 4 := by decide) :
    ∃ g, m.vacantGone hd k v a = some g ∧ g.Cuts lo (k, v) (A ++ (k, v) :: B) m'.toList := by
  obtain ⟨s1, s2, s3⟩ := h.shape
  obtain ⟨r, a1, h1, h2, h3⟩ := insertRec_spec hg (k, v) a s3 s1 hf
  simp only [Map.vacantInsert, h1, Exec.ok_bind] at hop
  simp only [Map.vacantGone, h1]
  cases r with
  | fit t loc => simp at hop
  | oom t gone =>
    simp only [Exec.ok.injEq, Prod.mk.injEq] at hop
    obtain ⟨_, rfl, _⟩ := hop
    obtain ⟨_, _, P, S, g1, g2, g3⟩ := h2
    refine ⟨gone, rfl, P, S, g1, g2, ?_⟩
    cases hh : gone.half with
    | none => rw [hh] at g3; exact g3.1
    | some r => rw [hh] at g3; exact g3
  | split l mid r inRight loc =>
    have htl := InsertSpecN.split_toList h2
    obtain ⟨g1, g2, g4, _, g3⟩ := h2
    have hpush : Tree.pushInternal ⟨[], [l]⟩ mid r = .ok ⟨[mid], [l, r]⟩ := by simp [Tree.pushInternal, Tree.len]
    cases hr : a1.request.1 with
    | true => simp [hsh, hr, hpush] at hop
    | false =>
      simp [hsh, hr] at hop
      obtain ⟨_, rfl, _⟩ := hop
      refine ⟨⟨mid, some (m.height, r)⟩, by simp [hr], BTree.toList m.height l, [], ?_, ?_, g2⟩
      · rw [← htl]; simp [Gone.list]
      · simp [Map.toList]

/-- What a failed `try_insert` takes away, whatever the allocator grants. -/
theorem Map.insertGone_spec [Ord K] [Std.TransOrd K] {lo rt x : Nat} {m : Map K V} (h : m.OrderedN lo rt x) {k : K} {v : V}
    {a : Alloc} {e m' a'} (hop : m.tryInsert k v a = .ok (.error e, m', a')) (hf : lo ≤ 4 := by decide) :
    ∃ g, m.insertGone k v a = some g ∧ g.Cuts lo (k, v) (Spec.insert k v m.toList) m'.toList := by
  obtain ⟨r, m1, a1, h1, h2, h3, h4, h5, h6⟩ := Map.tryEntry_ordered h k a
  simp only [Map.tryInsert, h1, Exec.ok_bind] at hop
  simp only [Map.insertGone, h1]
  cases r with
  | error e =>
    simp only [Exec.ok.injEq, Prod.mk.injEq] at hop
    obtain ⟨_, rfl, _⟩ := hop
    refine ⟨_, rfl, [], [], ?_, ?_, rfl⟩
    · rw [h5.2]; rfl
    · rw [h5.1, h5.2]; rfl
  | ok en =>
    cases en with
    | occupied hd =>
      obtain ⟨⟨m3, o⟩, e1, e2⟩ := Exec.bind_eq_ok.1 hop
      simp at e2
    | vacant k' hd =>
      obtain ⟨⟨r, m3, a3⟩, e1, e2⟩ := Exec.bind_eq_ok.1 hop
      obtain ⟨hsh, rfl, A, B, g1, g2, g3⟩ := h5
      cases r with
      | ok => simp at e2
      | error er =>
        simp only [Exec.ok.injEq, Prod.mk.injEq] at e2
        obtain ⟨_, rfl, _⟩ := e2
        have hin : Spec.insert k' v m.toList = A ++ (k', v) :: B := by
          rw [← h3, g1.toList, insert_miss g2 g3]
        rw [hin]
        exact Map.vacantGone_spec h2.toShaped hsh g1 e1 hf

/-- With any `Ord`: the pairs that are gone are one stretch of the entries with the pair put somewhere among them. -/
theorem Map.insertGone_wf [Ord K] {lo rt x : Nat} {m : Map K V} (h : m.ShapedN lo rt x) {k : K} {v : V}
    {a : Alloc} {e m' a'} (hop : m.tryInsert k v a = .ok (.error e, m', a')) (hf : lo ≤ 4 := by decide) :
    ∃ g, m.insertGone k v a = some g ∧ ((m' = m ∧ g = ⟨(k, v), none⟩) ∨
      ∃ A B, m.toList = A ++ B ∧ g.Cuts lo (k, v) (A ++ (k, v) :: B) m'.toList) := by
  obtain ⟨r, m1, a1, h1, h2, h3, h4, h5, h6⟩ := Map.tryEntry_wf h k a
  simp only [Map.tryInsert, h1, Exec.ok_bind] at hop
  simp only [Map.insertGone, h1]
  cases r with
  | error e =>
    simp only [Exec.ok.injEq, Prod.mk.injEq] at hop
    obtain ⟨_, rfl, _⟩ := hop
    exact ⟨_, rfl, .inl ⟨h5, rfl⟩⟩
  | ok en =>
    cases en with
    | occupied hd =>
      obtain ⟨⟨m3, o⟩, e1, e2⟩ := Exec.bind_eq_ok.1 hop
      simp at e2
    | vacant k' hd =>
      obtain ⟨⟨r, m3, a3⟩, e1, e2⟩ := Exec.bind_eq_ok.1 hop
      obtain ⟨hsh, rfl, A, B, g1⟩ := h5
      cases r with
      | ok => simp at e2
      | error er =>
        simp only [Exec.ok.injEq, Prod.mk.injEq] at e2
        obtain ⟨_, rfl, _⟩ := e2
        obtain ⟨g, e3, e4⟩ := Map.vacantGone_spec h2 hsh g1 e1 hf
        exact ⟨g, e3, .inr ⟨A, B, by rw [← h3, g1.toList], e4⟩⟩

end Verif.BTree
