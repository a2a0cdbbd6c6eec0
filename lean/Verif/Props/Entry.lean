import Verif.Props.Map
/-
The entry API (C17, C18).
-/
namespace Verif.Props
open Verif Verif.BTree Verif.Spec

variable {K V : Type}

/-- **C17** (obtaining) `try_entry(k)` changes nothing observable; the entry is occupied iff `k` is present, and its key is
the stored key, respectively `k`. -/
theorem C17_try_entry [Ord K] [Std.TransOrd K] {m m₁ : Map K V} {k a r a₁} (h : Reach m)
    (he : m.tryEntry k a = .ok (r, m₁, a₁)) :
    m₁.toListE = m.toListE ∧ m₁.len = m.len ∧ Reach m₁ ∧
    (match r with
     | .error _ => m.isEmpty = true
     | .ok (.occupied hd) => ∃ k₀ v₀, m.getKeyValue id k = .ok (some (k₀, v₀)) ∧ m₁.entryKey (.occupied hd) = .ok k₀
     | .ok (.vacant k' hd) => m.getKeyValue id k = .ok none ∧ m₁.entryKey (.vacant k' hd) = .ok k) := by
  have hv := h.valid
  obtain ⟨r', m2, a2, h1, h2, h3, h4, h5, _⟩ := Map.tryEntry_ordered hv k a
  obtain ⟨rfl, rfl, rfl⟩ := by simpa using Exec.ok_unique he h1
  refine ⟨by rw [Map.toListE_spec h2.toShaped, Map.toListE_spec hv.toShaped, h3], h4, .entry h he, ?_⟩
  cases r with
  | error e =>
    have := hv.len
    simp [Map.isEmpty, Map.len, this, h5.2]
  | ok e =>
    cases e with
    | occupied hd =>
      obtain ⟨kv, e1, e2⟩ := RefAt.kvAt h5.2
      refine ⟨kv.1, kv.2, ?_, by simp [Map.entryKey, e1]⟩
      rw [Map.getKeyValue_spec borrowOK_id hv, ← h3, e2]
    | vacant k' hd =>
      have e1 := EntryAt.find h5.2
      refine ⟨by rw [Map.getKeyValue_spec borrowOK_id hv, ← h3, e1], ?_⟩
      simp [Map.entryKey, h5.2.1]

example : ∃ hd m₁ a₁, demo.tryEntry 12 allOk = .ok (.ok (.occupied hd), m₁, a₁) := ⟨_, _, _, rfl⟩
example : ∃ hd m₁ a₁, demo.tryEntry 13 allOk = .ok (.ok (.vacant 13 hd), m₁, a₁) := ⟨_, _, _, rfl⟩

/-- **C17** (`or_try_insert`) If `k` was present nothing changes and the reference designates its value; otherwise the
default is inserted and the reference designates it.  Writing through the reference changes exactly that value. -/
theorem C17_or_try_insert [Ord K] [Std.TransOrd K] {m m₁ m₂ : Map K V} {k a e a₁ d ref a₂ l} (h : Reach m)
    (hl : m.toListE = .ok l) (he : m.tryEntry k a = .ok (.ok e, m₁, a₁))
    (hi : m₁.orTryInsert e d a₁ = .ok (.ok ref, m₂, a₂)) :
    (∀ k₀ v₀, m.getKeyValue id k = .ok (some (k₀, v₀)) → m₂.toListE = .ok l ∧ m₂.len = m.len ∧ m₂.kvAt ref = .ok (k₀, v₀)) ∧
    (m.getKeyValue id k = .ok none → m₂.toListE = .ok (Spec.insert k d l) ∧ m₂.len = m.len + 1 ∧ m₂.kvAt ref = .ok (k, d)) ∧
    (∀ f, ∃ m₃ l₂, m₂.toListE = .ok l₂ ∧ m₂.occUpdate ref f = .ok m₃ ∧ m₃.toListE = .ok (Spec.modify id k f l₂) ∧
      m₃.len = m₂.len) := by
  have hv := h.valid
  obtain rfl := Exec.ok_unique hl (Map.toListE_spec hv.toShaped)
  obtain ⟨r', m2, a2, h1, h2, h3, h4, h5, _⟩ := Map.tryEntry_ordered hv k a
  obtain ⟨rfl, rfl, rfl⟩ := by simpa using Exec.ok_unique he h1
  have hkv := Map.getKeyValue_spec borrowOK_id hv k
  cases e with
  | occupied hd =>
    obtain ⟨rfl, rfl, rfl⟩ := by simpa [Map.orTryInsert] using hi
    obtain ⟨kv, e1, e2⟩ := RefAt.kvAt h5.2
    rw [h3] at e2
    rw [e2] at hkv
    refine ⟨fun k₀ v₀ hk => ?_, fun hk => ?_, fun f => ?_⟩
    · obtain rfl := by simpa using Exec.ok_unique hk hkv
      exact ⟨by rw [Map.toListE_spec h2.toShaped, h3], h4, e1⟩
    · simpa using Exec.ok_unique hk hkv
    · obtain ⟨m3, g1, g2, _, g3, g4, _⟩ := RefAt.update h2 h5.2 f
      exact ⟨m3, _, Map.toListE_spec h2.toShaped, g1, by rw [Map.toListE_spec g2.toShaped, g3], g4⟩
  | vacant k' hd =>
    obtain ⟨r, m4, a4, g1, g2, _⟩ := EntryAt.vacantInsert h2 h5.1 h5.2 d a₁
    obtain ⟨rfl, rfl, rfl⟩ := by simpa using Exec.ok_unique hi g1
    obtain ⟨q1, q2, q3, q4, q5, _⟩ := g2
    have hf := EntryAt.find h5.2
    rw [h3] at hf
    rw [hf] at hkv
    refine ⟨fun k₀ v₀ hk => ?_, fun hk => ?_, fun f => ?_⟩
    · simpa using Exec.ok_unique hk hkv
    · exact ⟨by rw [Map.toListE_spec q1.toShaped, q2, h3], by simp only [Map.len, q5, h4], q4⟩
    · obtain ⟨m3, g1, g2, _, g3, g4, _⟩ := RefAt.update q1 q3 f
      exact ⟨m3, _, Map.toListE_spec q1.toShaped, g1, by rw [Map.toListE_spec g2.toShaped, g3], g4⟩

example : ∃ e m₁ a₁ ref m₂ a₂, demo.tryEntry 13 allOk = .ok (.ok e, m₁, a₁) ∧
    m₁.orTryInsert e 5 a₁ = .ok (.ok ref, m₂, a₂) ∧ m₂.kvAt ref = .ok (13, 5) := ⟨_, _, _, _, _, _, rfl, rfl, rfl⟩
example : ∃ e m₁ a₁ ref m₂ a₂, demo.tryEntry 12 noMem = .ok (.ok e, m₁, a₁) ∧
    m₁.orTryInsert e 5 a₁ = .ok (.ok ref, m₂, a₂) ∧ m₂.kvAt ref = .ok (12, 6) := ⟨_, _, _, _, _, _, rfl, rfl, rfl⟩

/-- **C17** (`or_try_insert_with`, `or_default`) acts as `or_try_insert` of the closure's value, and the closure runs iff the
key was absent. -/
theorem C17_or_try_insert_with [Ord K] [Std.TransOrd K] {m m₁ : Map K V} {k a e a₁} (f : Unit → V) (h : Reach m)
    (he : m.tryEntry k a = .ok (.ok e, m₁, a₁)) :
    ∃ r m₂ a₂ ran, m₁.orTryInsertWith e f a₁ = .ok (r, m₂, a₂, ran) ∧ m₁.orTryInsert e (f ()) a₁ = .ok (r, m₂, a₂) ∧
      (ran = true ↔ m.get id k = .ok none) := by
  have hv := h.valid
  obtain ⟨r', m2, a2, h1, h2, h3, h4, h5, _⟩ := Map.tryEntry_ordered hv k a
  obtain ⟨rfl, rfl, rfl⟩ := by simpa using Exec.ok_unique he h1
  have hg := Map.get_spec borrowOK_id hv k
  cases e with
  | occupied hd =>
    obtain ⟨kv, e1, e2⟩ := RefAt.kvAt h5.2
    rw [h3] at e2
    exact ⟨_, _, _, false, rfl, rfl, by simp [hg, lookup, e2]⟩
  | vacant k' hd =>
    obtain ⟨r, m4, a4, g1, g2, _⟩ := EntryAt.vacantInsert h2 h5.1 h5.2 (f ()) a₁
    have hf := EntryAt.find h5.2
    rw [h3] at hf
    exact ⟨r, m4, a4, true, by simp [Map.orTryInsertWith, g1], by simp [Map.orTryInsert, g1], by simp [hg, lookup, hf]⟩

/-- **C17** (`and_modify`) changes exactly the value of `k`, if present, and gives the same entry back. -/
theorem C17_and_modify [Ord K] [Std.TransOrd K] {m m₁ : Map K V} {k a e a₁ l} (f : V → V) (h : Reach m)
    (hl : m.toListE = .ok l) (he : m.tryEntry k a = .ok (.ok e, m₁, a₁)) :
    ∃ m₂, m₁.andModify e f = .ok (m₂, e) ∧ m₂.toListE = .ok (Spec.modify id k f l) ∧ m₂.len = m.len ∧ Reach m₂ := by
  have hv := h.valid
  obtain rfl := Exec.ok_unique hl (Map.toListE_spec hv.toShaped)
  obtain ⟨r', m2, a2, h1, h2, h3, h4, h5, _⟩ := Map.tryEntry_ordered hv k a
  obtain ⟨rfl, rfl, rfl⟩ := by simpa using Exec.ok_unique he h1
  cases e with
  | occupied hd =>
    obtain ⟨kv, e1, e2⟩ := RefAt.kvAt h5.2
    obtain ⟨m3, g1, g2, _, g3, g4, _⟩ := RefAt.update h2 h5.2 f
    have hr := Reach.occupied h he g1
    refine ⟨m3, ?_, by rw [Map.toListE_spec g2.toShaped, g3, h3], by simp only [Map.len, g4, h4], hr⟩
    simp only [Map.occUpdate, e1, Exec.ok_bind] at g1
    obtain ⟨⟨m3', old⟩, q1, q2⟩ := Exec.bind_eq_ok.1 g1
    obtain rfl := by simpa using q2
    simp [Map.andModify, e1, q1]
  | vacant k' hd =>
    refine ⟨m₁, rfl, ?_, h4, .entry h he⟩
    rw [Map.toListE_spec h2.toShaped, h3]
    obtain ⟨rfl, A, B, q1, q2, q3⟩ := h5.2
    congr 1
    rw [← h3, q1.toList]
    unfold Spec.modify
    have hid : ∀ l : List (K × V), (∀ x ∈ l, compare k' x.1 ≠ .eq) →
        l.map (fun kv => if compare k' (id kv.1) == .eq then (kv.1, f kv.2) else kv) = l := by
      intro l hl
      conv => rhs; rw [← List.map_id l]
      apply List.map_congr_left
      intro x hx
      simp [hl x hx]
    rw [hid]
    intro x hx
    rcases List.mem_append.1 hx with hx | hx
    · simp [q2 x hx]
    · simp [q3 x hx]

example : ∃ e m₁ a₁ m₂, demo.tryEntry 12 allOk = .ok (.ok e, m₁, a₁) ∧ m₁.andModify e (· + 100) = .ok (m₂, e) ∧
    m₂.get id 12 = .ok (some 106) := ⟨_, _, _, _, rfl, rfl, rfl⟩

/-- **C18** An occupied entry acts on exactly the entry whose key equals the looked-up key. -/
theorem C18_occupied [Ord K] [Std.TransOrd K] {m m₁ : Map K V} {k a hd a₁ l} (h : Reach m) (hl : m.toListE = .ok l)
    (he : m.tryEntry k a = .ok (.ok (.occupied hd), m₁, a₁)) :
    ∃ k₀ v₀, compare k k₀ = .eq ∧ (k₀, v₀) ∈ l ∧
      -- key, get
      m₁.entryKey (.occupied hd) = .ok k₀ ∧ m₁.occGet hd = .ok v₀ ∧
      -- insert: returns the old value, replaces only that value
      (∀ v, ∃ m₂, m₁.occInsert hd v = .ok (v₀, m₂) ∧ m₂.toListE = .ok (Spec.modify id k (fun _ => v) l) ∧ m₂.len = m.len) ∧
      -- get_mut, into_mut: a write changes only that value
      (∀ f, ∃ m₂, m₁.occUpdate hd f = .ok m₂ ∧ m₂.toListE = .ok (Spec.modify id k f l) ∧ m₂.len = m.len) ∧
      -- remove_entry, remove: the stored pair, removing only it
      (∃ m₂, m₁.occRemoveEntry hd = .ok ((k₀, v₀), m₂) ∧ m₁.occRemove hd = .ok (v₀, m₂) ∧
        m₂.toListE = .ok (erase id k l) ∧ m.len = m₂.len + 1) := by
  have hv := h.valid
  obtain rfl := Exec.ok_unique hl (Map.toListE_spec hv.toShaped)
  obtain ⟨r', m2, a2, h1, h2, h3, h4, h5, _⟩ := Map.tryEntry_ordered hv k a
  obtain ⟨rfl, rfl, rfl⟩ := by simpa using Exec.ok_unique he h1
  obtain ⟨⟨k₀, v₀⟩, e1, e2⟩ := RefAt.kvAt h5.2
  rw [h3] at e2
  have hc : compare k k₀ = .eq := by
    have := List.find?_some e2
    simpa using this
  refine ⟨k₀, v₀, hc, List.mem_of_find?_eq_some e2, by simp [Map.entryKey, e1], by simp [Map.occGet, e1],
    fun v => ?_, fun f => ?_, ?_⟩
  · obtain ⟨m3, old, g1, g2, g3, g4, g5, _⟩ := RefAt.setVal h2 h5.2 v
    rw [h3, lookup, e2] at g2
    obtain rfl := by simpa using g2
    exact ⟨m3, by simp [Map.occInsert, g1], by rw [Map.toListE_spec g3.toShaped, g4, h3], by simp only [Map.len, g5, h4]⟩
  · obtain ⟨m3, g1, g2, _, g3, g4, _⟩ := RefAt.update h2 h5.2 f
    exact ⟨m3, g1, by rw [Map.toListE_spec g2.toShaped, g3, h3], by simp only [Map.len, g4, h4]⟩
  · obtain ⟨m3, kv, g1, g2, g3, g4⟩ := RefAt.removeKv h2 h5.2
    rw [h3, e2] at g2
    obtain rfl := by simpa using g2
    refine ⟨m3, g1, by simp [Map.occRemove, g1], by rw [Map.toListE_spec g3.toShaped, g4, h3], ?_⟩
    have q1 := hv.len
    have q2 := g3.len
    have q3 := length_erase borrowOK_id hv.sorted k
    rw [e2] at q3
    rw [g4, h3] at q2
    simp only [Map.len, q1, q2, q3]; simp

example : ∃ hd m₁ a₁ m₂, demo.tryEntry 12 allOk = .ok (.ok (.occupied hd), m₁, a₁) ∧
    m₁.occRemoveEntry hd = .ok ((12, 6), m₂) ∧ m₂.len = 39 := ⟨_, _, _, _, rfl, rfl, rfl⟩

end Verif.Props
