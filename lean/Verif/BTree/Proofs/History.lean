import Verif.BTree.History
import Verif.BTree.Proofs.ReachInv
import Verif.BTree.Proofs.SpecLemmas
import Verif.BTree.Proofs.Views
import Verif.BTree.Proofs.Replace
/-
Each call of a program agrees with its meaning on sorted association lists.
-/
namespace Verif.BTree
open Verif Verif.Spec

variable {K V Q : Type}

/-- A call on one map: it panics or fails only if the allocator refuses something, and otherwise does what the list says; `n` is by how much
the cached length exceeds the number of pairs, and `F` what is known if the call fails. -/
def Agrees [Ord K] (n : Nat) (F : Map K V → Prop) (a : Alloc) (x : Exec (Out K V × Map K V × Alloc)) (y : Out K V × List (K × V)) : Prop :=
  ((∃ msg, x = .panic msg) ∧ ¬ a.Good) ∨
  ∃ o m' a', x = .ok (o, m', a') ∧ (a.Good → a'.Good) ∧
    ((o = .failed ∧ ¬ a.Good ∧ F m') ∨ (m'.Ordered n ∧ o = y.1 ∧ m'.toList = y.2))

/-- What a failed insertion of `(k, v)` into `m` leaves: the key was not there, and the entries are as before or one
stretch of at least five is missing from those a success would have left. -/
def Refused [Ord K] (k : K) (v : V) (m m' : Map K V) : Prop :=
  find? id k m.toList = none ∧ Torn 5 m.toList (Spec.insert k v m.toList) m'.toList ∧ ∃ y, m'.Ordered y

/-- A call on the whole pool. -/
def AgreesP [Ord K] (a : Alloc) (x : Exec (Out K V × List (Map K V) × Alloc)) (y : Out K V × List (List (K × V))) : Prop :=
  ((∃ msg, x = .panic msg) ∧ ¬ a.Good) ∨
  ∃ o p' a', x = .ok (o, p', a') ∧ (a.Good → a'.Good) ∧
    ((o = .failed ∧ ¬ a.Good) ∨ ((∀ m ∈ p', m.Valid) ∧ o = y.1 ∧ p'.map Map.toList = y.2))

section
set_option linter.unusedSectionVars false
variable [Ord K]

theorem Agrees.ok {n : Nat} {F : Map K V → Prop} {a a' : Alloc} {x : Exec (Out K V × Map K V × Alloc)} {y : Out K V × List (K × V)} {o m'} (h1 : x = .ok (o, m', a'))
    (h2 : a.Good → a'.Good) (h3 : m'.Ordered n) (h4 : o = y.1) (h5 : m'.toList = y.2) : Agrees n F a x y :=
  .inr ⟨o, m', a', h1, h2, .inr ⟨h3, h4, h5⟩⟩

theorem onMap_agrees {p : List (Map K V)} (hp : ∀ m ∈ p, m.Valid) (i : Nat) (a : Alloc) {f : Map K V → Exec (Out K V × Map K V × Alloc)}
    {g : List (K × V) → Out K V × List (K × V)} {F : Map K V → Map K V → Prop} (h : ∀ m, m.Valid → Agrees 0 (F m) a (f m) (g m.toList)) :
    AgreesP a (onMap p i a f) (onList (p.map Map.toList) i g) := by
  unfold onMap onList
  rw [List.getElem?_map]
  cases hi : p[i]? with
  | none => exact .inr ⟨_, p, a, rfl, id, .inr ⟨hp, rfl, rfl⟩⟩
  | some m =>
    have hm : m ∈ p := List.mem_of_getElem? hi
    rcases h m (hp m hm) with ⟨⟨msg, h1⟩, h2⟩ | ⟨o, m', a', h1, h2, h3⟩
    · exact .inl ⟨⟨msg, by simp [h1]⟩, h2⟩
    · refine .inr ⟨o, p.set i m', a', by simp [h1], h2, ?_⟩
      rcases h3 with h3 | ⟨h3, h4, h5⟩
      · exact .inl ⟨h3.1, h3.2.1⟩
      · refine .inr ⟨fun x hx => ?_, h4, ?_⟩
        · rcases List.mem_or_eq_of_mem_set hx with hx | rfl
          · exact hp x hx
          · exact h3
        · simp [List.map_set, h5]

variable [Std.TransOrd K]

theorem appendList_union {l r : List (K × V)} (hl : Sorted l) (hr : Sorted r) : Spec.union l r (appendList l r) := by
  have hf : Sorted (l.filter fun kv => r.all fun kv' => compare kv.1 kv'.1 != .eq) := List.Pairwise.filter _ hl
  have key : ∀ (r : List (K × V)) (acc : List (K × V)), Sorted acc → Sorted r →
      (∀ x ∈ acc, ∀ y ∈ r, compare x.1 y.1 ≠ .eq) →
      Sorted (r.foldl (fun acc kv => Spec.insert kv.1 kv.2 acc) acc) ∧
      ∀ kv, kv ∈ r.foldl (fun acc kv => Spec.insert kv.1 kv.2 acc) acc ↔ kv ∈ r ∨ kv ∈ acc := by
    intro r
    induction r with
    | nil => intro acc h1 _ _; exact ⟨h1, by simp⟩
    | cons y r ih =>
      intro acc h1 h2 h3
      obtain ⟨s1, s2⟩ := List.pairwise_cons.1 h2
      have hn : find? id y.1 acc = none := by
        simp only [find?, List.find?_eq_none]
        intro x hx hc
        have := h3 x hx y (by simp)
        apply this
        have hc' : compare y.1 x.1 = .eq := by simpa using hc
        exact Std.OrientedCmp.eq_symm hc'
      have hmem : ∀ kv, kv ∈ Spec.insert y.1 y.2 acc ↔ kv = y ∨ kv ∈ acc := by
        intro kv
        clear ih h2 s1 s2
        induction acc with
        | nil => simp [Spec.insert]
        | cons z acc ih =>
          have hz : compare y.1 z.1 ≠ .eq := by
            intro hc
            exact h3 z (by simp) y (by simp) (Std.OrientedCmp.eq_symm hc)
          have hn' : find? id y.1 acc = none := by
            simp only [find?, List.find?_eq_none] at hn ⊢
            exact fun x hx => hn x (by simp [hx])
          have := ih (List.pairwise_cons.1 h1).2 (fun x hx => h3 x (by simp [hx])) hn'
          simp only [Spec.insert]
          cases hc : compare y.1 z.1 with
          | lt => simp
          | eq => exact absurd hc hz
          | gt => simp only [List.mem_cons, this]; grind
      obtain ⟨e1, e2⟩ := ih (Spec.insert y.1 y.2 acc) (Sorted.insert h1 y.1 y.2) s2 (by
        intro x hx z hz
        rcases (hmem x).1 hx with rfl | hx
        · rw [s1 z hz]; simp
        · exact h3 x hx z (by simp [hz]))
      refine ⟨e1, fun kv => ?_⟩
      simp only [List.foldl_cons, e2, hmem, List.mem_cons]
      grind
  obtain ⟨k1, k2⟩ := key r _ hf hr (by
    intro x hx y hy
    have := (List.mem_filter.1 hx).2
    have := List.all_eq_true.1 this y hy
    simpa using this)
  refine ⟨k1, fun kv => ?_⟩
  unfold appendList
  rw [k2]
  simp [List.mem_filter, List.all_eq_true]

theorem Agrees.mono {n : Nat} {F : Map K V → Prop} {a a' : Alloc} (hg : a.Good → a'.Good) {x : Exec (Out K V × Map K V × Alloc)} {y : Out K V × List (K × V)}
    (h : Agrees n F a' x y) : Agrees n F a x y := by
  rcases h with ⟨g1, g2⟩ | ⟨o, m2, a2, g1, g2, g3⟩
  · exact .inl ⟨g1, fun h => g2 (hg h)⟩
  · refine .inr ⟨o, m2, a2, g1, fun h => g2 (hg h), ?_⟩
    rcases g3 with ⟨g3, g4, g5⟩ | g3
    · exact .inl ⟨g3, fun h => g4 (hg h), g5⟩
    · exact .inr g3

theorem Agrees.failed {n : Nat} {F : Map K V → Prop} {a a' : Alloc} {m' : Map K V} {x : Exec (Out K V × Map K V × Alloc)} {y : Out K V × List (K × V)}
    (h : x = .ok (.failed, m', a')) (hg : ¬ a.Good) (hF : F m') : Agrees n F a x y :=
  .inr ⟨.failed, m', a', h, fun h => absurd h hg, .inl ⟨rfl, hg, hF⟩⟩

theorem tryEntry_cases {x : Nat} {m : Map K V} (hm : m.Ordered x) (k : K) (a : Alloc) :
    (∃ er m' a', m.tryEntry k a = .ok (.error er, m', a') ∧ ¬ a.Good ∧ m' = m ∧ m.toList = []) ∨
    (∃ e m' a', m.tryEntry k a = .ok (.ok e, m', a') ∧ m'.Ordered x ∧ m'.shared = false ∧ m'.toList = m.toList ∧ EntryAt m' k e ∧
      (a.Good → a'.Good)) := by
  obtain ⟨r, m', a', h1, h2, h3, h4, h5, h6⟩ := Map.tryEntry_ordered hm k a
  cases r with
  | error e =>
    refine .inl ⟨e, m', a', h1, fun hg => ?_, h5⟩
    obtain ⟨_, e', he⟩ := h6 hg
    simp at he
  | ok e => exact .inr ⟨e, m', a', h1, h2, h5.1, h3, h5.2, fun hg => (h6 hg).1⟩

theorem entryOrInsert_agrees {x : Nat} {a : Alloc} {m : Map K V} (hm : m.Ordered x) (k : K) (v : V) (f : V → V) :
    Agrees x (Refused k v m) a (m.entryOrInsert k v f a)
      (match lookup id k m.toList with
       | some old => (.value (some old), Spec.modify id k f m.toList)
       | none => (.value (some v), Spec.insert k (f v) m.toList)) := by
  rcases tryEntry_cases hm k a with ⟨er, m', a', h1, h2, h3, h4⟩ | ⟨e, m', a', h1, g1, g2, g3, g5, g6⟩
  · exact .failed (m' := m') (a' := a') (by simp [Map.entryOrInsert, h1]) h2 ⟨by simp [h4, find?], .inl (by rw [h3]), x, h3 ▸ hm⟩
  cases e with
  | occupied hd =>
    obtain ⟨kv, e1, e2⟩ := RefAt.kvAt g5
    obtain ⟨m2, e3, e4, _, e5, e6, _⟩ := RefAt.update g1 g5 f
    refine Agrees.ok (o := .value (some kv.2)) (m' := m2) (a' := a') ?_ g6 e4 ?_ ?_
    · simp [Map.entryOrInsert, h1, Map.orTryInsert, Map.occGet, e1, e3]
    · rw [← g3, lookup, e2]; rfl
    · rw [e5, ← g3, lookup, e2]; rfl
  | vacant k' hd =>
    obtain ⟨r, m2, a2, e1, e2, e3⟩ := EntryAt.vacantInsert g1 g2 g5 v a'
    have hn := EntryAt.find g5
    rw [g3] at hn
    cases r with
    | error er =>
      refine .failed (m' := m2) (a' := a2) (by simp [Map.entryOrInsert, h1, Map.orTryInsert, e1]) (fun hg => ?_) ⟨hn, g3 ▸ e2.1, e2.2.2.imp fun _ h => h.2⟩
      obtain ⟨_, o, ho⟩ := e3 (g6 hg)
      simp at ho
    | ok loc =>
      obtain ⟨q1, q2, q3, q4, q5, q6⟩ := e2
      obtain ⟨m3, e6, e7, _, e8, e9, _⟩ := RefAt.update q1 q3 f
      refine Agrees.ok (o := .value (some v)) (m' := m3) (a' := a2) ?_ (fun hg => (e3 (g6 hg)).1) e7 ?_ ?_
      · simp [Map.entryOrInsert, h1, Map.orTryInsert, e1, Map.occGet, q4, e6]
      · simp [lookup, hn]
      · rw [e8, q2, g3]
        have hl : lookup id k m.toList = none := by simp [lookup, hn]
        rw [hl]
        obtain ⟨_, A, B, c1, c2, c3⟩ := g5
        rw [← g3, c1.toList, insert_miss c2 c3, insert_miss c2 c3,
          modify_hit (bor := id) (q := k) (kv := (k, v)) c2 (show compare k k = .eq from Std.ReflCmp.compare_self) c3]

theorem entryOrInsertWith_agrees {x : Nat} {a : Alloc} {m : Map K V} (hm : m.Ordered x) (k : K) (v : V) (f : V → V) :
    Agrees x (Refused k v m) a (m.entryOrInsertWith k v f a)
      (match lookup id k m.toList with
       | some _ => (.flag false, Spec.modify id k f m.toList)
       | none => (.flag true, Spec.insert k (f v) m.toList)) := by
  rcases tryEntry_cases hm k a with ⟨er, m', a', h1, h2, h3, h4⟩ | ⟨e, m', a', h1, g1, g2, g3, g5, g6⟩
  · exact .failed (m' := m') (a' := a') (by simp [Map.entryOrInsertWith, h1]) h2 ⟨by simp [h4, find?], .inl (by rw [h3]), x, h3 ▸ hm⟩
  cases e with
  | occupied hd =>
    obtain ⟨kv, e1, e2⟩ := RefAt.kvAt g5
    obtain ⟨m2, e3, e4, _, e5, e6, _⟩ := RefAt.update g1 g5 f
    refine Agrees.ok (o := .flag false) (m' := m2) (a' := a') ?_ g6 e4 ?_ ?_
    · simp [Map.entryOrInsertWith, h1, Map.orTryInsertWith, Map.occGet, e1, e3]
    · rw [← g3, lookup, e2]; rfl
    · rw [e5, ← g3, lookup, e2]; rfl
  | vacant k' hd =>
    obtain ⟨r, m2, a2, e1, e2, e3⟩ := EntryAt.vacantInsert g1 g2 g5 v a'
    have hn := EntryAt.find g5
    rw [g3] at hn
    cases r with
    | error er =>
      refine .failed (m' := m2) (a' := a2) (by simp [Map.entryOrInsertWith, h1, Map.orTryInsertWith, e1]) (fun hg => ?_) ⟨hn, g3 ▸ e2.1, e2.2.2.imp fun _ h => h.2⟩
      obtain ⟨_, o, ho⟩ := e3 (g6 hg)
      simp at ho
    | ok loc =>
      obtain ⟨q1, q2, q3, q4, q5, q6⟩ := e2
      obtain ⟨m3, e6, e7, _, e8, e9, _⟩ := RefAt.update q1 q3 f
      refine Agrees.ok (o := .flag true) (m' := m3) (a' := a2) ?_ (fun hg => (e3 (g6 hg)).1) e7 ?_ ?_
      · simp [Map.entryOrInsertWith, h1, Map.orTryInsertWith, e1, Map.occGet, q4, e6]
      · simp [lookup, hn]
      · rw [e8, q2, g3]
        have hl : lookup id k m.toList = none := by simp [lookup, hn]
        rw [hl]
        obtain ⟨_, A, B, c1, c2, c3⟩ := g5
        rw [← g3, c1.toList, insert_miss c2 c3, insert_miss c2 c3,
          modify_hit (bor := id) (q := k) (kv := (k, v)) c2 (show compare k k = .eq from Std.ReflCmp.compare_self) c3]

theorem erase_none {k : K} {l : List (K × V)} (h : find? id k l = none) : erase id k l = l := by
  unfold erase
  simp only [find?, List.find?_eq_none] at h
  rw [List.filter_eq_self]
  intro x hx
  simpa using h x hx

theorem modify_none [Ord Q] {bor : K → Q} {q : Q} {f : V → V} {l : List (K × V)} (h : find? bor q l = none) : Spec.modify bor q f l = l := by
  unfold Spec.modify
  simp only [find?, List.find?_eq_none] at h
  conv => rhs; rw [← List.map_id l]
  apply List.map_congr_left
  intro x hx
  have := h x hx
  simp only [this, id]
  simp

theorem entryRemove_agrees {x : Nat} {a : Alloc} {m : Map K V} (hm : m.Ordered x) (k : K) :
    Agrees x (· = m) a (m.entryRemove k a) (.pair (find? id k m.toList), erase id k m.toList) := by
  rcases tryEntry_cases hm k a with ⟨er, m', a', h1, h2, h3, h4⟩ | ⟨e, m', a', h1, g1, g2, g3, g5, g6⟩
  · exact .failed (m' := m') (a' := a') (by simp [Map.entryRemove, h1]) h2 h3
  cases e with
  | occupied hd =>
    obtain ⟨m2, kv, e1, e2, e3, e4⟩ := RefAt.removeKv g1 g5
    refine Agrees.ok (o := .pair (some kv)) (m' := m2) (a' := a') ?_ g6 e3 ?_ ?_
    · simp [Map.entryRemove, h1, Map.occRemoveEntry, e1]
    · rw [← g3, e2]
    · rw [e4, g3]
  | vacant k' hd =>
    have hn := EntryAt.find g5
    rw [g3] at hn
    exact Agrees.ok (o := .pair none) (m' := m') (a' := a') (by simp [Map.entryRemove, h1]) g6 g1 (by rw [hn]) (by rw [g3, erase_none hn])

theorem entryModify_agrees {x : Nat} {a : Alloc} {m : Map K V} (hm : m.Ordered x) (k : K) (f : V → V) :
    Agrees x (· = m) a (m.entryModify k f a) (.done, Spec.modify id k f m.toList) := by
  rcases tryEntry_cases hm k a with ⟨er, m', a', h1, h2, h3, h4⟩ | ⟨e, m', a', h1, g1, g2, g3, g5, g6⟩
  · exact .failed (m' := m') (a' := a') (by simp [Map.entryModify, h1]) h2 h3
  cases e with
  | occupied hd =>
    obtain ⟨kv, q1, q2⟩ := RefAt.kvAt g5
    obtain ⟨m2, old, e3, _, e4, e5, _⟩ := RefAt.setVal g1 g5 (f kv.2)
    obtain ⟨m3, p1, p2, _, p3, _⟩ := RefAt.update g1 g5 f
    have : m3 = m2 := by simpa [Map.occUpdate, q1, e3] using p1.symm
    subst this
    exact Agrees.ok (o := .done) (m' := m3) (a' := a') (by simp [Map.entryModify, h1, Map.andModify, q1, e3]) g6 e4 rfl (by rw [p3, g3])
  | vacant k' hd =>
    have hn := EntryAt.find g5
    rw [g3] at hn
    exact Agrees.ok (o := .done) (m' := m') (a' := a') (by simp [Map.entryModify, h1, Map.andModify]) g6 g1 rfl (by rw [g3, modify_none hn])

theorem entryKeyOf_agrees {x : Nat} {a : Alloc} {m : Map K V} (hm : m.Ordered x) (k : K) :
    Agrees x (· = m) a (m.entryKeyOf k a) (.key (match find? id k m.toList with | some kv => kv.1 | none => k), m.toList) := by
  rcases tryEntry_cases hm k a with ⟨er, m', a', h1, h2, h3, h4⟩ | ⟨e, m', a', h1, g1, g2, g3, g5, g6⟩
  · exact .failed (m' := m') (a' := a') (by simp [Map.entryKeyOf, h1]) h2 h3
  cases e with
  | occupied hd =>
    obtain ⟨kv, q1, q2⟩ := RefAt.kvAt g5
    exact Agrees.ok (o := .key kv.1) (m' := m') (a' := a') (by simp [Map.entryKeyOf, h1, Map.entryKey, q1]) g6 g1 (by rw [← g3, q2]) g3
  | vacant k' hd =>
    have hn := EntryAt.find g5
    rw [g3] at hn
    exact Agrees.ok (o := .key k') (m' := m') (a' := a') (by simp [Map.entryKeyOf, h1, Map.entryKey]) g6 g1 (by rw [hn, g5.1]) g3

theorem entryInsert_agrees {x : Nat} {a : Alloc} {m : Map K V} (hm : m.Ordered x) (k : K) (v : V) :
    Agrees x (· = m) a (m.entryInsert k v a) (.value (lookup id k m.toList), Spec.modify id k (fun _ => v) m.toList) := by
  rcases tryEntry_cases hm k a with ⟨er, m', a', h1, h2, h3, h4⟩ | ⟨e, m', a', h1, g1, g2, g3, g5, g6⟩
  · exact .failed (m' := m') (a' := a') (by simp [Map.entryInsert, h1]) h2 h3
  cases e with
  | occupied hd =>
    obtain ⟨m2, old, e3, e2, e4, e5, _⟩ := RefAt.setVal g1 g5 v
    exact Agrees.ok (o := .value (some old)) (m' := m2) (a' := a') (by simp [Map.entryInsert, h1, Map.occInsert, e3]) g6 e4 (by rw [← g3, e2]) (by rw [e5, g3])
  | vacant k' hd =>
    have hn := EntryAt.find g5
    rw [g3] at hn
    exact Agrees.ok (o := .value none) (m' := m') (a' := a') (by simp [Map.entryInsert, h1]) g6 g1 (by rw [lookup, hn]; rfl) (by rw [g3, modify_none hn])

variable [Ord Q] [Std.TransOrd Q] {bor : K → Q}

theorem updateVal_spec (hbo : BorrowOK bor) {x : Nat} {m : Map K V} (hm : m.Ordered x) (q : Q) (f : V → V) :
    ∃ m', m.updateVal bor q f = .ok ((find? bor q m.toList).isSome, m') ∧ m'.Ordered x ∧ m'.toList = Spec.modify bor q f m.toList := by
  rcases Map.getMut_valid hbo hm q with ⟨hd, A, kv, B, h1, h2, h3, h4, h5⟩ | ⟨h1, h2⟩
  · obtain ⟨m', e1, e2, e3⟩ := Map.occUpdate_wf hm.toShaped h2 f
    have hs := hm.sorted
    rw [h2.toList] at hs
    refine ⟨m', ?_, ⟨e2, by rw [e3]; exact sorted_set hs rfl⟩, by rw [e3, h2.toList, modify_hit h3 h4 h5]⟩
    rw [h2.toList, find?_hit h3 h4]
    simp [Map.updateVal, h1, e1]
  · exact ⟨m, by rw [h2]; simp [Map.updateVal, h1], hm, by rw [modify_none h2]⟩

theorem rangeRun_spec (hbo : BorrowOK bor) {x : Nat} {m : Map K V} (hm : m.Ordered x) (lo hi : Bound Q) (es : List End) :
    m.rangeRun bor lo hi es = .ok (if badRange lo hi then .panicked else .items (pops es (within bor lo hi m.toList)).1) := by
  rcases Map.range_ordered hbo hm lo hi with ⟨h1, msg, h2⟩ | ⟨h1, r, pre, post, h2, w⟩
  · simp [Map.rangeRun, h1, h2]
  · obtain ⟨r', h3⟩ := Range.run_spec hm.below es w
    simp [Map.rangeRun, h1, h2, h3]

theorem Cursor.acts_done {K V : Type} {l : List (K × V)} (n n' : Nat) (as : List (MutAct V)) :
    (Cursor.acts ⟨l, n, n, []⟩ as).1 = (Cursor.acts ⟨l, n', n', []⟩ as).1 ∧
    (Cursor.acts ⟨l, n, n, []⟩ as).2.items = (Cursor.acts ⟨l, n', n', []⟩ as).2.items := by
  induction as with
  | nil => exact ⟨rfl, rfl⟩
  | cons a as ih =>
    have h : ∀ n, (Cursor.act (⟨l, n, n, []⟩ : Cursor K V) a) = (none, ⟨l, n, n, []⟩) := by
      intro n
      cases a with
      | take e => cases e <;> simp [Cursor.act]
      | write i f => simp [Cursor.act]
    simp only [Cursor.acts, h]
    exact ⟨by rw [ih.1], ih.2⟩

theorem startOf_spec {K V Q : Type} [Ord Q] {bor : K → Q} {lo hi : Bound Q} {l pre post : List (K × V)} (h : l = pre ++ (within bor lo hi l ++ post)) :
    within bor lo hi l = [] ∨ startOf bor lo hi l = pre.length := by
  cases hw : within bor lo hi l with
  | nil => exact .inl rfl
  | cons kv mid =>
    right
    have e : within bor lo hi l = within bor lo hi pre ++ (within bor lo hi (within bor lo hi l) ++ within bor lo hi post) := by
      conv => lhs; rw [h]
      simp only [within, List.filter_append]
    have e2 : within bor lo hi (within bor lo hi l) = within bor lo hi l := by simp [within, List.filter_filter]
    rw [e2] at e
    have hp : within bor lo hi pre = [] := by
      have := congrArg List.length e
      simp only [List.length_append] at this
      exact List.eq_nil_of_length_eq_zero (by omega)
    have hkv : kv ∈ within bor lo hi l := by rw [hw]; simp
    have hk := (List.mem_filter.1 hkv).2
    unfold startOf
    rw [h, hw, List.findIdx_append]
    have hn : ¬ List.findIdx (fun kv : K × V => aboveLo lo (bor kv.1) && belowHi hi (bor kv.1)) pre < pre.length := by
      intro hc
      have := List.findIdx_getElem (w := hc)
      have hm : pre[List.findIdx (fun kv : K × V => aboveLo lo (bor kv.1) && belowHi hi (bor kv.1)) pre] ∈ within bor lo hi pre :=
        List.mem_filter.2 ⟨List.getElem_mem _, this⟩
      rw [hp] at hm
      simp at hm
    rw [if_neg hn, List.cons_append, List.findIdx_cons, hk]
    simp

theorem rangeMutRun_spec (hbo : BorrowOK bor) {x : Nat} {m : Map K V} (hm : m.Ordered x) (lo hi : Bound Q) (acts : List (MutAct V)) :
    ∃ m', m.rangeMutRun bor lo hi acts = .ok (((if badRange lo hi then (.panicked, m.toList)
      else (.items (Cursor.acts ⟨m.toList, startOf bor lo hi m.toList, startOf bor lo hi m.toList + (within bor lo hi m.toList).length, []⟩ acts).1,
        (Cursor.acts ⟨m.toList, startOf bor lo hi m.toList, startOf bor lo hi m.toList + (within bor lo hi m.toList).length, []⟩ acts).2.items) :
          Out K V × List (K × V))).1, m') ∧ m'.Ordered x ∧ m'.toList = ((if badRange lo hi then (.panicked, m.toList)
      else (.items (Cursor.acts ⟨m.toList, startOf bor lo hi m.toList, startOf bor lo hi m.toList + (within bor lo hi m.toList).length, []⟩ acts).1,
        (Cursor.acts ⟨m.toList, startOf bor lo hi m.toList, startOf bor lo hi m.toList + (within bor lo hi m.toList).length, []⟩ acts).2.items) :
          Out K V × List (K × V))).2 := by
  rcases Map.range_ordered hbo hm lo hi with ⟨h1, msg, h2⟩ | ⟨h1, r, pre, post, h2, w⟩
  · exact ⟨m, by simp [Map.rangeMutRun, h1, h2], hm, by simp [h1]⟩
  · obtain ⟨m', refs, g1, g2, g3, g4⟩ := mutRun_spec Range.stepOK acts (MutInv.range hm.toShaped w) trivial
    have hk := Cursor.acts_keys (⟨m.toList, pre.length, pre.length + (within bor lo hi m.toList).length, []⟩ : Cursor K V) acts
    have hc : (Cursor.acts ⟨m.toList, pre.length, pre.length + (within bor lo hi m.toList).length, []⟩ acts).1 =
        (Cursor.acts ⟨m.toList, startOf bor lo hi m.toList, startOf bor lo hi m.toList + (within bor lo hi m.toList).length, []⟩ acts).1 ∧
        (Cursor.acts ⟨m.toList, pre.length, pre.length + (within bor lo hi m.toList).length, []⟩ acts).2.items =
        (Cursor.acts ⟨m.toList, startOf bor lo hi m.toList, startOf bor lo hi m.toList + (within bor lo hi m.toList).length, []⟩ acts).2.items := by
      rcases startOf_spec (bor := bor) (lo := lo) (hi := hi) w.all with h0 | h0
      · rw [h0]
        exact Cursor.acts_done _ _ acts
      · rw [h0]
        exact ⟨rfl, rfl⟩
    refine ⟨m', by simp [Map.rangeMutRun, h1, h2, g1, hc.1], ⟨g2, ?_⟩, by simp [h1, g3, hc.2]⟩
    rw [g3]
    have hs := hm.sorted
    unfold Sorted at hs ⊢
    have h2 := (List.pairwise_map (f := fun (x : K × V) => x.1) (R := fun a b => compare a b = .lt)).2 hs
    exact (List.pairwise_map (f := fun (x : K × V) => x.1) (R := fun a b => compare a b = .lt)).1 (by rw [hk]; exact h2)

theorem cloneList_all (ck : K → Bool) (cv : V → Option V) : ∀ {l l' : List (K × V)}, All2 (PairClone (keyCloner ck) (valCloner cv)) l l' →
    cloneList ck cv l = some l'
  | [], [], _ => rfl
  | [], _ :: _, h => h.elim
  | _ :: _, [], h => h.elim
  | (k, v) :: l, (k', v') :: l', h => by
    obtain ⟨⟨⟨_, _, h1⟩, ⟨_, _, h2⟩⟩, h3⟩ := h
    have ih := cloneList_all ck cv h3
    simp only [keyCloner, Prod.mk.injEq] at h1
    simp only [valCloner, Prod.mk.injEq] at h2
    cases hk : ck k with
    | false => rw [hk] at h1; simp at h1
    | true =>
      cases hv : cv v with
      | none => rw [hv] at h2; simp at h2
      | some w =>
        rw [hk] at h1; rw [hv] at h2
        obtain rfl := Except.ok.inj h1.1
        obtain rfl := Except.ok.inj h2.1
        simp only [cloneList, hk, hv, ih]

theorem cloneList_at {ck : K → Bool} {cv : V → Option V} : ∀ {l l' : List (K × V)}, cloneList ck cv l = some l' →
    ∀ kv ∈ l, ClonesAt (keyCloner ck) kv.1 ∧ ClonesAt (valCloner cv) kv.2
  | [], _, _, kv, hkv => by simp at hkv
  | (k, v) :: l, l', h, kv, hkv => by
    unfold cloneList at h
    split at h
    · rename_i w l2 hk hv hl
      rcases List.mem_cons.1 hkv with rfl | hkv
      · exact ⟨fun a _ => ⟨k, a, by simp [keyCloner, hk]⟩, fun a _ => ⟨w, a, by simp [valCloner, hv]⟩⟩
      · exact cloneList_at hl kv hkv
    · cases h

theorem cloneList_keys {ck : K → Bool} {cv : V → Option V} : ∀ {l l' : List (K × V)}, cloneList ck cv l = some l' →
    l'.map (·.1) = l.map (·.1)
  | [], _, h => by cases h; rfl
  | (k, v) :: l, l', h => by
    unfold cloneList at h
    split at h
    · rename_i w l2 hk hv hl
      obtain rfl := (Option.some.inj h).symm
      simp [cloneList_keys hl]
    · cases h

theorem renew_hit [Ord K] [Std.TransOrd K] {A B : List (K × V)} {x y : K} {w : V} (hs : Sorted (A ++ (y, w) :: B)) (he : compare x y = .eq) (v : V) :
    renew x v (A ++ (y, w) :: B) = A ++ (x, w) :: B := by
  obtain ⟨q1, q2, q3⟩ := Sorted.append_iff.1 hs
  obtain ⟨q4, q5⟩ := List.pairwise_cons.1 q2
  have hA : ∀ kv ∈ A, compare x kv.1 = .gt := fun kv hkv => by
    have := q3 kv hkv (y, w) (by simp)
    exact Std.OrientedCmp.gt_iff_lt.2 (Std.TransCmp.lt_of_lt_of_eq this (Std.OrientedCmp.eq_symm he))
  have hB : ∀ kv ∈ B, compare x kv.1 = .lt := fun kv hkv => Std.TransCmp.lt_of_eq_of_lt he (q4 kv hkv)
  have hf : find? id x (A ++ (y, w) :: B) = some (y, w) := find?_hit (by simpa using hA) (by simpa using he)
  have hm : ∀ {C : List (K × V)}, (∀ kv ∈ C, compare x kv.1 ≠ .eq) → C.map (fun kv => if compare x kv.1 == .eq then (x, kv.2) else kv) = C := fun {C} hC => by
    conv => rhs; rw [← List.map_id C]
    exact List.map_congr_left fun kv hkv => by simp [hC kv hkv]
  simp only [renew, hf, Option.isSome_some, if_true, List.map_append, List.map_cons]
  rw [hm fun kv hkv => by simp [hA kv hkv], hm fun kv hkv => by simp [hB kv hkv], he]
  rfl

theorem replaceCall_agrees [Ord K] [Std.TransOrd K] {x : Nat} {a : Alloc} {m : Map K V} (hm : m.Ordered x) (k : K) (v : V) :
    Agrees x (Refused k v m) a (m.replaceCall k v a) (.oldKey ((find? id k m.toList).map (·.1)), renew k v m.toList) := by
  obtain ⟨r, m', a', h1, h2, h4, h3⟩ := Map.replaceKey_ordered hm k v a
  cases r with
  | error er =>
    refine .failed (m' := m') (a' := a') (by simp [Map.replaceCall, h1]) (fun hg => ?_) (h4 _ rfl)
    obtain ⟨_, o, ho⟩ := h3 hg
    simp at ho
  | ok old =>
    obtain ⟨g1, g2⟩ := h2 old rfl
    rcases g2 with ⟨rfl, g3, g4⟩ | ⟨A, y, w, B, rfl, g3, g4, g5, g6⟩
    · refine Agrees.ok (o := .oldKey none) (m' := m') (a' := a') (by simp [Map.replaceCall, h1]) (fun hg => (h3 hg).1) g1 ?_ ?_
      · simp [g3]
      · simp [renew, g3, g4]
    · refine Agrees.ok (o := .oldKey (some y)) (m' := m') (a' := a') (by simp [Map.replaceCall, h1]) (fun hg => (h3 hg).1) g1 ?_ ?_
      · simp [g6]
      · have hs := hm.sorted
        rw [g4] at hs ⊢
        rw [g5]; exact (renew_hit hs g3 v).symm

theorem Op.run_agrees (hbo : BorrowOK bor) {p : List (Map K V)} (hp : ∀ m ∈ p, m.Valid) (a : Alloc) (op : Op K V Q) :
    AgreesP a (Op.run bor p a op) (op.spec bor (p.map Map.toList)) := by
  cases op with
  | new =>
    refine .inr ⟨_, p ++ [Map.new], a, rfl, id, .inr ⟨fun m hm => ?_, rfl, by simp [Op.spec]⟩⟩
    rcases List.mem_append.1 hm with hm | hm
    · exact hp m hm
    · obtain rfl := by simpa using hm
      exact Map.Valid_new
  | insert i k v =>
    refine onMap_agrees (F := fun _ _ => True) hp i a fun m hm => ?_
    obtain ⟨r, m', a', h1, h2, h3⟩ := Map.tryInsert_ordered hm k v a
    cases r with
    | ok old =>
      obtain ⟨e1, e2, e3⟩ := h2
      exact Agrees.ok (o := .value old) (m' := m') (a' := a') (by simp [h1]) (fun hg => (h3 hg).1) e1 (by rw [e3]) e2
    | error er =>
      refine .inr ⟨.failed, m', a', by simp [h1], fun hg => (h3 hg).1, .inl ⟨rfl, fun hg => ?_, trivial⟩⟩
      obtain ⟨_, o, ho⟩ := h3 hg
      simp at ho
  | remove i q =>
    refine onMap_agrees (F := fun _ _ => True) hp i a fun m hm => ?_
    obtain ⟨m', h1, h2, h3⟩ := Map.removeEntry_ordered hbo hm q
    exact Agrees.ok (a' := a) (m' := m') (by simp only [Map.remove, h1, Exec.ok_bind]; rfl) id h2 rfl h3
  | get i q =>
    refine onMap_agrees (F := fun _ _ => True) hp i a fun m hm => ?_
    exact Agrees.ok (a' := a) (m' := m) (by simp only [Map.get_spec hbo hm q, Exec.ok_bind]) id hm rfl rfl
  | getKeyValue i q =>
    refine onMap_agrees (F := fun _ _ => True) hp i a fun m hm => ?_
    exact Agrees.ok (a' := a) (m' := m) (by simp only [Map.getKeyValue_spec hbo hm q, Exec.ok_bind]) id hm rfl rfl
  | containsKey i q =>
    refine onMap_agrees (F := fun _ _ => True) hp i a fun m hm => ?_
    refine Agrees.ok (a' := a) (m' := m) (by simp only [Map.containsKey, Map.get_spec hbo hm q, Exec.ok_bind]; rfl) id hm ?_ rfl
    simp [lookup]
  | len i =>
    refine onMap_agrees (F := fun _ _ => True) hp i a fun m hm => ?_
    refine Agrees.ok (a' := a) (m' := m) rfl id hm ?_ rfl
    simp [Map.len, hm.len]
  | isEmpty i =>
    refine onMap_agrees (F := fun _ _ => True) hp i a fun m hm => ?_
    refine Agrees.ok (a' := a) (m' := m) rfl id hm ?_ rfl
    simp only [Map.isEmpty, Map.len, hm.len]
    cases m.toList <;> simp
  | update i q f =>
    refine onMap_agrees (F := fun _ _ => True) hp i a fun m hm => ?_
    obtain ⟨m', h1, h2, h3⟩ := updateVal_spec hbo hm q f
    exact Agrees.ok (a' := a) (m' := m') (by simp only [h1, Exec.ok_bind]) id h2 rfl h3
  | clear i =>
    refine onMap_agrees (F := fun _ _ => True) hp i a fun m hm => ?_
    exact Agrees.ok (a' := a) (m' := Map.new) rfl id Map.Valid_new rfl rfl
  | append i j =>
    simp only [Op.run, Op.spec, List.getElem?_map]
    cases hi : p[i]? with
    | none => exact .inr ⟨_, p, a, rfl, id, .inr ⟨hp, rfl, rfl⟩⟩
    | some m =>
      cases hj : p[j]? with
      | none => exact .inr ⟨_, p, a, rfl, id, .inr ⟨hp, rfl, rfl⟩⟩
      | some o =>
        simp only [Option.map_some]
        by_cases hij : i = j
        · simp only [if_pos hij]
          exact .inr ⟨_, p, a, rfl, id, .inr ⟨hp, rfl, rfl⟩⟩
        · simp only [if_neg hij]
          have hm := hp m (List.mem_of_getElem? hi)
          have ho := hp o (List.mem_of_getElem? hj)
          rcases Map.append_ordered hm ho a with ⟨⟨msg, h1⟩, h2⟩ | ⟨m', o', a', h1, h2, h3, h4, h5, h6⟩
          · exact .inl ⟨⟨msg, by simp [h1]⟩, h2⟩
          · refine .inr ⟨.done, (p.set i m').set j o', a', by simp [h1], h5, .inr ⟨fun x hx => ?_, rfl, ?_⟩⟩
            · rcases List.mem_or_eq_of_mem_set hx with hx | rfl
              · rcases List.mem_or_eq_of_mem_set hx with hx | rfl
                · exact hp x hx
                · exact h2
              · exact h3
            · rw [List.map_set, List.map_set, h4, union_unique h6 (appendList_union hm.sorted ho.sorted)]
  | splitOff i q =>
    simp only [Op.run, Op.spec, List.getElem?_map]
    cases hi : p[i]? with
    | none => exact .inr ⟨_, p, a, rfl, id, .inr ⟨hp, rfl, rfl⟩⟩
    | some m =>
      have hm := hp m (List.mem_of_getElem? hi)
      obtain ⟨r, m', a', h1, h2, h3⟩ := Map.splitOff_ordered hbo hm q a
      cases r with
      | error er =>
        refine .inr ⟨.failed, p.set i m', a', by simp [h1], fun hg => (h3 hg).1, .inl ⟨rfl, fun hg => ?_⟩⟩
        obtain ⟨_, o, ho⟩ := h3 hg
        simp at ho
      | ok right =>
        obtain ⟨⟨x1, x2, e0, e1, e2⟩, e3, e4⟩ := h2
        obtain ⟨rfl, rfl⟩ : x1 = 0 ∧ x2 = 0 := by omega
        refine .inr ⟨.done, p.set i m' ++ [right], a', by simp [h1], fun hg => (h3 hg).1, .inr ⟨fun x hx => ?_, rfl, ?_⟩⟩
        · rcases List.mem_append.1 hx with hx | hx
          · rcases List.mem_or_eq_of_mem_set hx with hx | rfl
            · exact hp x hx
            · exact e1
          · obtain rfl := by simpa using hx
            exact e2
        · simp [List.map_set, e3, e4]
  | extend i items =>
    refine onMap_agrees (F := fun _ _ => True) hp i a fun m hm => ?_
    rcases Map.extend_spec items hm a with ⟨⟨msg, h1⟩, h2⟩ | ⟨m', a', h1, h2, h3, h4⟩
    · exact .inl ⟨⟨msg, by simp [h1]⟩, h2⟩
    · exact Agrees.ok (a' := a') (m' := m') (by simp only [h1, Exec.ok_bind]) h3 h2 rfl h4
  | clone i =>
    simp only [Op.run, Op.spec, List.getElem?_map]
    cases hi : p[i]? with
    | none => exact .inr ⟨_, p, a, rfl, id, .inr ⟨hp, rfl, rfl⟩⟩
    | some m =>
      have hm := hp m (List.mem_of_getElem? hi)
      obtain ⟨r, a', h1, h2, h3⟩ := Map.tryClone_wf (fun k a => (.ok k, a)) (fun v a => (.ok v, a)) hm.toShaped a
      have hgood : a.Good → a'.Good ∧ ∃ c, r = .ok c := fun hg =>
        let h := h3 hg (fun x a hg => hg) (fun x a hg => hg)
        ⟨h.1, h.2 fun kv _ => ⟨fun a _ => ⟨_, a, rfl⟩, fun a _ => ⟨_, a, rfl⟩⟩⟩
      cases r with
      | error er =>
        refine .inl ⟨⟨"Out of Mem", by simp [Map.clone, h1]⟩, fun hg => ?_⟩
        obtain ⟨_, o, ho⟩ := hgood hg
        simp at ho
      | ok c =>
        obtain ⟨e1, e2⟩ := h2 c rfl
        have he : c.toList = m.toList := by
          have : All2 (· = ·) m.toList c.toList := by
            refine All2.mono (fun x y hxy => ?_) e2
            obtain ⟨⟨_, _, g1⟩, ⟨_, _, g2⟩⟩ := hxy
            simp at g1 g2
            exact Prod.ext g1.1 g2.1
          exact (this.eq).symm
        refine .inr ⟨.done, p ++ [c], a', by simp [Map.clone, h1], fun hg => (hgood hg).1, .inr ⟨fun x hx => ?_, rfl, ?_⟩⟩
        · rcases List.mem_append.1 hx with hx | hx
          · exact hp x hx
          · obtain rfl := by simpa using hx
            exact ⟨e1, by rw [he]; exact hm.sorted⟩
        · simp [he]
  | iterate i es =>
    refine onMap_agrees (F := fun _ _ => True) hp i a fun m hm => ?_
    obtain ⟨it, h1, h2, h3⟩ := Map.iter_spec hm.toShaped
    obtain ⟨it', h4, _⟩ := Iter.run_spec hm.below es h3 (by rw [h2, hm.len]; simp)
    exact Agrees.ok (a' := a) (m' := m) (by simp only [h1, h4, Exec.ok_bind]) id hm rfl rfl
  | range i lo hi es =>
    refine onMap_agrees (F := fun _ _ => True) hp i a fun m hm => ?_
    exact Agrees.ok (a' := a) (m' := m) (by simp only [rangeRun_spec hbo hm, Exec.ok_bind]) id hm rfl rfl
  | iterMut i acts =>
    refine onMap_agrees (F := fun _ _ => True) hp i a fun m hm => ?_
    obtain ⟨it, h1, _⟩ := Map.iter_spec hm.toShaped
    obtain ⟨i1, i2⟩ := MutInv.iter hm.toShaped h1
    obtain ⟨m', refs, g1, g2, g3, g4⟩ := mutRun_spec Iter.stepOK acts i1 (by simpa using i2)
    refine Agrees.ok (a' := a) (m' := m') (by simp only [h1, g1, Exec.ok_bind]) id ⟨g2, ?_⟩ rfl g3
    have hk := Cursor.acts_keys (⟨m.toList, 0, m.toList.length, []⟩ : Cursor K V) acts
    rw [g3]
    have hs := hm.sorted
    unfold Sorted at hs ⊢
    have h2 := (List.pairwise_map (f := fun (x : K × V) => x.1) (R := fun a b => compare a b = .lt)).2 hs
    exact (List.pairwise_map (f := fun (x : K × V) => x.1) (R := fun a b => compare a b = .lt)).1 (by rw [hk]; exact h2)
  | rangeMut i lo hi acts =>
    refine onMap_agrees (F := fun _ _ => True) hp i a fun m hm => ?_
    obtain ⟨m', h1, h2, h3⟩ := rangeMutRun_spec hbo hm lo hi acts
    exact Agrees.ok (a' := a) (m' := m') (by simp only [h1, Exec.ok_bind]) id h2 rfl h3
  | intoIter i es =>
    refine onMap_agrees (F := fun _ _ => True) hp i a fun m hm => ?_
    obtain ⟨it, h1, h2, h3⟩ := Map.iter_spec hm.toShaped
    obtain ⟨it', h4, _⟩ := Iter.run_spec hm.below es h3 (by rw [h2, hm.len]; simp)
    exact Agrees.ok (a' := a) (m' := Map.new) (by simp only [h1, h4, Exec.ok_bind]) id Map.Valid_new rfl rfl
  | entryOrInsert i k v f => exact onMap_agrees hp i a fun m hm => entryOrInsert_agrees hm k v f
  | entryOrInsertWith i k v f => exact onMap_agrees hp i a fun m hm => entryOrInsertWith_agrees hm k v f
  | entryRemove i k => exact onMap_agrees hp i a fun m hm => entryRemove_agrees hm k
  | entryModify i k f => exact onMap_agrees hp i a fun m hm => entryModify_agrees hm k f
  | entryKey i k => exact onMap_agrees hp i a fun m hm => entryKeyOf_agrees hm k
  | entryInsert i k v => exact onMap_agrees hp i a fun m hm => entryInsert_agrees hm k v
  | tryClone i ck cv =>
    simp only [Op.run, Op.spec, List.getElem?_map]
    cases hi : p[i]? with
    | none => exact .inr ⟨_, p, a, rfl, id, .inr ⟨hp, rfl, rfl⟩⟩
    | some m =>
      have hm := hp m (List.mem_of_getElem? hi)
      obtain ⟨r, a', h1, h2, h3⟩ := Map.tryClone_wf (keyCloner ck) (valCloner cv) hm.toShaped a
      have hgood := fun hg => h3 hg (fun x a hg => hg) (fun x a hg => hg)
      dsimp only [Option.map_some]
      cases r with
      | error er =>
        cases hc : cloneList ck cv m.toList with
        | none => exact .inr ⟨.failed, p, a', by simp [h1], fun hg => (hgood hg).1, .inr ⟨hp, rfl, rfl⟩⟩
        | some l' =>
          refine .inr ⟨.failed, p, a', by simp [h1], fun hg => (hgood hg).1, .inl ⟨rfl, fun hg => ?_⟩⟩
          obtain ⟨c, hc'⟩ := (hgood hg).2 (cloneList_at hc)
          cases hc'
      | ok c =>
        obtain ⟨e1, e2⟩ := h2 c rfl
        have hc := cloneList_all ck cv e2
        rw [hc]
        refine .inr ⟨.done, p ++ [c], a', by simp [h1], fun hg => (hgood hg).1, .inr ⟨fun x hx => ?_, rfl, by simp⟩⟩
        rcases List.mem_append.1 hx with hx | hx
        · exact hp x hx
        · obtain rfl := by simpa using hx
          refine ⟨e1, ?_⟩
          exact Sorted.of_keys (cloneList_keys hc) hm.sorted
  | views i acts =>
    refine onMap_agrees (F := fun _ _ => True) hp i a fun m hm => ?_
    exact Agrees.ok (a' := a) (m' := m) (by simp only [ViewAct.runs_spec hbo hm acts (vs := []) (ps := []) ⟨rfl, by simp⟩, Exec.ok_bind]) id hm rfl rfl
  | replace i k v => exact onMap_agrees hp i a fun m hm => replaceCall_agrees hm k v
  | take i q =>
    refine onMap_agrees (F := fun _ _ => True) hp i a fun m hm => ?_
    obtain ⟨m', h1, h2, h3⟩ := Map.removeEntry_ordered hbo hm q
    exact Agrees.ok (a' := a) (m' := m') (by simp only [h1, Exec.ok_bind]) id h2 rfl h3

end

end Verif.BTree
