import Verif.BTree.Proofs.Calls
import Verif.BTree.Proofs.Budget
/-
What a failed insertion leaves behind, whatever the `Ord`.
-/
namespace Verif.BTree
open Verif Verif.Spec

variable {K V Q : Type}

/-- A map that is still `new()` and stays it, or one whose length went up although there is no place for what it counts. -/
def Spoilt (m m' : Map K V) : Prop :=
  (m.length = 0 ∧ m' = m) ∨ (m.length ≠ 0 ∧ m'.shared = false ∧ m'.length = m.length + 1 ∧ m'.toList.length < m'.length)

theorem Map.WF.empty {m : Map K V} (h : m.WF) (hl : m.length = 0) : m.height = 0 ∧ m.root.len = 0 := by
  obtain ⟨s1, s2, s3⟩ := h.shape
  have ht : BTree.toList m.height m.root = [] := by
    have := h.len
    exact List.eq_nil_of_length_eq_zero (by simp only [Map.toList] at this; omega)
  cases hh : m.height with
  | zero =>
    rw [hh, toList_zero] at ht
    exact ⟨rfl, by simp [Tree.len, ht]⟩
  | succ n =>
    have := s2 (by omega)
    rw [hh, toList_succ] at ht
    rw [hh] at s3
    obtain ⟨e, _⟩ := s3
    cases hk : m.root.kvs with
    | nil => simp [Tree.len, hk] at this
    | cons kv kvs =>
      match he : m.root.edges, e with
      | [], e => simp at e
      | [c], e => simp [Tree.len, hk] at e
      | c :: c2 :: cs, _ => rw [hk, he] at ht; simp [inter] at ht

theorem vacantInsert_spoilt {m m' : Map K V} (h : m.WF) (hs : m.shared = false) {hd : Handle} {A B : List (K × V)} (hg : m.Gap hd A B) {k : K} {v : V}
    {a a' : Alloc} {e : TryReserveError} (hr : m.vacantInsert hd k v a = .ok (.error e, m', a')) : Spoilt m m' := by
  obtain ⟨r, m1, a1, h1, h2, h3, h4, _⟩ := Map.vacantInsert_spec h hs hg k v a
  obtain ⟨rfl, rfl, rfl⟩ := by simpa using Exec.ok_unique hr h1
  obtain ⟨⟨x, hx, hsh⟩, _⟩ := h4
  refine .inr ⟨fun hl => ?_, h2, h3, by have := hsh.len; omega⟩
  obtain ⟨e1, e2⟩ := h.empty hl
  obtain ⟨n, f1, f2, _⟩ := vacantInsert_empty hs e1 (by rw [e2]; decide) hr
  obtain ⟨j, e', _⟩ := f2.2
  omega

section
variable [Ord K]

theorem tryEntry_split {m : Map K V} (h : m.WF) (k : K) (a : Alloc) :
    (∃ er a', m.tryEntry k a = .ok (.error er, m, a') ∧ m.length = 0) ∨
    (∃ e m' a', m.tryEntry k a = .ok (.ok e, m', a') ∧ m'.WF ∧ m'.shared = false ∧ m'.length = m.length ∧
      ∀ k' hd, e = .vacant k' hd → ∃ A B, m'.Gap hd A B) := by
  obtain ⟨r, m', a', h1, h2, h3, h4, h5, h6⟩ := Map.tryEntry_wf h k a
  cases r with
  | error e =>
    obtain rfl := h5
    refine .inl ⟨e, a', h1, ?_⟩
    obtain ⟨_, _, f3, _⟩ := tryEntry_paid (fun hs => (h.shared hs).1) h1
    have hs := (f3 rfl).2
    have hh := h.shared hs
    have := h.len
    rw [Map.toList, hh.1, hh.2] at this
    simpa [emptyLeaf] using this
  | ok e =>
    cases e with
    | occupied hd => exact .inr ⟨_, m', a', h1, h2, h5.1, h4, by simp⟩
    | vacant k' hd =>
      refine .inr ⟨_, m', a', h1, h2, h5.1, h4, fun k'' hd' e => ?_⟩
      cases e
      exact h5.2.2

omit [Ord K] in
theorem vacant_spoilt {m m1 m' : Map K V} (h : m1.WF) (hs : m1.shared = false) (hl : m1.length = m.length) {hd : Handle} {A B : List (K × V)}
    (hg : m1.Gap hd A B) {k : K} {v : V} {a a' : Alloc} {e : TryReserveError} (hr : m1.vacantInsert hd k v a = .ok (.error e, m', a')) : Spoilt m m' := by
  rcases vacantInsert_spoilt h hs hg hr with ⟨h1, h2⟩ | ⟨h1, h2, h3, h4⟩
  · have := (Map.vacantInsert_spec h hs hg k v a)
    obtain ⟨r, m2, a2, g1, g2, g3, _⟩ := this
    obtain ⟨_, rfl, _⟩ := by simpa using Exec.ok_unique hr g1
    rw [h2] at g3
    omega
  · exact .inr ⟨by omega, h2, by omega, h4⟩

theorem tryInsert_spoilt {m m' : Map K V} (h : m.WF) {k : K} {v : V} {a a' : Alloc} {e : TryReserveError}
    (hr : m.tryInsert k v a = .ok (.error e, m', a')) : Spoilt m m' := by
  rcases tryEntry_split h k a with ⟨er, a1, h1, h2⟩ | ⟨en, m1, a1, h1, h2, h3, h4, h5⟩
  · simp only [Map.tryInsert, h1, Exec.ok_bind, Exec.ok.injEq, Prod.mk.injEq] at hr
    exact .inl ⟨h2, hr.2.1.symm⟩
  · simp only [Map.tryInsert, h1, Exec.ok_bind] at hr
    cases en with
    | occupied hd =>
      obtain ⟨x, _, hr⟩ := Exec.bind_eq_ok.1 hr
      simp at hr
    | vacant k' hd =>
      obtain ⟨⟨r, m2, a2⟩, g1, hr⟩ := Exec.bind_eq_ok.1 hr
      cases r with
      | ok x => simp at hr
      | error er =>
        obtain ⟨rfl, rfl, rfl⟩ := by simpa using hr
        obtain ⟨A, B, hg⟩ := h5 k' hd rfl
        exact vacant_spoilt h2 h3 h4 hg g1

/-- An insertion into an empty map fails only if the map has never held anything and the first request is refused. -/
theorem tryInsert_failed_empty {m m' : Map K V} (h : m.WF) (hl : m.length = 0) {k : K} {v : V} {a a' : Alloc} {e : TryReserveError}
    (hr : m.tryInsert k v a = .ok (.error e, m', a')) : m.shared = true ∧ a 0 = false ∧ m' = m := by
  rcases tryEntry_split h k a with ⟨er, a1, h1, h2⟩ | ⟨en, m1, a1, h1, h2, h3, h4, h5⟩
  · obtain ⟨_, _, f3, _⟩ := tryEntry_paid (fun hs => (h.shared hs).1) h1
    have hs := (f3 rfl).2
    refine ⟨hs, ?_, ?_⟩
    · cases ha : a 0 with
      | false => rfl
      | true =>
        simp only [Map.tryEntry, Map.ensureRootIsOwned, hs, Alloc.request, ha, if_true] at h1
        obtain ⟨r, _, h1⟩ := Exec.bind_eq_ok.1 h1
        cases r <;> simp at h1
    · simp only [Map.tryInsert, h1, Exec.ok_bind, Exec.ok.injEq, Prod.mk.injEq] at hr
      exact hr.2.1.symm
  · exfalso
    rcases tryInsert_spoilt h hr with ⟨_, rfl⟩ | ⟨f, _⟩
    · simp only [Map.tryInsert, h1, Exec.ok_bind] at hr
      cases en with
      | occupied hd =>
        obtain ⟨x, _, hr⟩ := Exec.bind_eq_ok.1 hr
        simp at hr
      | vacant k' hd =>
        obtain ⟨⟨r, m2, a2⟩, g1, hr⟩ := Exec.bind_eq_ok.1 hr
        cases r with
        | ok x => simp at hr
        | error er =>
          obtain ⟨rfl, rfl, rfl⟩ := by simpa using hr
          obtain ⟨A, B, hg⟩ := h5 k' hd rfl
          obtain ⟨r, m2, a2, g3, _, g4, _⟩ := Map.vacantInsert_spec h2 h3 hg k' v a1
          obtain ⟨_, rfl, _⟩ := by simpa using Exec.ok_unique g1 g3
          omega
    · exact f hl

/-- A successful insertion leaves something. -/
theorem tryInsert_nonempty {m m' : Map K V} (h : m.WF) {k : K} {v : V} {a a' : Alloc} {old : Option V}
    (hr : m.tryInsert k v a = .ok (.ok old, m', a')) : m'.WF ∧ m'.length ≠ 0 := by
  obtain ⟨r, m1, a1, h1, h2, _⟩ := Map.tryInsert_wf h k v a
  obtain ⟨rfl, rfl, rfl⟩ := by simpa using Exec.ok_unique hr h1
  refine ⟨h2.1, fun hz => ?_⟩
  have h3 := h2.2
  have h4 : m'.toList.length = m'.length := (h2.1.len.trans (Nat.add_zero _)).symm
  have h5 : m.toList.length = m.length := (h.len.trans (Nat.add_zero _)).symm
  cases old with
  | none => simp at h3; omega
  | some old =>
    simp only [Option.isSome_some, if_true] at h3
    obtain ⟨r, m1, a1, g1, g2, g3, g4, g5, _⟩ := Map.tryEntry_wf h k a
    simp only [Map.tryInsert, g1, Exec.ok_bind] at hr
    cases r with
    | error e => simp at hr
    | ok e =>
      cases e with
      | vacant k' hd =>
        obtain ⟨⟨r, m2, a2⟩, _, hr⟩ := Exec.bind_eq_ok.1 hr
        cases r <;> simp at hr
      | occupied hd =>
        obtain ⟨_, A, kv, B, hp, _⟩ := g5
        have := hp.toList
        rw [g3] at this
        have := congrArg List.length this
        simp at this
        omega

theorem extend_nonempty : ∀ {l : List (K × V)} {m m' : Map K V} (_ : m.WF) {a a' : Alloc} (_ : m.extend l a = .ok (m', a')),
    m'.WF ∧ (m.length ≠ 0 ∨ l ≠ [] → m'.length ≠ 0)
  | [], m, m', h, a, a', hr => by
    simp only [Map.extend, Exec.ok.injEq, Prod.mk.injEq] at hr
    obtain ⟨rfl, rfl⟩ := hr
    exact ⟨h, fun h => h.elim id fun h => absurd rfl h⟩
  | (k, v) :: l, m, m', h, a, a', hr => by
    simp only [Map.extend] at hr
    obtain ⟨⟨r, m1, a1⟩, g1, hr⟩ := Exec.bind_eq_ok.1 hr
    cases r with
    | error e => simp at hr
    | ok old =>
      obtain ⟨h1, h2⟩ := tryInsert_nonempty h g1
      obtain ⟨h3, h4⟩ := extend_nonempty h1 hr
      exact ⟨h3, fun _ => h4 (.inl h2)⟩

omit [Ord K] in
theorem orTryInsert_spoilt {m m1 m' : Map K V} (h : m1.WF) (hs : m1.shared = false) (hl : m1.length = m.length) {en : Entry K}
    (he : ∀ k' hd, en = .vacant k' hd → ∃ A B, m1.Gap hd A B) {v : V} {a a' : Alloc} {e : TryReserveError}
    (hr : m1.orTryInsert en v a = .ok (.error e, m', a')) : Spoilt m m' := by
  cases en with
  | occupied hd => simp [Map.orTryInsert] at hr
  | vacant k' hd =>
    obtain ⟨A, B, hg⟩ := he k' hd rfl
    exact vacant_spoilt h hs hl hg hr

theorem entryOrInsert_spoilt {m m' : Map K V} (h : m.WF) {k : K} {v : V} {f : V → V} {a a' : Alloc}
    (hr : m.entryOrInsert k v f a = .ok (.failed, m', a')) : Spoilt m m' := by
  rcases tryEntry_split h k a with ⟨er, a1, h1, h2⟩ | ⟨en, m1, a1, h1, h2, h3, h4, h5⟩
  · simp only [Map.entryOrInsert, h1, Exec.ok_bind, Exec.ok.injEq, Prod.mk.injEq] at hr
    exact .inl ⟨h2, hr.2.1.symm⟩
  · simp only [Map.entryOrInsert, h1, Exec.ok_bind] at hr
    obtain ⟨⟨r, m2, a2⟩, g1, hr⟩ := Exec.bind_eq_ok.1 hr
    cases r with
    | ok x =>
      obtain ⟨o, _, hr⟩ := Exec.bind_eq_ok.1 hr
      obtain ⟨o, _, hr⟩ := Exec.bind_eq_ok.1 hr
      simp at hr
    | error er =>
      obtain ⟨rfl, rfl⟩ := by simpa using hr
      exact orTryInsert_spoilt h2 h3 h4 h5 g1

theorem entryOrInsertWith_spoilt {m m' : Map K V} (h : m.WF) {k : K} {v : V} {f : V → V} {a a' : Alloc}
    (hr : m.entryOrInsertWith k v f a = .ok (.failed, m', a')) : Spoilt m m' := by
  rcases tryEntry_split h k a with ⟨er, a1, h1, h2⟩ | ⟨en, m1, a1, h1, h2, h3, h4, h5⟩
  · simp only [Map.entryOrInsertWith, h1, Exec.ok_bind, Exec.ok.injEq, Prod.mk.injEq] at hr
    exact .inl ⟨h2, hr.2.1.symm⟩
  · simp only [Map.entryOrInsertWith, h1, Exec.ok_bind] at hr
    obtain ⟨⟨r, m2, a2, ran⟩, g1, hr⟩ := Exec.bind_eq_ok.1 hr
    cases r with
    | ok x =>
      obtain ⟨o, _, hr⟩ := Exec.bind_eq_ok.1 hr
      simp at hr
    | error er =>
      obtain ⟨rfl, rfl⟩ := by simpa using hr
      cases en with
      | occupied hd => simp [Map.orTryInsertWith] at g1
      | vacant k' hd =>
        simp only [Map.orTryInsertWith] at g1
        obtain ⟨⟨r, m3, a3⟩, g2, g1⟩ := Exec.bind_eq_ok.1 g1
        obtain ⟨rfl, rfl, rfl, _⟩ := by simpa using g1
        obtain ⟨A, B, hg⟩ := h5 k' hd rfl
        exact vacant_spoilt h2 h3 h4 hg g2

theorem replaceKey_spoilt {m m' : Map K V} (h : m.WF) {k : K} {v : V} {a a' : Alloc} {e : TryReserveError}
    (hr : m.replaceKey k v a = .ok (.error e, m', a')) : Spoilt m m' := by
  rcases tryEntry_split h k a with ⟨er, a1, h1, h2⟩ | ⟨en, m1, a1, h1, h2, h3, h4, h5⟩
  · simp only [Map.replaceKey] at hr
    simp only [Map.tryEntry] at h1
    cases hz : (m.ensureRootIsOwned a).1 with
    | error e =>
      rw [hz] at hr h1
      simp only [Exec.ok.injEq, Prod.mk.injEq] at hr h1
      exact .inl ⟨h2, by rw [← hr.2.1, h1.2.1]⟩
    | ok u =>
      rw [hz] at h1
      obtain ⟨sr, g1, h1⟩ := Exec.bind_eq_ok.1 h1
      cases sr <;> simp at h1
  · simp only [Map.replaceKey] at hr
    simp only [Map.tryEntry] at h1
    cases hz : (m.ensureRootIsOwned a).1 with
    | error e =>
      rw [hz] at h1
      simp at h1
    | ok u =>
      rw [hz] at hr h1
      dsimp only at hr h1
      obtain ⟨sr, g1, h1⟩ := Exec.bind_eq_ok.1 h1
      rw [g1, Exec.ok_bind] at hr
      cases sr with
      | found hd =>
        obtain ⟨p, _, hr⟩ := Exec.bind_eq_ok.1 hr
        simp at hr
      | goDown hd =>
        simp only [Exec.ok.injEq, Prod.mk.injEq, Except.ok.injEq] at h1
        obtain ⟨rfl, rfl, rfl⟩ := h1
        obtain ⟨⟨r, m2, a2⟩, g2, hr⟩ := Exec.bind_eq_ok.1 hr
        obtain ⟨A, B, hg⟩ := h5 k hd rfl
        cases r with
        | ok x => simp at hr
        | error er =>
          obtain ⟨rfl, rfl, rfl⟩ := by simpa using hr
          exact vacant_spoilt h2 h3 h4 hg g2

end

/-- The map a call may insert into. -/
def insertsInto : Op K V Q → Option Nat
  | .insert i _ _ => some i
  | .entryOrInsert i _ _ _ => some i
  | .entryOrInsertWith i _ _ _ => some i
  | .replace i _ _ => some i
  | _ => none

theorem onMap_failed {p p' : List (Map K V)} {i : Nat} {a a' : Alloc} {f : Map K V → Exec (Out K V × Map K V × Alloc)}
    (hr : onMap p i a f = .ok (.failed, p', a')) : ∃ m m', p[i]? = some m ∧ p' = p.set i m' ∧ f m = .ok (.failed, m', a') := by
  unfold onMap at hr
  cases hi : p[i]? with
  | none => rw [hi] at hr; simp at hr
  | some m =>
    rw [hi] at hr
    obtain ⟨⟨o, m', a1⟩, h1, hr⟩ := Exec.bind_eq_ok.1 hr
    simp only [Exec.ok.injEq, Prod.mk.injEq] at hr
    obtain ⟨rfl, rfl, rfl⟩ := hr
    exact ⟨m, m', rfl, rfl, h1⟩

/-- A call whose insertion failed leaves the other maps as they were, and its own map spoilt. -/
theorem Op.run_spoilt [Ord K] [Ord Q] (bor : K → Q) {p p' : List (Map K V)} (hp : ∀ m ∈ p, m.WF) {a a' : Alloc} {op : Op K V Q} {i : Nat}
    (hi : insertsInto op = some i) (hr : Op.run bor p a op = .ok (.failed, p', a')) :
    ∃ m m', p[i]? = some m ∧ p' = p.set i m' ∧ Spoilt m m' := by
  cases op <;> simp only [insertsInto, Option.some.injEq, reduceCtorEq] at hi <;> subst hi <;> obtain ⟨m, m', h1, h2, h3⟩ := onMap_failed hr <;>
    refine ⟨m, m', h1, h2, ?_⟩ <;> have hm := hp m (List.mem_of_getElem? h1)
  case insert k v =>
    obtain ⟨⟨r, m1, a1⟩, g1, g2⟩ := Exec.bind_eq_ok.1 h3
    cases r with
    | ok x => simp at g2
    | error e =>
      obtain ⟨rfl, rfl⟩ := by simpa using g2
      exact tryInsert_spoilt hm g1
  case entryOrInsert k v f => exact entryOrInsert_spoilt hm h3
  case entryOrInsertWith k v f => exact entryOrInsertWith_spoilt hm h3
  case replace k v =>
    obtain ⟨⟨r, m1, a1⟩, g1, g2⟩ := Exec.bind_eq_ok.1 h3
    cases r with
    | ok x => simp at g2
    | error e =>
      obtain ⟨rfl, rfl⟩ := by simpa using g2
      exact replaceKey_spoilt hm g1

end Verif.BTree
