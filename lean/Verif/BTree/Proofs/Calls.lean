import Verif.BTree.Proofs.History
/-
Programs over maps whose keys have any `Ord`, lawful or not: no call has undefined behaviour, and the maps stay structurally
valid as long as no insertion fails.
-/
namespace Verif.Spec

variable {K V Q : Type}

/-- The calls whose failure may damage the map (see C15). -/
def Op.inserts : Op K V Q → Bool
  | .insert .. => true
  | .entryOrInsert .. => true
  | .entryOrInsertWith .. => true
  | .replace .. => true
  | _ => false

end Verif.Spec

namespace Verif.BTree
open Verif Verif.Spec

variable {K V Q : Type}

/-- A call on one map returns, with the map as valid as before unless an insertion failed: then the length may be further off. -/
def CallWF (b : Bool) (n : Nat) (x : Exec (Out K V × Map K V × Alloc)) : Prop :=
  ∃ o m' a', x = .ok (o, m', a') ∧ ((b = true ∧ o = .failed ∧ ∃ y, m'.Shaped y) ∨ m'.Shaped n)

/-- The same on the pool; `append`, `extend` and `clone` may panic. -/
def PoolWF (b : Bool) (x : Exec (Out K V × List (Map K V) × Alloc)) : Prop :=
  (∃ msg, x = .panic msg) ∨ ∃ o p' a', x = .ok (o, p', a') ∧ ((b = true ∧ o = .failed) ∨ ∀ m ∈ p', m.WF)

theorem mem_set_wf {p : List (Map K V)} (hp : ∀ m ∈ p, m.WF) {i : Nat} {m' : Map K V} (h : m'.WF) : ∀ m ∈ p.set i m', m.WF := by
  intro x hx
  rcases List.mem_or_eq_of_mem_set hx with hx | rfl
  · exact hp x hx
  · exact h

theorem mem_snoc_wf {p : List (Map K V)} (hp : ∀ m ∈ p, m.WF) {m' : Map K V} (h : m'.WF) : ∀ m ∈ p ++ [m'], m.WF := by
  intro x hx
  rcases List.mem_append.1 hx with hx | hx
  · exact hp x hx
  · obtain rfl := by simpa using hx
    exact h

theorem onMap_wf {b : Bool} {p : List (Map K V)} (hp : ∀ m ∈ p, m.WF) (i : Nat) (a : Alloc) {f : Map K V → Exec (Out K V × Map K V × Alloc)}
    (h : ∀ m, m.WF → (∃ msg, f m = .panic msg) ∨ CallWF b 0 (f m)) : PoolWF b (onMap p i a f) := by
  unfold onMap
  cases hi : p[i]? with
  | none => exact .inr ⟨_, p, a, rfl, .inr hp⟩
  | some m =>
    rcases h m (hp m (List.mem_of_getElem? hi)) with ⟨msg, h1⟩ | ⟨o, m', a', h1, h2⟩
    · exact .inl ⟨msg, by simp [h1]⟩
    · refine .inr ⟨o, p.set i m', a', by simp [h1], h2.imp (fun h2 => ⟨h2.1, h2.2.1⟩) fun h2 => mem_set_wf hp h2⟩

section
variable [Ord K]

theorem insertCall_wf {x : Nat} {m : Map K V} (h : m.Shaped x) (k : K) (v : V) (a : Alloc) :
    CallWF true x (do
      let (r, m, a) ← m.tryInsert k v a
      match r with
      | .ok old => .ok (.value old, m, a)
      | .error _ => .ok (.failed, m, a)) := by
  obtain ⟨r, m', a', h1, h2, h3⟩ := Map.tryInsert_wf h k v a
  simp only [h1, Exec.ok_bind]
  cases r with
  | error e =>
    obtain ⟨y, _, h4⟩ := h2
    exact ⟨_, m', a', rfl, .inl ⟨rfl, rfl, y, h4⟩⟩
  | ok old => exact ⟨_, m', a', rfl, .inr h2.1⟩

theorem Map.orTryInsert_wf {x : Nat} {m : Map K V} (h : m.Shaped x) (hs : m.shared = false) {k : K} {e : Entry K}
    (he : match e with
      | .occupied hd => ∃ A kv B, m.Points hd A kv B ∧ compare k kv.1 = .eq
      | .vacant k' hd => k' = k ∧ ∃ A B, m.Gap hd A B) (v : V) (a : Alloc) :
    ∃ r m' a', m.orTryInsert e v a = .ok (r, m', a') ∧ (∀ hd, r = .ok hd → m'.Shaped x ∧ ∃ A kv B, m'.Points hd A kv B) ∧ ∃ y, m'.Shaped y := by
  cases e with
  | occupied hd =>
    obtain ⟨A, kv, B, h1, _⟩ := he
    exact ⟨.ok hd, m, a, rfl, fun hd' e => by cases e; exact ⟨h, A, kv, B, h1⟩, x, h⟩
  | vacant k' hd =>
    obtain ⟨_, A, B, h1⟩ := he
    obtain ⟨r, m', a', g1, g2, g3, g4, g5⟩ := Map.vacantInsert_spec h hs h1 k' v a
    refine ⟨r, m', a', g1, fun hd' e => ?_, ?_⟩
    · subst e
      exact ⟨g4.1, A, _, B, g4.2⟩
    · cases r with
      | error e => exact ⟨_, g4.1.choose_spec.2⟩
      | ok loc => exact ⟨x, g4.1⟩

theorem tryEntry_wf' {x : Nat} {m : Map K V} (h : m.Shaped x) (k : K) (a : Alloc) :
    (∃ er a', m.tryEntry k a = .ok (.error er, m, a')) ∨
    (∃ e m' a', m.tryEntry k a = .ok (.ok e, m', a') ∧ m'.Shaped x ∧ m'.shared = false ∧
      match e with
      | .occupied hd => ∃ A kv B, m'.Points hd A kv B ∧ compare k kv.1 = .eq
      | .vacant k' hd => k' = k ∧ ∃ A B, m'.Gap hd A B) := by
  obtain ⟨r, m', a', h1, h2, h3, h4, h5, h6⟩ := Map.tryEntry_wf h k a
  cases r with
  | error e =>
    obtain rfl := h5
    exact .inl ⟨e, a', h1⟩
  | ok e =>
    cases e with
    | occupied hd => exact .inr ⟨_, m', a', h1, h2, h5.1, h5.2⟩
    | vacant k' hd => exact .inr ⟨_, m', a', h1, h2, h5.1, h5.2⟩

theorem entryOrInsert_wf {x : Nat} {m : Map K V} (h : m.Shaped x) (k : K) (v : V) (f : V → V) (a : Alloc) : CallWF true x (m.entryOrInsert k v f a) := by
  rcases tryEntry_wf' h k a with ⟨er, a', h1⟩ | ⟨e, m', a', h1, h2, h3, h4⟩
  · exact ⟨.failed, m, a', by simp [Map.entryOrInsert, h1], .inr h⟩
  · obtain ⟨r, m2, a2, g1, g2, g3⟩ := Map.orTryInsert_wf h2 h3 h4 v a'
    cases r with
    | error er => exact ⟨.failed, m2, a2, by simp [Map.entryOrInsert, h1, g1], .inl ⟨rfl, rfl, g3⟩⟩
    | ok hd =>
      obtain ⟨g3, A, kv, B, g4⟩ := g2 hd rfl
      obtain ⟨m3, e1, e2, e3⟩ := Map.occUpdate_wf g3 g4 f
      exact ⟨_, m3, a2, by simp only [Map.entryOrInsert, h1, Exec.ok_bind, g1, Map.occGet, g4.kvAt, e1]; rfl, .inr e2⟩

theorem entryOrInsertWith_wf {x : Nat} {m : Map K V} (h : m.Shaped x) (k : K) (v : V) (f : V → V) (a : Alloc) : CallWF true x (m.entryOrInsertWith k v f a) := by
  rcases tryEntry_wf' h k a with ⟨er, a', h1⟩ | ⟨e, m', a', h1, h2, h3, h4⟩
  · exact ⟨.failed, m, a', by simp [Map.entryOrInsertWith, h1], .inr h⟩
  · obtain ⟨r, m2, a2, g1, g2, g3⟩ := Map.orTryInsert_wf h2 h3 h4 v a'
    have g0 : ∃ ran, m'.orTryInsertWith e (fun _ => v) a' = .ok (r, m2, a2, ran) := by
      cases e with
      | occupied hd =>
        simp only [Map.orTryInsert, Exec.ok.injEq, Prod.mk.injEq] at g1
        obtain ⟨rfl, rfl, rfl⟩ := g1
        exact ⟨false, rfl⟩
      | vacant k' hd =>
        simp only [Map.orTryInsert] at g1
        exact ⟨true, by simp [Map.orTryInsertWith, g1]⟩
    obtain ⟨ran, g0⟩ := g0
    cases r with
    | error er => exact ⟨.failed, m2, a2, by simp [Map.entryOrInsertWith, h1, g0], .inl ⟨rfl, rfl, g3⟩⟩
    | ok hd =>
      obtain ⟨g3, A, kv, B, g4⟩ := g2 hd rfl
      obtain ⟨m3, e1, e2, e3⟩ := Map.occUpdate_wf g3 g4 f
      exact ⟨_, m3, a2, by simp only [Map.entryOrInsertWith, h1, Exec.ok_bind, g0, e1]; rfl, .inr e2⟩

theorem entryRemove_wf {x : Nat} {m : Map K V} (h : m.Shaped x) (k : K) (a : Alloc) : CallWF false x (m.entryRemove k a) := by
  rcases tryEntry_wf' h k a with ⟨er, a', h1⟩ | ⟨e, m', a', h1, h2, h3, h4⟩
  · exact ⟨.failed, m, a', by simp [Map.entryRemove, h1], .inr h⟩
  · cases e with
    | occupied hd =>
      obtain ⟨A, kv, B, g1, _⟩ := h4
      obtain ⟨m2, e1, e2, _⟩ := Map.removeKv_spec h2 g1
      exact ⟨_, m2, a', by simp only [Map.entryRemove, h1, Exec.ok_bind, Map.occRemoveEntry, e1]; rfl, .inr e2⟩
    | vacant k' hd => exact ⟨_, m', a', by simp only [Map.entryRemove, h1, Exec.ok_bind]; rfl, .inr h2⟩

theorem entryModify_wf {x : Nat} {m : Map K V} (h : m.Shaped x) (k : K) (f : V → V) (a : Alloc) : CallWF false x (m.entryModify k f a) := by
  rcases tryEntry_wf' h k a with ⟨er, a', h1⟩ | ⟨e, m', a', h1, h2, h3, h4⟩
  · exact ⟨.failed, m, a', by simp [Map.entryModify, h1], .inr h⟩
  · cases e with
    | occupied hd =>
      obtain ⟨A, kv, B, g1, _⟩ := h4
      obtain ⟨m2, e1, e2, _⟩ := Map.setVal_spec h2 g1 (f kv.2)
      exact ⟨_, m2, a', by simp only [Map.entryModify, h1, Exec.ok_bind, Map.andModify, g1.kvAt, e1]; rfl, .inr e2⟩
    | vacant k' hd => exact ⟨_, m', a', by simp only [Map.entryModify, h1, Exec.ok_bind, Map.andModify]; rfl, .inr h2⟩

theorem entryKeyOf_wf {x : Nat} {m : Map K V} (h : m.Shaped x) (k : K) (a : Alloc) : CallWF false x (m.entryKeyOf k a) := by
  rcases tryEntry_wf' h k a with ⟨er, a', h1⟩ | ⟨e, m', a', h1, h2, h3, h4⟩
  · exact ⟨.failed, m, a', by simp [Map.entryKeyOf, h1], .inr h⟩
  · cases e with
    | occupied hd =>
      obtain ⟨A, kv, B, g1, _⟩ := h4
      exact ⟨_, m', a', by simp only [Map.entryKeyOf, h1, Exec.ok_bind, Map.entryKey, g1.kvAt]; rfl, .inr h2⟩
    | vacant k' hd => exact ⟨_, m', a', by simp only [Map.entryKeyOf, h1, Exec.ok_bind, Map.entryKey]; rfl, .inr h2⟩

theorem entryInsert_wf {x : Nat} {m : Map K V} (h : m.Shaped x) (k : K) (v : V) (a : Alloc) : CallWF false x (m.entryInsert k v a) := by
  rcases tryEntry_wf' h k a with ⟨er, a', h1⟩ | ⟨e, m', a', h1, h2, h3, h4⟩
  · exact ⟨.failed, m, a', by simp [Map.entryInsert, h1], .inr h⟩
  · cases e with
    | occupied hd =>
      obtain ⟨A, kv, B, g1, _⟩ := h4
      obtain ⟨m2, e1, e2, _⟩ := Map.setVal_spec h2 g1 v
      exact ⟨_, m2, a', by simp only [Map.entryInsert, h1, Exec.ok_bind, Map.occInsert, e1]; rfl, .inr e2⟩
    | vacant k' hd => exact ⟨_, m', a', by simp only [Map.entryInsert, h1, Exec.ok_bind]; rfl, .inr h2⟩

end

section
variable [Ord Q]

theorem getKeyValue_wf {x : Nat} {m : Map K V} (h : m.Shaped x) (bor : K → Q) (q : Q) : ∃ r, m.getKeyValue bor q = .ok r ∧ m.get bor q = .ok (r.map (·.2)) := by
  rcases Map.search_wf h bor q with ⟨hd, A, kv, B, h1, h2, h3⟩ | ⟨hd, A, B, h1, h2⟩
  · exact ⟨some kv, by simp [Map.getKeyValue, h1, h2.kvAt], by simp [Map.get, h1, h2.kvAt]⟩
  · exact ⟨none, by simp [Map.getKeyValue, h1], by simp [Map.get, h1]⟩

theorem updateVal_wf {x : Nat} {m : Map K V} (h : m.Shaped x) (bor : K → Q) (q : Q) (f : V → V) :
    ∃ b m', m.updateVal bor q f = .ok (b, m') ∧ m'.Shaped x := by
  rcases Map.getMut_wf (bor := bor) h q with ⟨hd, A, kv, B, h1, h2⟩ | h1
  · obtain ⟨m', e1, e2, e3⟩ := Map.occUpdate_wf h h2 f
    exact ⟨true, m', by simp [Map.updateVal, h1, e1], e2⟩
  · exact ⟨false, m, by simp [Map.updateVal, h1], h⟩

theorem rangeRun_wf {x : Nat} {m : Map K V} (h : m.Shaped x) (bor : K → Q) (lo hi : Bound Q) (es : List End) : ∃ o, m.rangeRun bor lo hi es = .ok o := by
  rcases Map.range_wf h bor lo hi with ⟨msg, h2⟩ | ⟨_, r, pre, mid, post, h2, w⟩
  · exact ⟨.panicked, by simp [Map.rangeRun, h2]⟩
  · obtain ⟨r', h3⟩ := Range.run_spec h.below es w
    exact ⟨_, by simp only [Map.rangeRun, h2, h3, Exec.ok_bind]; rfl⟩

theorem rangeMutRun_wf {x : Nat} {m : Map K V} (h : m.Shaped x) (bor : K → Q) (lo hi : Bound Q) (acts : List (MutAct V)) :
    ∃ o m', m.rangeMutRun bor lo hi acts = .ok (o, m') ∧ m'.Shaped x := by
  rcases Map.range_wf h bor lo hi with ⟨msg, h2⟩ | ⟨_, r, pre, mid, post, h2, w⟩
  · exact ⟨.panicked, m, by simp [Map.rangeMutRun, h2], h⟩
  · obtain ⟨m', refs, g1, g2, g3, g4⟩ := mutRun_spec Range.stepOK acts (MutInv.range h w) trivial
    exact ⟨_, m', by simp only [Map.rangeMutRun, h2, g1, Exec.ok_bind]; rfl, g2⟩

end

theorem iterRun_wf {m : Map K V} (h : m.WF) (es : List End) : ∃ it it', m.iter = .ok it ∧ it.run m es = .ok ((pops es m.toList).1, it') := by
  obtain ⟨it, h1, h2, h3⟩ := Map.iter_spec h
  obtain ⟨it', h4, _⟩ := Iter.run_spec h.below es h3 (by rw [h2, h.len]; simp)
  exact ⟨it, it', h1, h4⟩

theorem iterMutRun_wf {m : Map K V} (h : m.WF) (acts : List (MutAct V)) :
    ∃ it xs m' refs, m.iter = .ok it ∧ mutRun Iter.stepH acts m it [] = .ok (xs, m', refs) ∧ m'.WF := by
  obtain ⟨it, h1, _⟩ := Map.iter_spec h
  obtain ⟨i1, i2⟩ := MutInv.iter h h1
  obtain ⟨m', refs, g1, g2, g3, g4⟩ := mutRun_spec Iter.stepOK acts i1 (by simpa using i2)
  exact ⟨it, _, m', refs, h1, g1, g2⟩

theorem replaceCall_wf [Ord K] {x : Nat} {m : Map K V} (h : m.Shaped x) (k : K) (v : V) (a : Alloc) : CallWF true x (m.replaceCall k v a) := by
  obtain ⟨r, m', a', h1, h2, h3⟩ := Map.replaceKey_wf h k v a
  cases r with
  | error er => exact ⟨.failed, m', a', by simp [Map.replaceCall, h1], .inl ⟨rfl, rfl, h3⟩⟩
  | ok old => exact ⟨.oldKey old, m', a', by simp [Map.replaceCall, h1], .inr (h2 old rfl)⟩

/-- Opening an iterator, whatever the `Ord`. -/
theorem Map.view_wf [Ord Q] {m : Map K V} (h : m.WF) (bor : K → Q) (s : Source Q) :
    (∃ msg, m.view bor s = .panic msg) ∨ ∃ v, m.view bor s = .ok v ∧ ∃ pd : Pending K V Q, ViewIs m v pd := by
  obtain ⟨it, h1, h2, h3⟩ := Map.iter_spec h
  have hl : it.length = m.toList.length := by have := h.len; omega
  cases s with
  | iter => exact .inr ⟨.iter it, by simp only [Map.view, h1, Exec.ok_bind], ⟨.iter, _⟩, [], [], hl, h3⟩
  | keys => exact .inr ⟨.keys it, by simp only [Map.view, h1, Exec.ok_bind], ⟨.keys, _⟩, [], [], hl, h3⟩
  | values => exact .inr ⟨.values it, by simp only [Map.view, h1, Exec.ok_bind], ⟨.values, _⟩, [], [], hl, h3⟩
  | range lo hi =>
    rcases Map.range_wf h bor lo hi with ⟨msg, hr⟩ | ⟨_, r, pre, mid, post, hr, w⟩
    · exact .inl ⟨msg, by simp only [Map.view, hr]; rfl⟩
    · exact .inr ⟨.range r, by simp only [Map.view, hr, Exec.ok_bind], ⟨.range lo hi, _⟩, pre, post, w⟩
  | setRange lo hi =>
    rcases Map.range_wf h bor lo hi with ⟨msg, hr⟩ | ⟨_, r, pre, mid, post, hr, w⟩
    · exact .inl ⟨msg, by simp only [Map.view, hr]; rfl⟩
    · exact .inr ⟨.setRange r, by simp only [Map.view, hr, Exec.ok_bind], ⟨.setRange lo hi, _⟩, pre, post, w⟩

theorem ViewAct.run_wf [Ord Q] {m : Map K V} (h : m.WF) (bor : K → Q) (a : ViewAct Q) {vs : List View}
    (hv : ∀ v ∈ vs, ∃ pd : Pending K V Q, ViewIs m v pd) :
    ∃ o vs', ViewAct.run m bor vs a = .ok (o, vs') ∧ ∀ v ∈ vs', ∃ pd : Pending K V Q, ViewIs m v pd := by
  have snoc : ∀ {v : View}, (∃ pd : Pending K V Q, ViewIs m v pd) → ∀ x ∈ vs ++ [v], ∃ pd : Pending K V Q, ViewIs m x pd := fun {v} h x hx => by
    rcases List.mem_append.1 hx with hx | hx
    · exact hv x hx
    · obtain rfl := by simpa using hx
      exact h
  have look : ∀ (i : Nat) (f : View → Exec (Seen K V × List View)),
      (∀ v ∈ vs, ∃ o vs', f v = .ok (o, vs') ∧ ∀ v ∈ vs', ∃ pd : Pending K V Q, ViewIs m v pd) →
      ∃ o vs', onView vs i f = .ok (o, vs') ∧ ∀ v ∈ vs', ∃ pd : Pending K V Q, ViewIs m v pd := fun i f hf => by
    unfold onView
    cases hi : vs[i]? with
    | none => exact ⟨_, vs, rfl, hv⟩
    | some v => exact hf v (List.mem_of_getElem? hi)
  cases a with
  | start s =>
    rcases Map.view_wf h bor s with ⟨msg, h1⟩ | ⟨v, h1, h2⟩
    · exact ⟨.panicked, vs, by simp [ViewAct.run, h1], hv⟩
    · exact ⟨.opened, vs ++ [v], by simp [ViewAct.run, h1], snoc h2⟩
  | clone i =>
    refine look i _ fun v hm => ?_
    obtain ⟨pd, hp⟩ := hv v hm
    exact ⟨_, _, rfl, snoc ⟨pd, hp.clone⟩⟩
  | ask i e =>
    refine look i _ fun v hm => ?_
    obtain ⟨pd, hp⟩ := hv v hm
    obtain ⟨v', h1, h2⟩ := hp.step h.below e
    refine ⟨_, vs.set i v', by simp only [h1, Exec.ok_bind]; rfl, fun x hx => ?_⟩
    rcases List.mem_or_eq_of_mem_set hx with hx | rfl
    · exact hv x hx
    · exact ⟨_, h2⟩
  | hint i => exact look i _ fun v hm => ⟨_, vs, rfl, hv⟩
  | debug i =>
    refine look i _ fun v hm => ?_
    obtain ⟨pd, hp⟩ := hv v hm
    exact ⟨_, vs, by simp only [hp.debug h, Exec.ok_bind]; rfl, hv⟩

theorem ViewAct.runs_wf [Ord Q] {m : Map K V} (h : m.WF) (bor : K → Q) : ∀ (as : List (ViewAct Q)) {vs : List View}
    (_ : ∀ v ∈ vs, ∃ pd : Pending K V Q, ViewIs m v pd), ∃ os, ViewAct.runs m bor as vs = .ok os
  | [], _, _ => ⟨[], rfl⟩
  | a :: as, vs, hv => by
    obtain ⟨o, vs', h1, h2⟩ := ViewAct.run_wf h bor a hv
    obtain ⟨os, h3⟩ := ViewAct.runs_wf h bor as h2
    exact ⟨o :: os, by simp only [ViewAct.runs, h1, h3, Exec.ok_bind]⟩

/-- Every call of a program, whatever the `Ord`, whatever the allocator does. -/
theorem Op.run_wf [Ord K] [Ord Q] (bor : K → Q) {p : List (Map K V)} (hp : ∀ m ∈ p, m.WF) (a : Alloc) (op : Op K V Q) :
    PoolWF op.inserts (Op.run bor p a op) := by
  cases op with
  | new => exact .inr ⟨_, _, a, rfl, .inr (mem_snoc_wf hp Map.WF_new)⟩
  | insert i k v => exact onMap_wf hp i a fun m hm => .inr (insertCall_wf hm k v a)
  | remove i q =>
    refine onMap_wf hp i a fun m hm => .inr ?_
    obtain ⟨r, m', h1, h2, _⟩ := Map.removeEntry_wf hm bor q
    exact ⟨_, m', a, by simp only [Map.remove, h1, Exec.ok_bind]; rfl, .inr h2⟩
  | get i q =>
    refine onMap_wf hp i a fun m hm => .inr ?_
    obtain ⟨r, _, h1⟩ := getKeyValue_wf hm bor q
    exact ⟨_, m, a, by simp only [h1, Exec.ok_bind]; rfl, .inr hm⟩
  | getKeyValue i q =>
    refine onMap_wf hp i a fun m hm => .inr ?_
    obtain ⟨r, h1, _⟩ := getKeyValue_wf hm bor q
    exact ⟨_, m, a, by simp only [h1, Exec.ok_bind]; rfl, .inr hm⟩
  | containsKey i q =>
    refine onMap_wf hp i a fun m hm => .inr ?_
    obtain ⟨r, _, h1⟩ := getKeyValue_wf hm bor q
    exact ⟨_, m, a, by simp only [Map.containsKey, h1, Exec.ok_bind]; rfl, .inr hm⟩
  | len i => exact onMap_wf hp i a fun m hm => .inr ⟨_, m, a, rfl, .inr hm⟩
  | isEmpty i => exact onMap_wf hp i a fun m hm => .inr ⟨_, m, a, rfl, .inr hm⟩
  | update i q f =>
    refine onMap_wf hp i a fun m hm => .inr ?_
    obtain ⟨b, m', h1, h2⟩ := updateVal_wf hm bor q f
    exact ⟨_, m', a, by simp only [h1, Exec.ok_bind]; rfl, .inr h2⟩
  | clear i => exact onMap_wf hp i a fun m hm => .inr ⟨_, Map.new, a, rfl, .inr Map.WF_new⟩
  | append i j =>
    simp only [Op.run]
    cases hi : p[i]? with
    | none => exact .inr ⟨_, p, a, rfl, .inr hp⟩
    | some m =>
      cases hj : p[j]? with
      | none => exact .inr ⟨_, p, a, rfl, .inr hp⟩
      | some o =>
        by_cases hij : i = j
        · simp only [if_pos hij]
          exact .inr ⟨_, p, a, rfl, .inr hp⟩
        · simp only [if_neg hij]
          rcases Map.append_wf (hp m (List.mem_of_getElem? hi)) (hp o (List.mem_of_getElem? hj)) a with ⟨⟨msg, h1⟩, _⟩ | ⟨m', o', a', h1, h2, h3, _⟩
          · exact .inl ⟨msg, by simp [h1]⟩
          · exact .inr ⟨.done, (p.set i m').set j o', a', by simp [h1], .inr (mem_set_wf (mem_set_wf hp h2) h3)⟩
  | splitOff i q =>
    simp only [Op.run]
    cases hi : p[i]? with
    | none => exact .inr ⟨_, p, a, rfl, .inr hp⟩
    | some m =>
      have hm := hp m (List.mem_of_getElem? hi)
      obtain ⟨r, m', a', h1, h2, h3⟩ := Map.splitOff_wf hm bor q a
      cases r with
      | error er =>
        obtain rfl := h2
        exact .inr ⟨.failed, p.set i m', a', by simp [h1], .inr (mem_set_wf hp hm)⟩
      | ok right =>
        obtain ⟨⟨x1, x2, e0, e1, e2⟩, _⟩ := h2
        obtain ⟨rfl, rfl⟩ : x1 = 0 ∧ x2 = 0 := by omega
        exact .inr ⟨.done, p.set i m' ++ [right], a', by simp [h1], .inr (mem_snoc_wf (mem_set_wf hp e1) e2)⟩
  | extend i items =>
    refine onMap_wf hp i a fun m hm => ?_
    rcases Map.extend_wf items hm a with ⟨⟨msg, h1⟩, h2⟩ | ⟨m', a', h1, h2, _⟩
    · exact .inl ⟨msg, by simp [h1]⟩
    · exact .inr ⟨_, m', a', by simp only [h1, Exec.ok_bind]; rfl, .inr h2⟩
  | clone i =>
    simp only [Op.run]
    cases hi : p[i]? with
    | none => exact .inr ⟨_, p, a, rfl, .inr hp⟩
    | some m =>
      have hm := hp m (List.mem_of_getElem? hi)
      obtain ⟨r, a', h1, h2, h3⟩ := Map.tryClone_wf (fun k a => (.ok k, a)) (fun v a => (.ok v, a)) hm a
      cases r with
      | error er => exact .inl ⟨"Out of Mem", by simp [Map.clone, h1]⟩
      | ok c => exact .inr ⟨.done, p ++ [c], a', by simp [Map.clone, h1], .inr (mem_snoc_wf hp (h2 c rfl).1)⟩
  | iterate i es =>
    refine onMap_wf hp i a fun m hm => .inr ?_
    obtain ⟨it, it', h1, h2⟩ := iterRun_wf hm es
    exact ⟨_, m, a, by simp only [h1, h2, Exec.ok_bind]; rfl, .inr hm⟩
  | range i lo hi es =>
    refine onMap_wf hp i a fun m hm => .inr ?_
    obtain ⟨o, h1⟩ := rangeRun_wf hm bor lo hi es
    exact ⟨o, m, a, by simp only [h1, Exec.ok_bind], .inr hm⟩
  | iterMut i acts =>
    refine onMap_wf hp i a fun m hm => .inr ?_
    obtain ⟨it, xs, m', refs, h1, h2, h3⟩ := iterMutRun_wf hm acts
    exact ⟨_, m', a, by simp only [h1, h2, Exec.ok_bind]; rfl, .inr h3⟩
  | rangeMut i lo hi acts =>
    refine onMap_wf hp i a fun m hm => .inr ?_
    obtain ⟨o, m', h1, h2⟩ := rangeMutRun_wf hm bor lo hi acts
    exact ⟨o, m', a, by simp only [h1, Exec.ok_bind], .inr h2⟩
  | intoIter i es =>
    refine onMap_wf hp i a fun m hm => .inr ?_
    obtain ⟨it, it', h1, h2⟩ := iterRun_wf hm es
    exact ⟨_, Map.new, a, by simp only [h1, h2, Exec.ok_bind]; rfl, .inr Map.WF_new⟩
  | entryOrInsert i k v f => exact onMap_wf hp i a fun m hm => .inr (entryOrInsert_wf hm k v f a)
  | entryOrInsertWith i k v f => exact onMap_wf hp i a fun m hm => .inr (entryOrInsertWith_wf hm k v f a)
  | entryRemove i k => exact onMap_wf hp i a fun m hm => .inr (entryRemove_wf hm k a)
  | entryModify i k f => exact onMap_wf hp i a fun m hm => .inr (entryModify_wf hm k f a)
  | entryKey i k => exact onMap_wf hp i a fun m hm => .inr (entryKeyOf_wf hm k a)
  | entryInsert i k v => exact onMap_wf hp i a fun m hm => .inr (entryInsert_wf hm k v a)
  | tryClone i ck cv =>
    simp only [Op.run]
    cases hi : p[i]? with
    | none => exact .inr ⟨_, p, a, rfl, .inr hp⟩
    | some m =>
      have hm := hp m (List.mem_of_getElem? hi)
      obtain ⟨r, a', h1, h2, h3⟩ := Map.tryClone_wf (keyCloner ck) (valCloner cv) hm a
      cases r with
      | error er => exact .inr ⟨.failed, p, a', by simp [h1], .inr hp⟩
      | ok c => exact .inr ⟨.done, p ++ [c], a', by simp [h1], .inr (mem_snoc_wf hp (h2 c rfl).1)⟩
  | views i acts =>
    refine onMap_wf hp i a fun m hm => .inr ?_
    obtain ⟨os, h1⟩ := ViewAct.runs_wf hm bor acts (vs := []) (by simp)
    exact ⟨.seen os, m, a, by simp only [h1, Exec.ok_bind], .inr hm⟩
  | replace i k v => exact onMap_wf hp i a fun m hm => .inr (replaceCall_wf hm k v a)
  | take i q =>
    refine onMap_wf hp i a fun m hm => .inr ?_
    obtain ⟨r, m', h1, h2, _⟩ := Map.removeEntry_wf hm bor q
    exact ⟨_, m', a, by simp only [h1, Exec.ok_bind]; rfl, .inr h2⟩

end Verif.BTree
