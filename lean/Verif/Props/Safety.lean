import Verif.BTree.Proofs.Oom
import Verif.Props.Demo
/-
No undefined behaviour: C21 (lawful order), C22 (any order whatsoever).
-/
namespace Verif.Props
open Verif Verif.BTree Verif.Spec

variable {K V Q : Type}

/-- The call returns: no undefined behaviour, no panic. -/
def Returns {α : Type} (x : Exec α) : Prop := ∃ a, x = .ok a

/-- The call returns, or panics with one of the given messages. -/
def ReturnsOr {α : Type} (x : Exec α) (msgs : List String) : Prop := (∃ a, x = .ok a) ∨ ∃ m ∈ msgs, x = .panic m

/-- Every call a program can make on the map `m` with keys ordered by the given `Ord K` returns; the exceptions are the
documented panics (`Index` on a missing key, out-of-memory of the infallible operations). -/
structure CallsReturn [Ord K] (m : Map K V) : Prop where
  tryInsert : ∀ k v a, Returns (m.tryInsert k v a)
  tryEntry : ∀ k a, Returns (m.tryEntry k a)
  occupied : ∀ k a hd m1 a1, m.tryEntry k a = .ok (.ok (.occupied hd), m1, a1) →
    Returns (m1.entryKey (.occupied hd)) ∧ Returns (m1.occGet hd) ∧ (∀ v, Returns (m1.occInsert hd v)) ∧
    (∀ f, Returns (m1.occUpdate hd f)) ∧ Returns (m1.occRemoveEntry hd) ∧ Returns (m1.occRemove hd)
  entry : ∀ k a e m1 a1, m.tryEntry k a = .ok (.ok e, m1, a1) →
    (∀ v a, Returns (m1.orTryInsert e v a)) ∧ (∀ f a, Returns (m1.orTryInsertWith e f a)) ∧
    (∀ f, Returns (m1.andModify e f)) ∧
    (∀ v a ref m2 a2, m1.orTryInsert e v a = .ok (.ok ref, m2, a2) → ∀ f, Returns (m2.occUpdate ref f))
  iter : ∃ it, m.iter = .ok it ∧ (∀ es, Returns (it.run m es)) ∧ ∀ acts, Returns (mutRun Iter.stepH acts m it [])
  toList : Returns m.toListE
  extend : ∀ l a, ReturnsOr (m.extend l a) ["Out of Mem"]
  append : ∀ (o : Map K V) (_ : ReachAny o) a, ReturnsOr (m.append o a) ["Out of Mem", "Out Of Mem"]
  tryClone : ∀ ck cv a, Returns (m.tryClone ck cv a)
  clone : ∀ fk fv a, ReturnsOr (m.clone fk fv a) ["Out of Mem"]
  eq : ∀ (o : Map K V) (_ : ReachAny o) eqK eqV, Returns (m.eq o eqK eqV)
  cmp : ∀ (o : Map K V) (_ : ReachAny o) cmpK cmpV, Returns (m.cmp o cmpK cmpV)
  hash : ∀ {S : Type} (feed : S → K × V → S) s, Returns (m.hash feed s)

/-- The same for the calls that take a borrowed key. -/
structure QueriesReturn [Ord Q] (m : Map K V) (bor : K → Q) : Prop where
  get : ∀ q, Returns (m.get bor q)
  getKeyValue : ∀ q, Returns (m.getKeyValue bor q)
  containsKey : ∀ q, Returns (m.containsKey bor q)
  index : ∀ q, ReturnsOr (m.index bor q) ["no entry found for key"]
  getMut : ∀ q, Returns (m.getMut bor q)
  getMutWrite : ∀ q hd, m.getMut bor q = .ok (some hd) → ∀ f, Returns (m.occUpdate hd f)
  remove : ∀ q, Returns (m.remove bor q)
  removeEntry : ∀ q, Returns (m.removeEntry bor q)
  splitOff : ∀ q a, Returns (m.splitOff bor q a)
  range : ∀ s e, ReturnsOr (m.range bor s e)
    ["range start and end are equal and excluded in BTreeMap", "range start is greater than range end in BTreeMap",
     "Ord is ill-defined in BTreeMap range"]
  rangeRun : ∀ s e r, m.range bor s e = .ok r →
    (∀ es, Returns (r.run m es)) ∧ ∀ acts, Returns (mutRun Range.stepH acts m r [])

/-! ### panic messages -/

theorem extend_returns [Ord K] {x : Nat} (l : List (K × V)) {m : Map K V} (h : m.Shaped x) (a : Alloc) :
    ReturnsOr (m.extend l a) ["Out of Mem"] := by
  induction l generalizing m a with
  | nil => exact .inl ⟨_, rfl⟩
  | cons kv l ih =>
    obtain ⟨k, v⟩ := kv
    obtain ⟨r, m', a', h1, h2, h3⟩ := Map.tryInsert_wf h k v a
    simp only [Map.extend, h1, Exec.ok_bind]
    cases r with
    | error e => exact .inr ⟨_, by simp, rfl⟩
    | ok old => exact ih h2.1 a'

theorem ofSorted_returns (l : List (K × V)) (a : Alloc) :
    ReturnsOr (Map.ofSorted l a) ["Out of Mem", "Out Of Mem"] := by
  rcases Map.ofSorted_spec l a with ⟨⟨msg, h⟩, _⟩ | ⟨m, a', h, _⟩
  · refine .inr ⟨msg, ?_, h⟩
    unfold Map.ofSorted at h
    simp only [Map.ensureRootIsOwned, Map.new, if_true] at h
    rw [show a.request = (a.request.1, a.request.2) from rfl] at h
    cases hr : a.request.1 with
    | false => simp [hr] at h; simp [← h]
    | true =>
      simp only [hr, if_true] at h
      have hbd : Build 0 (emptyLeaf : Tree K V) := .leaf []
      rcases fromSortedLoop_spec l hbd (by simp [emptyLeaf]) (by simp) a.request.2 with
        ⟨g1, g2⟩ | ⟨h', t', a', g1, g2, g3, g4, g5, g6⟩
      · rw [g1] at h; simp at h; simp [← h]
      · obtain ⟨t2, k1, k2, k3, k4⟩ := fixRightEdge_spec g3 g5
        rw [g1] at h; simp [k1] at h
  · exact .inl ⟨_, h⟩

theorem append_returns [Ord K] {m o : Map K V} (hm : m.WF) (ho : o.WF) (a : Alloc) :
    ReturnsOr (m.append o a) ["Out of Mem", "Out Of Mem"] := by
  unfold Map.append
  split
  · exact .inl ⟨_, rfl⟩
  · split
    · exact .inl ⟨_, rfl⟩
    · rw [Map.toListE_spec hm, Map.toListE_spec ho]
      rcases ofSorted_returns (mergeIter m.toList o.toList) a with ⟨r, h⟩ | ⟨msg, h1, h2⟩
      · exact .inl ⟨(r.1, Map.new, r.2), by simp [h]⟩
      · exact .inr ⟨msg, h1, by simp [h2]⟩

theorem range_returns [Ord Q] {x : Nat} {m : Map K V} (h : m.Shaped x) (bor : K → Q) (s e : Bound Q) :
    ReturnsOr (m.range bor s e)
      ["range start and end are equal and excluded in BTreeMap", "range start is greater than range end in BTreeMap",
       "Ord is ill-defined in BTreeMap range"] := by
  have hc : ReturnsOr (rangeCheck s e)
      ["range start and end are equal and excluded in BTreeMap", "range start is greater than range end in BTreeMap"] := by
    cases s <;> cases e <;> simp only [rangeCheck] <;> first
      | exact .inl ⟨_, rfl⟩
      | (rename_i s e
         cases compare s e <;> first
           | exact .inl ⟨_, rfl⟩
           | exact .inr ⟨_, by simp, rfl⟩)
  rcases hc with ⟨_, hc⟩ | ⟨msg, h1, h2⟩
  · rcases rangeLoop_joint bor s e h.below false false [] with h1 | ⟨p1, i1, p2, i2, A1, B1, A2, B2, g1, g2, g3, _⟩
    · exact .inr ⟨"Ord is ill-defined in BTreeMap range", by simp, by simp [Map.range, hc, h1]⟩
    · exact .inl ⟨_, by simp only [Map.range, hc, Exec.ok_bind, g3]; rfl⟩
  · refine .inr ⟨msg, ?_, by simp [Map.range, h2]⟩
    simp only [List.mem_cons] at h1 ⊢
    rcases h1 with h1 | h1 | h1
    · exact .inl h1
    · exact .inr (.inl h1)
    · simp at h1

/-! ### everything returns -/

theorem callsReturn [Ord K] {m : Map K V} (h : m.WF) : CallsReturn m where
  tryInsert k v a := by obtain ⟨r, m', a', h1, _⟩ := Map.tryInsert_wf h k v a; exact ⟨_, h1⟩
  tryEntry k a := by obtain ⟨r, m', a', h1, _⟩ := Map.tryEntry_wf h k a; exact ⟨_, h1⟩
  occupied k a hd m1 a1 he := by
    obtain ⟨r, m', a', h1, h2, h3, h4, h5, _⟩ := Map.tryEntry_wf h k a
    obtain ⟨rfl, rfl, rfl⟩ := by simpa using Exec.ok_unique he h1
    obtain ⟨_, A, kv, B, hp, _⟩ := h5
    obtain ⟨m2, e1, _⟩ := Map.removeKv_spec h2 hp
    refine ⟨⟨_, by simp [Map.entryKey, hp.kvAt]; rfl⟩, ⟨_, by simp [Map.occGet, hp.kvAt]; rfl⟩, fun v => ?_, fun f => ?_,
      ⟨_, e1⟩, ⟨_, by simp [Map.occRemove, e1]; rfl⟩⟩
    · obtain ⟨m2, e1, _⟩ := Map.setVal_spec h2 hp v
      exact ⟨_, by simp [Map.occInsert, e1]; rfl⟩
    · obtain ⟨m2, e1, _⟩ := Map.occUpdate_wf h2 hp f
      exact ⟨_, e1⟩
  entry k a e m1 a1 he := by
    obtain ⟨r, m', a', h1, h2, h3, h4, h5, _⟩ := Map.tryEntry_wf h k a
    obtain ⟨rfl, rfl, rfl⟩ := by simpa using Exec.ok_unique he h1
    cases e with
    | occupied hd =>
      obtain ⟨_, A, kv, B, hp, _⟩ := h5
      refine ⟨fun v a => ⟨_, rfl⟩, fun f a => ⟨_, rfl⟩, fun f => ?_, fun v a ref m2 a2 ho f => ?_⟩
      · obtain ⟨m2, e1, _⟩ := Map.setVal_spec h2 hp (f kv.2)
        exact ⟨_, by simp [Map.andModify, hp.kvAt, e1]; rfl⟩
      · obtain ⟨rfl, rfl, rfl⟩ := by simpa [Map.orTryInsert] using ho
        obtain ⟨m2, e1, _⟩ := Map.occUpdate_wf h2 hp f
        exact ⟨_, e1⟩
    | vacant k' hd =>
      obtain ⟨hsh, rfl, A, B, hg⟩ := h5
      refine ⟨fun v a => ?_, fun f a => ?_, fun f => ⟨_, rfl⟩, fun v a ref m2 a2 ho f => ?_⟩
      · obtain ⟨r, m2, a2, e1, _⟩ := Map.vacantInsert_spec h2 hsh hg k' v a
        exact ⟨_, e1⟩
      · obtain ⟨r, m2, a2, e1, _⟩ := Map.vacantInsert_spec h2 hsh hg k' (f ()) a
        exact ⟨_, by simp [Map.orTryInsertWith, e1]; rfl⟩
      · obtain ⟨r, m3, a3, e1, _, _, e2, _⟩ := Map.vacantInsert_spec h2 hsh hg k' v a
        obtain ⟨rfl, rfl, rfl⟩ := by simpa using Exec.ok_unique ho e1
        obtain ⟨m2, e1, _⟩ := Map.occUpdate_wf e2.1 e2.2 f
        exact ⟨_, e1⟩
  iter := by
    obtain ⟨it, h1, h2, w⟩ := Map.iter_spec h
    have hl := h.len
    refine ⟨it, h1, fun es => ?_, fun acts => ?_⟩
    · obtain ⟨it', g, _⟩ := Iter.run_spec h.below es w (by omega)
      exact ⟨_, g⟩
    · obtain ⟨k1, k2⟩ := MutInv.iter h h1
      obtain ⟨m1, refs1, g1, _⟩ := mutRun_spec Iter.stepOK acts k1 (by simpa using k2)
      exact ⟨_, g1⟩
  toList := ⟨_, Map.toListE_spec h⟩
  extend l a := extend_returns l h a
  append o ho a := append_returns h ho.wf a
  tryClone ck cv a := by obtain ⟨r, a', h1, _⟩ := Map.tryClone_wf ck cv h a; exact ⟨_, h1⟩
  clone fk fv a := by
    obtain ⟨r, a', h1, _⟩ := Map.tryClone_wf (fun k a => (.ok (fk k), a)) (fun v a => (.ok (fv v), a)) h a
    simp only [Map.clone, h1, Exec.ok_bind]
    cases r with
    | ok c => exact .inl ⟨_, rfl⟩
    | error e => exact .inr ⟨_, by simp, rfl⟩
  eq o ho eqK eqV := by
    unfold Map.eq
    split
    · exact ⟨_, by simp only [Map.toListE_spec h, Map.toListE_spec ho.wf, Exec.ok_bind]; rfl⟩
    · exact ⟨_, rfl⟩
  cmp o ho cmpK cmpV := ⟨_, by simp only [Map.cmp, Map.toListE_spec h, Map.toListE_spec ho.wf, Exec.ok_bind]; rfl⟩
  hash feed s := ⟨_, by simp only [Map.hash, Map.toListE_spec h, Exec.ok_bind]; rfl⟩

theorem queriesReturn [Ord Q] {m : Map K V} (h : m.WF) (bor : K → Q) : QueriesReturn m bor where
  get q := by
    rcases Map.search_wf h bor q with ⟨hd, A, kv, B, h1, h2, _⟩ | ⟨hd, A, B, h1, h2⟩
    · exact ⟨some kv.2, by simp only [Map.get, h1, Exec.ok_bind, h2.kvAt]⟩
    · exact ⟨none, by simp [Map.get, h1]⟩
  getKeyValue q := by
    rcases Map.search_wf h bor q with ⟨hd, A, kv, B, h1, h2, _⟩ | ⟨hd, A, B, h1, h2⟩
    · exact ⟨some kv, by simp only [Map.getKeyValue, h1, Exec.ok_bind, h2.kvAt]⟩
    · exact ⟨none, by simp [Map.getKeyValue, h1]⟩
  containsKey q := by
    rcases Map.search_wf h bor q with ⟨hd, A, kv, B, h1, h2, _⟩ | ⟨hd, A, B, h1, h2⟩
    · exact ⟨true, by simp [Map.containsKey, Map.get, h1, h2.kvAt]⟩
    · exact ⟨false, by simp [Map.containsKey, Map.get, h1]⟩
  index q := by
    rcases Map.search_wf h bor q with ⟨hd, A, kv, B, h1, h2, _⟩ | ⟨hd, A, B, h1, h2⟩
    · exact .inl ⟨kv.2, by simp [Map.index, Map.get, h1, h2.kvAt]⟩
    · exact .inr ⟨"no entry found for key", by simp, by simp [Map.index, Map.get, h1]⟩
  getMut q := by
    rcases Map.getMut_wf h (bor := bor) q with ⟨hd', A, kv, B, h1, h2⟩ | h1
    · exact ⟨_, h1⟩
    · exact ⟨_, h1⟩
  getMutWrite q hd hg f := by
    rcases Map.getMut_wf h (bor := bor) q with ⟨hd', A, kv, B, h1, h2⟩ | h1
    · obtain rfl := by simpa using Exec.ok_unique hg h1
      obtain ⟨m1, e1, _⟩ := Map.occUpdate_wf h h2 f
      exact ⟨_, e1⟩
    · simpa using Exec.ok_unique hg h1
  remove q := by
    obtain ⟨r, m', h1, _⟩ := Map.removeEntry_wf h bor q
    exact ⟨_, by simp only [Map.remove, h1, Exec.ok_bind]; rfl⟩
  removeEntry q := by obtain ⟨r, m', h1, _⟩ := Map.removeEntry_wf h bor q; exact ⟨_, h1⟩
  splitOff q a := by obtain ⟨r, m', a', h1, _⟩ := Map.splitOff_wf h bor q a; exact ⟨_, h1⟩
  range s e := range_returns h bor s e
  rangeRun s e r hr := by
    rcases Map.range_wf h bor s e with ⟨_, h1⟩ | ⟨_, r', pre, mid, post, h1, w⟩
    · rw [hr] at h1; simp at h1
    · obtain rfl := Exec.ok_unique hr h1
      refine ⟨fun es => ?_, fun acts => ?_⟩
      · obtain ⟨r', g⟩ := Range.run_spec h.below es w
        exact ⟨_, g⟩
      · obtain ⟨m1, refs1, g1, _⟩ := mutRun_spec Range.stepOK acts (MutInv.range h w) trivial
        exact ⟨_, g1⟩

/-- **C21** On a map obtained by any history of calls with a lawful order in which no insertion failed, every further call
returns (whatever the allocator does then): no undefined access, no `unreachable!()`, no failing debug assertion; the only
panics are the documented ones, and `range` never reports an ill-defined `Ord`. -/
theorem C21_no_ub [Ord K] [Std.TransOrd K] [Ord Q] [Std.TransOrd Q] {m : Map K V} (h : Reach m) {bor : K → Q}
    (hbo : BorrowOK bor) :
    CallsReturn m ∧ QueriesReturn m bor ∧
      ∀ s e, m.range bor s e ≠ .panic "Ord is ill-defined in BTreeMap range" := by
  refine ⟨callsReturn h.valid.toShaped, queriesReturn h.valid.toShaped bor, fun s e hp => ?_⟩
  rcases Map.range_ordered hbo h.valid s e with ⟨_, msg, h1⟩ | ⟨_, r, _, _, h1, _⟩
  · rcases rangeCheck_spec s e with ⟨_, msg', hc⟩ | ⟨hb, hc⟩
    · have hm := rangeCheck_msg s e hc
      rw [Map.range, hc] at hp
      simp at hp
      exact hm hp
    · rename_i hb'
      simp [hb'] at hb
  · rw [hp] at h1; simp at h1

/-- **C22** Even if every call of the history and the next one use arbitrary, inconsistent comparison functions, wrong
`Borrow`s and wrong clones: the next call returns (or panics as documented), iteration is safe and yields exactly
`len()` entries. -/
theorem C22_any_ord [Ord K] [Ord Q] {m : Map K V} (h : ReachAny m) (bor : K → Q) :
    CallsReturn m ∧ QueriesReturn m bor ∧ ∃ l, m.toListE = .ok l ∧ l.length = m.len := by
  refine ⟨callsReturn h.wf, queriesReturn h.wf bor, m.toList, Map.toListE_spec h.wf, ?_⟩
  simpa [Map.len] using h.wf.len.symm

/-- An inconsistent order: everything is greater than everything. -/
@[instance_reducible] def badOrd : Ord Nat := ⟨fun _ _ => .gt⟩
/-- A map with an inconsistent order: two entries with the same key, stored in descending order of keys. -/
def badMap : Map Nat Nat := ⟨0, ⟨[(9, 0), (7, 1), (7, 2)], []⟩, false, 3⟩
theorem badMap_reach : ReachAny badMap :=
  @ReachAny.extend _ _ badOrd Map.new badMap [(9, 0), (7, 1), (7, 2)] allOk allOk .new rfl
example : badMap.toListE = .ok [(9, 0), (7, 1), (7, 2)] := rfl

end Verif.Props
