import Verif.Heap.Proofs.EntryUse
import Verif.Props.MutLook
/-
C76: entries that are held and used, with closures that may panic, in memory.
-/
namespace Verif.Props
open Verif Verif.Heap Verif.Spec
open Verif.BTree (Map)

variable {K V Q : Type} {pl : Nat → Heap.Addr}

/-- A program on an entry of the `i`-th map of a pool, and the end of all the maps. -/
theorem entry_pool {p : List HMap} {ms : List (Map K V)} (hp : ∀ m ∈ ms, m.WF) {i : Nat} {m : HMap} {M : Map K V} (hl : p.length = ms.length) (hm : p[i]? = some m)
    (hM : ms[i]? = some M) {al : Alloc} {prog : HM K V (List (EntrySeen K V) × HMap)} {r : List (EntrySeen K V) × List (K × V)}
    (ht : Triple (fun _ => False) (rep m M ∗ sched al) prog (UsedUp al (.failed ∈ ·) r.1 r.2)) {s : Heap K V} (hg : s.Good) (hw : (pool p ms ∗ sched al) s.world) :
    ∃ os m' s', prog s = .ok ((os, m'), s') ∧ ((.failed ∈ os ∧ ¬ al.Good) ∨
      (os = r.1 ∧ ∃ s'', dropAll (p.set i m') s' = .ok ((ms.map Map.toList).set i r.2, s'') ∧ ∀ a, s''.cells a = none)) := by
  obtain ⟨m0, F, e1, e2, e3⟩ := pool_split hl hM
  rw [hm] at e1
  obtain rfl := Option.some.inj e1
  rw [e2] at hw
  have hw' : ((rep m M ∗ sched al) ∗ F) s.world := by
    have : ((rep m M ∗ F) ∗ sched al) = ((rep m M ∗ sched al) ∗ F) := by ac_rfl
    rw [← this]; exact hw
  obtain ⟨⟨os, m'⟩, s', d1, d2, d3⟩ := Triple.returns ht hg hw'
  refine ⟨os, m', s', d1, ?_⟩
  unfold UsedUp at d3
  rw [hex_sep] at d3
  obtain ⟨x, d3⟩ := d3
  cases x with
  | none =>
    dsimp only at d3
    rw [sep_assoc] at d3
    exact .inl (fact_sep.1 d3).1
  | some y =>
    obtain ⟨al', M'⟩ := y
    dsimp only at d3
    rw [sep_assoc] at d3
    obtain ⟨⟨d4, d5, d6, _⟩, d7⟩ := fact_sep.1 d3
    refine .inr ⟨d4, ?_⟩
    have hw2 : (pool (p.set i m') (ms.set i M') ∗ sched al') s'.world := by
      rw [e3 m' M']
      have : ((rep m' M' ∗ sched al') ∗ F) = ((rep m' M' ∗ F) ∗ sched al') := by ac_rfl
      rw [← this]; exact d7
    have hall : ∀ x ∈ ms.set i M', x.WF := by
      intro x hx
      rcases List.mem_or_eq_of_mem_set hx with h | h
      · exact hp x h
      · exact h ▸ d5
    have hd := dropAll_spec (E := fun _ => False) (hs := p.set i m') hall
    rw [List.map_set, d6] at hd
    exact all_freed hd d2 hw2

/-- **C76** After any program (any key order, any allocator), take an entry of one of the maps and use it in any way: look at it, print it, change the value through it (with
closures that may panic halfway), and use it up in any of the ways there are, with a value that is given, made by a closure, or by `Default`, both of which may panic.
Nothing undefined happens.  There is a place in the map's list, with an equal key or empty, such that, unless an allocation was refused, every answer is the one the
specification gives there, the map holds the specification's list in the end, whether the program ended by itself or by a panic that was caught, all other maps
are as they were, and dropping everything leaves nothing allocated. -/
theorem C76_any_order [Ord K] [Ord Q] {bor : K → Q} {ops : List (Op K V Q)} {al : Alloc} {os : List (Out K V)} {p : List HMap} {s : Heap K V}
    (hr : Op.hprog bor ops [] (Heap.start al pl) = .ok ((os, true, p), s)) {i : Nat} {m : HMap} (hm : p[i]? = some m) (k : K) :
    ∃ p' al', BTree.Op.runs bor ops [] al = .ok (os, p', al') ∧ ∃ pl : Place K V, (p'.map Map.toList)[i]? = some pl.list ∧ (∀ kv ∈ pl.here, compare k kv.1 = .eq) ∧
      ∀ (as : List (EntryLook V)) (fin : EntryEnd V), ∃ xs m' s', m.entryUse k as fin s = .ok ((xs, m'), s') ∧ ((.failed ∈ xs ∧ ¬ al'.Good) ∨
        (xs = (fin.specs k as pl).1 ∧ ∃ s'', dropAll (p.set i m') s' = .ok ((p'.map Map.toList).set i (fin.specs k as pl).2, s'') ∧ ∀ a, s''.cells a = none)) := by
  obtain ⟨hg, p', al', h1, hl, hp, hw⟩ := hprog_pool hr
  obtain ⟨M, hM, _⟩ := pool_one hw hl hm
  obtain ⟨pl, g1, g2, g3⟩ := entryUse_any (hp M (List.mem_of_getElem? hM)) k al'
  exact ⟨p', al', h1, pl, by simp [hM, g1], g2, fun as fin => entry_pool hp hl hm hM (g3 _ m as fin) hg hw⟩

/-- **C76** With a lawful key order: the place is the one of the key in the sorted list that the program computes. -/
theorem C76_history [Ord K] [Std.TransOrd K] [Ord Q] [Std.TransOrd Q] {bor : K → Q} (hbo : BorrowOK bor) {ops : List (Op K V Q)} {al : Alloc} {os : List (Out K V)}
    {p : List HMap} {s : Heap K V} (hr : Op.hprog bor ops [] (Heap.start al pl) = .ok ((os, true, p), s)) (hf : .failed ∉ os) {i : Nat} {m : HMap} (hm : p[i]? = some m)
    (k : K) :
    ∃ pl : Place K V, (Op.specs bor ops []).2[i]? = some pl.list ∧ pl.IsFor k ∧
      ∀ (as : List (EntryLook V)) (fin : EntryEnd V), ∃ xs m' s', m.entryUse k as fin s = .ok ((xs, m'), s') ∧ (.failed ∈ xs ∨
        (xs = (fin.specs k as pl).1 ∧ ∃ s'', dropAll (p.set i m') s' = .ok ((Op.specs bor ops []).2.set i (fin.specs k as pl).2, s'') ∧ ∀ a, s''.cells a = none)) := by
  obtain ⟨hg, p', al', hl, hp, he, hw⟩ := hprog_specs hbo hr hf
  obtain ⟨M, hM, _⟩ := pool_one hw hl hm
  obtain ⟨pl, g1, g2, g3⟩ := entryUse_ordered (hp M (List.mem_of_getElem? hM)) k al'
  rw [← he]
  refine ⟨pl, by simp [hM, g1], g2, fun as fin => ?_⟩
  obtain ⟨xs, m', s', d1, d2⟩ := entry_pool (fun m h => (hp m h).toShaped) hl hm hM (g3 _ m as fin) hg hw
  exact ⟨xs, m', s', d1, d2.imp (fun h => h.1) id⟩

/-- **C76** There is only one such place: the list cut at the key. -/
theorem C76_place [Ord K] {k : K} {pl : Place K V} (h : pl.IsFor k) :
    pl.before = pl.list.filter (fun a => compare k a.1 == .gt) ∧ pl.here = pl.list.find? (fun a => compare k a.1 == .eq) ∧
      pl.after = pl.list.filter (fun a => compare k a.1 == .lt) := by
  obtain ⟨A, x, B⟩ := pl
  obtain ⟨h1, h2, h3⟩ := h
  dsimp only at h1 h2 h3
  have a1 : A.filter (fun a => compare k a.1 == .gt) = A := List.filter_eq_self.2 fun a ha => by simp [h1 a ha]
  have a2 : A.filter (fun a => compare k a.1 == .lt) = [] := List.filter_eq_nil_iff.2 fun a ha => by simp [h1 a ha]
  have a3 : A.find? (fun a => compare k a.1 == .eq) = none := List.find?_eq_none.2 fun a ha => by simp [h1 a ha]
  have b1 : B.filter (fun a => compare k a.1 == .gt) = [] := List.filter_eq_nil_iff.2 fun a ha => by simp [h3 a ha]
  have b2 : B.filter (fun a => compare k a.1 == .lt) = B := List.filter_eq_self.2 fun a ha => by simp [h3 a ha]
  have b3 : B.find? (fun a => compare k a.1 == .eq) = none := List.find?_eq_none.2 fun a ha => by simp [h3 a ha]
  cases x with
  | none => simp [Place.list, a1, a2, a3, b1, b2, b3]
  | some kv =>
    have h2' : compare k kv.1 = .eq := h2 kv rfl
    simp [Place.list, List.filter_append, List.filter_cons, List.find?_append, a1, a2, a3, b1, b2, h2']

/-- **C76** (about the specification) A panic in the closure of `or_try_insert_with`, or in `V::default()`, leaves the map as it was; a panic in the closure of `and_modify` leaves
the map with what the closure had written, all other entries as they were. -/
theorem C76_panics (k : K) (pl : Place K V) (g : V → V) (as : List (EntryLook V)) :
    ((EntryEnd.orInsertWith none g).specs k [] pl).2 = (if pl.here.isSome then (pl.map g).list else pl.list) ∧
    ((EntryEnd.orDefault none g).specs k [] pl).2 = (if pl.here.isSome then (pl.map g).list else pl.list) ∧
    ∀ fin : EntryEnd V, pl.here.isSome → fin.specs k (.modify g true :: as) pl = ([.unwound], (pl.map g).list) := by
  obtain ⟨A, x, B⟩ := pl
  cases x with
  | none => exact ⟨rfl, rfl, by simp⟩
  | some kv => exact ⟨rfl, rfl, fun fin _ => rfl⟩

/-! ### Examples -/

/-- What an entry program on the first map answers, the lists at the end, and the number of nodes left. -/
def entryRun (ops : List (Op Nat Nat Nat)) (k : Nat) (as : List (EntryLook Nat)) (fin : EntryEnd Nat) : Option (List (EntrySeen Nat Nat) × List (List (Nat × Nat)) × Nat) :=
  match Op.hprog id ops [] (Heap.Heap.start allOk reuse) with
  | .ok ((_, true, p), s) =>
    match p[0]? with
    | some m =>
      match m.entryUse k as fin s with
      | .ok ((xs, m'), s') =>
        match dropAll (p.set 0 m') s' with
        | .ok (ls, s'') => some (xs, ls, (tally s'').2)
        | _ => none
      | _ => none
    | _ => none
  | _ => none

/-- An occupied entry, printed, changed three times, and removed. -/
example : entryRun lookProgram 7 [.key, .get, .debug, .modify (· + 1) false, .insert 5, .write (· * 2), .debug] .removeEntry =
    some ([.key 7, .value (some 49), .printed 7 (some 49), .done, .value (some 50), .done, .printed 7 (some 10), .pair (some (7, 10))],
      [((List.range 14).map fun i => (i, i * i)).filter (·.1 ≠ 7), [(7, 1)]], 0) := by decide +kernel

/-- A closure that panics after having written: the map is whole, with the written value. -/
example : entryRun lookProgram 7 [.get, .modify (· + 1) true, .get] .remove =
    some ([.value (some 49), .unwound], [(List.range 14).map fun i => (i, if i = 7 then 50 else i * i), [(7, 1)]], 0) := by decide +kernel

/-- A vacant entry: printed, not changed by `and_modify`, filled; or left alone when the closure panics. -/
example : entryRun lookProgram 20 [.debug, .modify (· + 1) true, .get] (.orInsertWith (some 3) (· + 4)) =
    some ([.printed 20 none, .done, .value none, .value (some 3)], [((List.range 14).map fun i => (i, i * i)) ++ [(20, 7)], [(7, 1)]], 0) := by decide +kernel

example : entryRun lookProgram 20 [.key] (.orInsertWith none (· + 4)) =
    some ([.key 20, .unwound], [(List.range 14).map fun i => (i, i * i), [(7, 1)]], 0) := by decide +kernel

end Verif.Props
