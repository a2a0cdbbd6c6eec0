import Verif.Heap.Proofs.MutLook
import Verif.Heap.Proofs.UnwindMap
import Verif.Props.Heap
import Verif.Props.AfterFail
import Verif.Props.History
/-
C75: mutable iterators that are looked at while they are in use, in memory.
-/
namespace Verif.Props
open Verif Verif.Heap Verif.Spec
open Verif.BTree (Map)

variable {K V Q : Type} {pl : Nat → Heap.Addr}

/-- A program on the `i`-th map of a pool that changes it as `LookPost` says, and the end of all the maps. -/
theorem look_pool {p : List HMap} {ms : List (Map K V)} (hp : ∀ m ∈ ms, m.WF) {i : Nat} {m : HMap} {M : Map K V} (hl : p.length = ms.length) (hm : p[i]? = some m)
    (hM : ms[i]? = some M) {prog : HM K V (List (MutSeen K V))} {r : List (MutSeen K V) × List (K × V)}
    (ht : Triple (fun _ => False) (rep m M) prog (LookPost m r)) {s : Heap K V} (hg : s.Good) {al : Alloc} (hw : (pool p ms ∗ sched al) s.world) :
    ∃ s', prog s = .ok (r.1, s') ∧ ∃ s'', dropAll p s' = .ok ((ms.map Map.toList).set i r.2, s'') ∧ ∀ a, s''.cells a = none := by
  obtain ⟨m0, F, e1, e2, e3⟩ := pool_split hl hM
  rw [hm] at e1
  obtain rfl := Option.some.inj e1
  rw [e2, sep_assoc] at hw
  obtain ⟨o, s', d1, d2, d3⟩ := Triple.returns ht hg hw
  unfold LookPost at d3
  rw [sep_assoc] at d3
  obtain ⟨d4, d5⟩ := fact_sep.1 d3
  subst d4
  rw [hex_sep] at d5
  obtain ⟨M', d6⟩ := d5
  rw [sep_assoc] at d6
  obtain ⟨⟨d7, d8⟩, d9⟩ := fact_sep.1 d6
  refine ⟨s', d1, ?_⟩
  have hset : p.set i m = p := by
    apply List.ext_getElem?
    intro j
    rw [List.getElem?_set]
    split
    · rename_i h; subst h; rw [hm]; split
      · rfl
      · rename_i h; exact absurd (List.getElem?_eq_some_iff.1 hm).1 h
    · rfl
  have hw' : (pool p (ms.set i M') ∗ sched al) s'.world := by
    have := e3 m M'
    rw [hset] at this
    rw [this, sep_assoc]
    exact d9
  have hall : ∀ x ∈ ms.set i M', x.WF := by
    intro x hx
    rcases List.mem_or_eq_of_mem_set hx with h | h
    · exact hp x h
    · exact h ▸ d7
  have hd := dropAll_spec (E := fun _ => False) (hs := p) hall
  rw [List.map_set, d8] at hd
  exact all_freed hd d2 hw'

/-- The memory after a program, for one of its maps. -/
theorem hprog_pool [Ord K] [Ord Q] {bor : K → Q} {ops : List (Op K V Q)} {al : Alloc} {os : List (Out K V)} {p : List HMap} {s : Heap K V}
    (hr : Op.hprog bor ops [] (Heap.start al pl) = .ok ((os, true, p), s)) :
    s.Good ∧ ∃ p' al', BTree.Op.runs bor ops [] al = .ok (os, p', al') ∧ p.length = p'.length ∧ (∀ m ∈ p', m.WF) ∧ (pool p p' ∗ sched al') s.world := by
  obtain ⟨hg, p', al', h1, h2, _, hw⟩ := hprog_ok hr
  obtain ⟨h3, h4⟩ := h2 rfl
  rw [h3, List.take_length] at h1
  have hl : p.length = p'.length := by
    have := Ent.frame pool_length _ _ hw
    rw [sep_assoc] at this
    exact (fact_sep.1 this).1
  exact ⟨hg, p', al', h1, hl, h4, by simpa only [leak, sep_emp] using hw⟩

/-- **C75** After any program (any key order, any allocator), use `iter_mut` of one of the maps in any way: take from either end, write through any reference handed out
so far, ask for `size_hint` and print the iterator with `{:?}`, in any order.  Nothing undefined happens; every answer is the one a cursor over the map's list gives,
`{:?}` showing exactly the entries that are still to come and their number; at the end the map holds the list with the
written values, every other map is as it was, and dropping all the maps leaves nothing allocated. -/
theorem C75_iter_mut [Ord K] [Ord Q] {bor : K → Q} {ops : List (Op K V Q)} {al : Alloc} {os : List (Out K V)} {p : List HMap} {s : Heap K V}
    (hr : Op.hprog bor ops [] (Heap.start al pl) = .ok ((os, true, p), s)) {i : Nat} {m : HMap} (hm : p[i]? = some m) (as : List (MutLook V)) :
    ∃ p' al' l, BTree.Op.runs bor ops [] al = .ok (os, p', al') ∧ (p'.map Map.toList)[i]? = some l ∧
      ∃ s', m.iterMutLook as s = .ok ((Cursor.looks .iter ⟨l, 0, l.length, []⟩ as).1, s') ∧
        ∃ s'', dropAll p s' = .ok ((p'.map Map.toList).set i (Cursor.looks .iter ⟨l, 0, l.length, []⟩ as).2, s'') ∧ ∀ a, s''.cells a = none := by
  obtain ⟨hg, p', al', h1, hl, hp, hw⟩ := hprog_pool hr
  obtain ⟨M, hM, _⟩ := pool_one hw hl hm
  exact ⟨p', al', M.toList, h1, by simp [hM], look_pool hp hl hm hM (iterMutLook_spec (hp M (List.mem_of_getElem? hM)) as) hg hw⟩

/-- **C75** The same for `values_mut`: each answer shows the value only, while `{:?}` shows the keys too (it is the derived `Debug` of the iterator inside). -/
theorem C75_values_mut [Ord K] [Ord Q] {bor : K → Q} {ops : List (Op K V Q)} {al : Alloc} {os : List (Out K V)} {p : List HMap} {s : Heap K V}
    (hr : Op.hprog bor ops [] (Heap.start al pl) = .ok ((os, true, p), s)) {i : Nat} {m : HMap} (hm : p[i]? = some m) (as : List (MutLook V)) :
    ∃ p' al' l, BTree.Op.runs bor ops [] al = .ok (os, p', al') ∧ (p'.map Map.toList)[i]? = some l ∧
      ∃ s', m.valuesMutLook as s = .ok ((Cursor.looks .values ⟨l, 0, l.length, []⟩ as).1, s') ∧
        ∃ s'', dropAll p s' = .ok ((p'.map Map.toList).set i (Cursor.looks .values ⟨l, 0, l.length, []⟩ as).2, s'') ∧ ∀ a, s''.cells a = none := by
  obtain ⟨hg, p', al', h1, hl, hp, hw⟩ := hprog_pool hr
  obtain ⟨M, hM, _⟩ := pool_one hw hl hm
  exact ⟨p', al', M.toList, h1, by simp [hM], look_pool hp hl hm hM (valuesMutLook_spec (hp M (List.mem_of_getElem? hM)) as) hg hw⟩

/-- What the sorted list a program computes has to do with the memory, when the order is lawful. -/
theorem hprog_specs [Ord K] [Std.TransOrd K] [Ord Q] [Std.TransOrd Q] {bor : K → Q} (hbo : BorrowOK bor) {ops : List (Op K V Q)} {al : Alloc} {os : List (Out K V)}
    {p : List HMap} {s : Heap K V} (hr : Op.hprog bor ops [] (Heap.start al pl) = .ok ((os, true, p), s)) (hf : .failed ∉ os) :
    s.Good ∧ ∃ p' al', p.length = p'.length ∧ (∀ m ∈ p', m.Valid) ∧ p'.map Map.toList = (Op.specs bor ops []).2 ∧ (pool p p' ∗ sched al') s.world := by
  obtain ⟨hg, p', al', h1, hl, _, hw⟩ := hprog_pool hr
  rcases runs_agree hbo ops [] (by simp) al with ⟨h, _⟩ | ⟨p3, a3, e1, e2, e3⟩
  · exact absurd ⟨os, p', al', h1, hf⟩ h
  · rw [h1] at e1
    simp only [Exec.ok.injEq, Prod.mk.injEq, List.map_nil] at e1 e3
    obtain ⟨_, rfl, rfl⟩ := e1
    exact ⟨hg, p', al', hl, e2, e3, hw⟩

/-- **C75** With a lawful key order and no failed allocation, `iter_mut` and `values_mut` show the sorted association lists that the program computes. -/
theorem C75_history [Ord K] [Std.TransOrd K] [Ord Q] [Std.TransOrd Q] {bor : K → Q} (hbo : BorrowOK bor) {ops : List (Op K V Q)} {al : Alloc} {os : List (Out K V)}
    {p : List HMap} {s : Heap K V} (hr : Op.hprog bor ops [] (Heap.start al pl) = .ok ((os, true, p), s)) (hf : .failed ∉ os) {i : Nat} {m : HMap} (hm : p[i]? = some m)
    (as : List (MutLook V)) :
    ∃ l, (Op.specs bor ops []).2[i]? = some l ∧
      (∃ s', m.iterMutLook as s = .ok ((Cursor.looks .iter ⟨l, 0, l.length, []⟩ as).1, s') ∧
        ∃ s'', dropAll p s' = .ok ((Op.specs bor ops []).2.set i (Cursor.looks .iter ⟨l, 0, l.length, []⟩ as).2, s'') ∧ ∀ a, s''.cells a = none) ∧
      (∃ s', m.valuesMutLook as s = .ok ((Cursor.looks .values ⟨l, 0, l.length, []⟩ as).1, s') ∧
        ∃ s'', dropAll p s' = .ok ((Op.specs bor ops []).2.set i (Cursor.looks .values ⟨l, 0, l.length, []⟩ as).2, s'') ∧ ∀ a, s''.cells a = none) := by
  obtain ⟨hg, p', al', hl, hp, he, hw⟩ := hprog_specs hbo hr hf
  obtain ⟨M, hM, _⟩ := pool_one hw hl hm
  have hp' : ∀ m ∈ p', m.WF := fun m h => (hp m h).toShaped
  rw [← he]
  exact ⟨M.toList, by simp [hM], look_pool hp' hl hm hM (iterMutLook_spec (hp' M (List.mem_of_getElem? hM)) as) hg hw,
    look_pool hp' hl hm hM (valuesMutLook_spec (hp' M (List.mem_of_getElem? hM)) as) hg hw⟩

/-- **C75** `range_mut` with bounds that are in order: the same over the stretch of the list that lies within the bounds; it reports no number. -/
theorem C75_range_mut [Ord K] [Std.TransOrd K] [Ord Q] [Std.TransOrd Q] {bor : K → Q} (hbo : BorrowOK bor) {ops : List (Op K V Q)} {al : Alloc} {os : List (Out K V)}
    {p : List HMap} {s : Heap K V} (hr : Op.hprog bor ops [] (Heap.start al pl) = .ok ((os, true, p), s)) (hf : .failed ∉ os) {i : Nat} {m : HMap} (hm : p[i]? = some m)
    {lo hi : Bound Q} (hb : badRange lo hi = false) (as : List (MutLook V)) :
    ∃ l pre post, (Op.specs bor ops []).2[i]? = some l ∧ l = pre ++ within bor lo hi l ++ post ∧
      ∃ r, r = Cursor.looks .range ⟨l, pre.length, pre.length + (within bor lo hi l).length, []⟩ as ∧ ∃ s', m.rangeMutLook bor lo hi as s = .ok (r.1, s') ∧
        ∃ s'', dropAll p s' = .ok ((Op.specs bor ops []).2.set i r.2, s'') ∧ ∀ a, s''.cells a = none := by
  obtain ⟨hg, p', al', hl, hp, he, hw⟩ := hprog_specs hbo hr hf
  obtain ⟨M, hM, _⟩ := pool_one hw hl hm
  have hp' : ∀ m ∈ p', m.WF := fun m h => (hp m h).toShaped
  rw [← he]
  rcases Map.range_ordered hbo (hp M (List.mem_of_getElem? hM)) lo hi with ⟨h, _⟩ | ⟨_, r, pre, post, h1, w⟩
  · rw [hb] at h; simp at h
  · exact ⟨M.toList, pre, post, by simp [hM], by rw [List.append_assoc]; exact w.all, _, rfl,
      look_pool hp' hl hm hM (rangeMutLook_spec (hp' M (List.mem_of_getElem? hM)) h1 w as) hg hw⟩

/-- **C75** `range_mut` with bounds that are not in order panics, before anything is looked at, and for no other bounds (see `C75_range_mut`). -/
theorem C75_range_panics [Ord Q] (bor : K → Q) {lo hi : Bound Q} (hb : badRange lo hi = true) (m : HMap) (as : List (MutLook V)) (s : Heap K V) :
    ∃ msg, m.rangeMutLook bor lo hi as s = .panic msg := by
  rcases BTree.rangeCheck_spec lo hi with ⟨_, msg, hc⟩ | ⟨h, _⟩
  · refine ⟨msg, ?_⟩
    unfold HMap.rangeMutLook HMap.range
    rw [hc]
    rfl
  · rw [hb] at h; simp at h

/-- A program that takes nothing and writes nothing. -/
def justLooks : MutLook V → Bool
  | .act _ => false
  | _ => true

/-- **C75** In the specification (so, by the theorems above, in memory), looking changes nothing: leaving out the calls of `size_hint` and `{:?}` changes no other answer
and not the outcome. -/
theorem C75_looking (kind : MutKind) (as : List (MutLook V)) : ∀ c : Cursor K V,
    ((c.looks kind as).1.filter fun o => match o with | .item _ | .wrote => true | _ => false) = (c.looks kind (as.filter fun a => !justLooks a)).1 ∧
    (c.looks kind as).2 = (c.looks kind (as.filter fun a => !justLooks a)).2 := by
  induction as with
  | nil => exact fun c => ⟨rfl, rfl⟩
  | cons a as ih =>
    intro c
    cases a with
    | act a => cases a <;> exact ⟨congrArg (_ :: ·) (ih _).1, (ih _).2⟩
    | hint => exact ih c
    | debug => exact ih c

/-- A map of two levels and another one; `iter_mut` of the first: look, take at both ends, write, look again. -/
def lookProgram : List (Op Nat Nat Nat) := [.new, .new, .extend 0 ((List.range 14).map fun i => (i, i * i)), .insert 1 7 1]

def lookActs : List (MutLook Nat) :=
  [.hint] ++ List.replicate 5 (.act (.take .front)) ++ List.replicate 6 (.act (.take .back)) ++ [.debug, .act (.take .back), .act (.write 11 (· + 100)), .act (.write 0 (· + 7)), .hint, .debug] ++
    List.replicate 3 (.act (.take .front)) ++ [.debug, .hint]

example : (match Op.hprog id lookProgram [] (Heap.Heap.start allOk reuse) with
    | .ok ((_, true, p), s) =>
      match p[0]? with
      | some m =>
        match m.iterMutLook lookActs s with
        | .ok (os, s') =>
          match dropAll p s' with
          | .ok (ls, s'') =>
            os.drop 12 == [.printed [.pair (5, 25), .pair (6, 36), .pair (7, 49)] (some 3), .item (some (.pair (7, 49))), .wrote, .wrote, .hint (2, some 2),
              .printed [.pair (5, 25), .pair (6, 36)] (some 2), .item (some (.pair (5, 25))), .item (some (.pair (6, 36))), .item none, .printed [] (some 0), .hint (0, some 0)] &&
            ls == [(List.range 14).map (fun i => (i, if i = 7 then 149 else if i = 0 then 7 else i * i)), [(7, 1)]] && (tally s'').2 == 0
          | _ => false
        | _ => false
      | _ => false
    | _ => false) = true := by decide +kernel

/-- `range_mut(3..=9)` on the same map: no number is reported, and the keys outside the bounds are never shown. -/
example : (match Op.hprog id lookProgram [] (Heap.Heap.start allOk reuse) with
    | .ok ((_, true, p), s) =>
      match p[0]? with
      | some m =>
        match m.rangeMutLook id (.included 3) (.included 5) [.hint, .debug, .act (.take .back), .act (.write 0 (· + 1)), .debug] s with
        | .ok (os, s') =>
          os == [.hint (0, none), .printed [.pair (3, 9), .pair (4, 16), .pair (5, 25)] none, .item (some (.pair (5, 25))), .wrote, .printed [.pair (3, 9), .pair (4, 16)] none]
        | _ => false
      | _ => false
    | _ => false) = true := by decide +kernel

end Verif.Props
