import Verif.Heap.Proofs.UnwindSplit
import Verif.Heap.Proofs.UnwindMap
import Verif.Props.AfterFail
import Verif.Props.Budget
import Verif.Props.Unwind
/-
C68: `split_off` whose comparison panics, in memory.
-/
namespace Verif.Props
open Verif Verif.Heap Verif.Spec
open Verif.BTree (Map Why)

variable {K V Q : Type} {pl : Nat → Heap.Addr}

/-- C68 with the maps of level 1. -/
theorem split_unwinds [Ord K] [Ord Q] {bor : K → Q} {ops : List (Op K V Q)} {al : Alloc} {os : List (Out K V)} {p : List HMap} {s : Heap K V}
    (hr : Op.hprog bor ops [] (Heap.start al pl) = .ok ((os, true, p), s)) {i : Nat} {m : HMap} (hm : p[i]? = some m) (q : Q) (fuel : Nat) :
    ∃ ms M, BTree.Op.runs bor ops [] al = .ok (os, ms, s.alloc) ∧ (∀ m ∈ ms, m.WF) ∧ ms[i]? = some M ∧
    ∃ (before : List (List (K × V))) (l : List (K × V)), before = ms.map Map.toList ∧ l = M.toList ∧ (∃ s0, dropAll p s = .ok (before, s0)) ∧ before[i]? = some l ∧
    ((∃ r m' s', m.splitOffU bor q fuel s = .ok ((.returned r, m'), s') ∧ m.splitOff bor q s = .ok ((r, m'), s')) ∨
     (∃ s' l' rest, m.splitOffU bor q fuel s = .ok ((.unwound [], m), s') ∧ l = l' ++ rest ∧
      (∃ right m2 s2 lr s3, m.splitOff bor q s = .ok ((some right, m2), s2) ∧ right.drop s2 = .ok (lr, s3) ∧ rest <:+ lr ∧ fuel < 11 * (M.height + 1) ∧
        ∃ R M2 a2, M.splitOff bor q s.alloc = .ok (.ok R, M2, a2) ∧ lr = R.toList) ∧
      (rest = [] → ∃ s2, dropAll p s' = .ok (before, s2) ∧ ∀ a, s2.cells a = none) ∧
      (rest ≠ [] → m.drop s' = .ub ∧
        (∀ n, n ≤ l'.length → ∃ it s2, (m.intoIter >>= fun it => it.asks m.root.height (List.replicate n .front)) s' = .ok (((l'.take n).map some, it), s2)) ∧
        ∀ n, l'.length < n → (m.intoIter >>= fun it => it.asks m.root.height (List.replicate n .front)) s' = .ub) ∧
      ∀ j mj lj, j ≠ i → p[j]? = some mj → before[j]? = some lj → ∃ s2, mj.drop s' = .ok (lj, s2))) := by
  obtain ⟨ms, h1, h2, hp⟩ := hprog_alloc hr
  obtain ⟨hg, _⟩ := hprog_ok hr
  have hw : (pool p ms ∗ sched s.alloc) s.world := ⟨⟨s.cells, none⟩, ⟨fun _ => none, some s.alloc⟩, ⟨fun _ => .inr rfl, .inl rfl⟩, by
    simp [World.union, Heap.world], hp, rfl⟩
  have hlen : p.length = ms.length := by
    have := Ent.frame pool_length _ _ hw
    rw [sep_assoc] at this
    exact (fact_sep.1 this).1
  have hlt : i < ms.length := by rw [← hlen]; exact (List.getElem?_eq_some_iff.1 hm).1
  obtain ⟨M, hM⟩ : ∃ M, ms[i]? = some M := ⟨_, List.getElem?_eq_getElem hlt⟩
  obtain ⟨hm1, F, e1, e2, e3⟩ := pool_split hlen hM
  rw [hm] at e1
  obtain rfl := Option.some.inj e1
  have hwf := h2 M (List.mem_of_getElem? hM)
  obtain ⟨ms', al', g1, s0, g2, _⟩ := C51_drop hr
  rw [h1] at g1
  simp only [Exec.ok.injEq, Prod.mk.injEq, true_and] at g1
  obtain ⟨rfl, _⟩ := g1
  have hw' : ((rep m M ∗ sched s.alloc) ∗ F) s.world := by
    rw [e2] at hw
    have : ((rep m M ∗ sched s.alloc) ∗ F) = ((rep m M ∗ F) ∗ sched s.alloc) := by ac_rfl
    rw [this]; exact hw
  refine ⟨ms, M, h1, h2, hM, ms.map Map.toList, M.toList, rfl, rfl, ⟨s0, g2⟩, by simp [hM], ?_⟩
  rcases Map.splitOffP_spec hwf bor q s.alloc fuel with ⟨M', rest, c1, c2, c3, c4, c8, c7, R, M2, a2, c5, c6⟩ | ⟨r, f, c1, c2⟩
  · right
    obtain ⟨⟨e, m'⟩, s', k1, k2, k3⟩ := Triple.returns (splitOffU_ref (E := fun _ => False) hwf c1) hg hw'
    unfold SplitPostU at k3
    dsimp only at k3
    rw [sep_assoc] at k3
    obtain ⟨e0, k4⟩ := fact_sep.1 k3
    simp only [Prod.mk.injEq] at e0
    obtain ⟨e01, e02⟩ := e0
    subst e01
    rw [e02] at k1
    clear e02
    have hsh : M.shared = true → M.length = 0 := fun h => by
      obtain ⟨h1, h2⟩ := hwf.shared h
      have := hwf.len
      simpa [Map.toList, h1, h2, BTree.emptyLeaf] using this
    have hrep : (rep m M' ∗ anything) s'.world := by
      have : ((sched (BTree.Alloc.requests (M.height + 1) s.alloc).2 ∗ rep m M' ∗ leak (M'.toList.length == M.toList.length)) ∗ F) =
        (rep m M' ∗ (sched (BTree.Alloc.requests (M.height + 1) s.alloc).2 ∗ leak (M'.toList.length == M.toList.length) ∗ F)) := by ac_rfl
      rw [this] at k4
      exact Ent.sep (Ent.refl _) (fun _ _ => trivial) _ k4
    have hset : p.set i m = p := by
      refine List.ext_getElem? fun j => ?_
      by_cases hji : i = j
      · subst hji
        rw [List.getElem?_set_self (by omega), hm]
      · rw [List.getElem?_set_ne hji]
    have hpool : (pool p (ms.set i M') ∗ (sched (BTree.Alloc.requests (M.height + 1) s.alloc).2 ∗ leak (M'.toList.length == M.toList.length))) s'.world := by
      have e4 := e3 m M'
      rw [hset] at e4
      rw [e4]
      have : ((rep m M' ∗ F) ∗ (sched (BTree.Alloc.requests (M.height + 1) s.alloc).2 ∗ leak (M'.toList.length == M.toList.length))) =
        ((sched (BTree.Alloc.requests (M.height + 1) s.alloc).2 ∗ rep m M' ∗ leak (M'.toList.length == M.toList.length)) ∗ F) := by ac_rfl
      rw [this]; exact k4
    refine ⟨s', M'.toList, rest, k1, c4, ?_, ?_, ?_, ?_⟩
    · obtain ⟨⟨o, m2⟩, s2, d1, d2, d3⟩ := Triple.returns (splitOff_ref (E := fun _ => False) (hm := m) hsh c5) hg hw'
      unfold SplitPost at d3
      dsimp only at d3
      rw [show ((sched a2 ∗ (hex fun hr : HMap => fact (o = some hr) ∗ rep hr R) ∗ rep m2 M2) ∗ F) =
        ((hex fun hr : HMap => fact (o = some hr) ∗ rep hr R) ∗ sched a2 ∗ rep m2 M2 ∗ F) by ac_rfl, hex_sep] at d3
      obtain ⟨right, d3⟩ := d3
      rw [sep_assoc] at d3
      obtain ⟨rfl, d6⟩ := fact_sep.1 d3
      obtain ⟨r0, m0, a0, q1, q2, _⟩ := Map.splitOff_wf hwf bor q s.alloc
      obtain ⟨rfl, rfl, rfl⟩ := by simpa using BTree.Exec.ok_unique c5 q1
      obtain ⟨⟨x1, x2, hx, _, hR⟩, _⟩ := q2
      obtain rfl : x2 = 0 := by omega
      obtain ⟨lr, s3, d4, _, d5⟩ := Triple.returns (mapDrop_spec (E := fun _ => False) (hm := right) (M := R) (hR.len.trans (Nat.add_zero _))) d2 d6
      obtain ⟨rfl, _⟩ := fact_sep.1 d5
      exact ⟨right, m2, s2, R.toList, s3, d1, d4, c6, c8, R, M2, a2, c5, rfl⟩
    · intro hrest
      subst hrest
      rw [List.append_nil] at c4
      have hlk : leak (K := K) (V := V) (M'.toList.length == M.toList.length) = emp := by
        rw [show (M'.toList.length == M.toList.length) = true by rw [c4]; simp]; rfl
      rw [hlk, sep_emp] at hpool
      have hlens : ∀ N ∈ ms.set i M', N.length = N.toList.length := by
        intro N hN
        rcases List.mem_or_eq_of_mem_set hN with hN | rfl
        · exact (h2 N hN).len.trans (Nat.add_zero _)
        · rw [c3, ← c4]; exact hwf.len.trans (Nat.add_zero _)
      obtain ⟨s2, g1, g2⟩ := all_freed (dropAll_len (E := fun _ => False) hlens) k2 hpool
      refine ⟨s2, ?_, g2⟩
      rw [g1, List.map_set, ← c4]
      have : (ms.map Map.toList).set i M.toList = ms.map Map.toList := by
        refine List.ext_getElem? fun j => ?_
        by_cases hji : i = j
        · subst hji
          rw [List.getElem?_set_self (by simpa using hlt)]
          simp [hM]
        · rw [List.getElem?_set_ne hji]
      rw [this]
    · intro hrest
      have hpos := List.length_pos_iff.2 hrest
      have hl : M'.toList.length < M'.length := by
        have := hwf.len
        rw [c4] at this
        simp only [List.length_append, Nat.add_zero] at this
        omega
      have hs : M'.shared = false := by
        rw [c7]
        cases h : M.shared with
        | false => rfl
        | true => have := hsh h; omega
      refine ⟨mapDrop_ub hs hl _ _ k2 hrep, fun n hn => ?_, fun n hn => intoIter_ub hs hl hn _ _ k2 hrep⟩
      obtain ⟨⟨xs, it⟩, s2, d1, _, d2⟩ := Triple.returns (intoIter_fronts (E := fun _ => False) hs hl hn) k2 hrep
      rw [sep_assoc] at d2
      obtain ⟨h11, _⟩ := fact_sep.1 d2
      dsimp only at h11
      subst h11
      exact ⟨it, s2, d1⟩
    · intro j mj lj hji hj hlj
      obtain ⟨N, e1, e4⟩ := pool_one hpool (by simpa using hlen) hj
      rw [List.getElem?_set_ne (Ne.symm hji)] at e1
      have hN := h2 N (List.mem_of_getElem? e1)
      simp only [List.getElem?_map, e1, Option.map_some, Option.some.injEq] at hlj
      subst hlj
      obtain ⟨o, s2, d1, _, d2⟩ := Triple.returns (mapDrop_spec (E := fun _ => False) (hm := mj) (M := N) (hN.len.trans (Nat.add_zero _))) k2 e4
      obtain ⟨rfl, _⟩ := fact_sep.1 d2
      exact ⟨s2, d1⟩
  · left
    obtain ⟨⟨e, m'⟩, s', k1, k2, k3⟩ := Triple.returns (splitOffU_ref (E := fun _ => False) hwf c1) hg hw'
    unfold SplitPostU at k3
    obtain ⟨res, M', al'⟩ := r
    dsimp only at k3
    rw [hex_sep] at k3
    obtain ⟨r, k3⟩ := k3
    rw [sep_assoc] at k3
    obtain ⟨rfl, _⟩ := fact_sep.1 k3
    exact ⟨r, m', s', k1, splitOffU_run k1⟩

/-- **C68** `split_off` on a map of any program, with any key order and allocator, whichever comparison panics: neither the call nor the unwinding is undefined
behaviour.  If it returns, it did what the undisturbed call does.  If it unwinds, no destructor of an entry has run, and `len()` is what it was; `l'`, a first part of the entries,
is still in the map, the rest belongs to nobody: those are last entries of the map which the undisturbed call would have returned.  If there is no rest, everything is as before.  If there
is one, the owning iterator gives out `l'` and asked once more is undefined behaviour, and so is dropping the map.  Every other map can be dropped, which drops the entries it had. -/
theorem C68_split_off [Ord K] [Ord Q] {bor : K → Q} {ops : List (Op K V Q)} {al : Alloc} {os : List (Out K V)} {p : List HMap} {s : Heap K V}
    (hr : Op.hprog bor ops [] (Heap.start al pl) = .ok ((os, true, p), s)) {i : Nat} {m : HMap} (hm : p[i]? = some m) (q : Q) (fuel : Nat) :
    ∃ (before : List (List (K × V))) (l : List (K × V)), (∃ s0, dropAll p s = .ok (before, s0)) ∧ before[i]? = some l ∧
    ((∃ r m' s', m.splitOffU bor q fuel s = .ok ((.returned r, m'), s') ∧ m.splitOff bor q s = .ok ((r, m'), s')) ∨
     (∃ s' l' rest, m.splitOffU bor q fuel s = .ok ((.unwound [], m), s') ∧ l = l' ++ rest ∧
      (∃ right m2 s2 lr s3, m.splitOff bor q s = .ok ((some right, m2), s2) ∧ right.drop s2 = .ok (lr, s3) ∧ rest <:+ lr) ∧
      (rest = [] → ∃ s2, dropAll p s' = .ok (before, s2) ∧ ∀ a, s2.cells a = none) ∧
      (rest ≠ [] → m.drop s' = .ub ∧
        (∀ n, n ≤ l'.length → ∃ it s2, (m.intoIter >>= fun it => it.asks m.root.height (List.replicate n .front)) s' = .ok (((l'.take n).map some, it), s2)) ∧
        ∀ n, l'.length < n → (m.intoIter >>= fun it => it.asks m.root.height (List.replicate n .front)) s' = .ub) ∧
      ∀ j mj lj, j ≠ i → p[j]? = some mj → before[j]? = some lj → ∃ s2, mj.drop s' = .ok (lj, s2))) := by
  obtain ⟨ms, M, _, _, _, before, l, _, _, h4, h5, h6⟩ := split_unwinds hr hm q fuel
  refine ⟨before, l, h4, h5, h6.imp id ?_⟩
  rintro ⟨s', l', rest, k1, k2, ⟨right, m2, s2, lr, s3, k3, k4, k5, _⟩, k6⟩
  exact ⟨s', l', rest, k1, k2, ⟨right, m2, s2, lr, s3, k3, k4, k5⟩, k6⟩

/-- **C68** With enough comparisons answered it returns. -/
theorem C68_returns [Ord K] [Ord Q] {bor : K → Q} {ops : List (Op K V Q)} {al : Alloc} {os : List (Out K V)} {p : List HMap} {s : Heap K V}
    (hr : Op.hprog bor ops [] (Heap.start al pl) = .ok ((os, true, p), s)) {m : HMap} (hm : m ∈ p) (q : Q) :
    ∃ n, ∀ fuel, n ≤ fuel → ∃ r m' s', m.splitOffU bor q fuel s = .ok ((.returned r, m'), s') ∧ m.splitOff bor q s = .ok ((r, m'), s') := by
  obtain ⟨i, hi⟩ := List.mem_iff_getElem?.1 hm
  obtain ⟨ms, M, h1, _, h2, _⟩ := split_unwinds hr hi q 0
  refine ⟨11 * (M.height + 1), fun fuel hf => ?_⟩
  obtain ⟨ms', M', g1, _, g2, _, _, _, _, _, _, g3⟩ := split_unwinds hr hi q fuel
  obtain ⟨-, rfl, -⟩ := by simpa using BTree.Exec.ok_unique h1 g1
  rw [h2] at g2
  obtain rfl := Option.some.inj g2
  rcases g3 with g3 | ⟨_, _, _, _, _, ⟨_, _, _, _, _, _, _, _, g4, _⟩, _⟩
  · exact g3
  · omega

/-- **C68** If the order is lawful, then in terms of the lists the answers of the program determine: the entries that are lost all have keys that are not less than
the key given, so every entry with a smaller key is still there. -/
theorem C68_lost [Ord K] [Std.TransOrd K] [Ord Q] [Std.TransOrd Q] {bor : K → Q} (hbo : BorrowOK bor) {ops : List (Op K V Q)} {al : Alloc}
    {os : List (Out K V)} {p : List HMap} {s : Heap K V} (hr : Op.hprog bor ops [] (Heap.start al pl) = .ok ((os, true, p), s)) (hf : .failed ∉ os) {i : Nat}
    {m m' : HMap} (hm : p[i]? = some m) {q : Q} {fuel : Nat} {d : List (K × V)} {s' : Heap K V} (hu : m.splitOffU bor q fuel s = .ok ((.unwound d, m'), s')) :
    m' = m ∧ d = [] ∧ ∃ l l' rest, (Op.specs bor ops []).2[i]? = some l ∧ l = l' ++ rest ∧ (∀ kv ∈ rest, compare q (bor kv.1) ≠ .gt) ∧
      (rest ≠ [] → (∀ n, n ≤ l'.length → ∃ it s2, (m.intoIter >>= fun it => it.asks m.root.height (List.replicate n .front)) s' = .ok (((l'.take n).map some, it), s2)) ∧
        m.drop s' = .ub) ∧
      (rest = [] → ∃ s2, dropAll p s' = .ok ((Op.specs bor ops []).2, s2)) := by
  obtain ⟨ms, M, h1, _, h2, before, l, rfl, rfl, _, _, h3⟩ := split_unwinds hr hm q fuel
  rcases h3 with ⟨_, _, _, h3, _⟩ | ⟨s1, l', rest, h3, h4, ⟨_, _, _, lr, _, _, _, h5, _, R, M2, a2, h6, rfl⟩, h7, h8, _⟩
  · rw [hu] at h3; simp at h3
  · rw [hu] at h3
    simp only [Exec.ok.injEq, Prod.mk.injEq, SplitEnd.unwound.injEq] at h3
    obtain ⟨⟨rfl, rfl⟩, rfl⟩ := h3
    rcases runs_agree hbo ops [] (by simp) al with ⟨h, _⟩ | ⟨p3, a3, e1, e2, e3⟩
    · exact absurd ⟨os, ms, _, h1, hf⟩ h
    rw [h1] at e1
    simp only [Exec.ok.injEq, Prod.mk.injEq, List.map_nil] at e1 e3
    obtain ⟨_, rfl, _⟩ := e1
    have hM := e2 M (List.mem_of_getElem? h2)
    refine ⟨rfl, rfl, M.toList, l', rest, by rw [← e3]; simp [h2], h4, ?_, fun hr => ⟨(h8 hr).2.1, (h8 hr).1⟩, fun hr => ?_⟩
    · obtain ⟨r0, m0, a0, q1, q2, _⟩ := Map.splitOff_ordered hbo hM q s.alloc
      obtain ⟨rfl, rfl, rfl⟩ := by simpa using BTree.Exec.ok_unique h6 q1
      intro kv hkv
      have := h5.subset hkv
      rw [q2.2.2, atLeast, List.mem_filter] at this
      simpa using this.2
    · obtain ⟨s2, h9, _⟩ := h7 hr
      exact ⟨s2, by rw [h9, ← e3]⟩

/-- Thirty numbers in one map, one entry in another. -/
def thirty : List (Op Nat Nat Nat) := [.new, .new, .insert 1 5 5] ++ (List.range 30).map (fun i => .insert 0 i i)

/-- `split_off` of the first at `q` with `fuel` comparisons answered: whether it returned, and how dropping the first map ends: the entries dropped and the nodes then allocated. -/
def trySplit (q fuel : Nat) : Option (Bool × Option (Nat × Nat)) :=
  match Op.hprog id thirty [] (Heap.Heap.start (fun _ => true) reuse) with
  | .ok ((_, true, [m, _]), s) => match m.splitOffU id q fuel s with
    | .ok ((e, m'), s') => some (match e with | .returned _ => true | .unwound _ => false, match m'.drop s' with
      | .ok (l, s2) => some (l.length, (tally s2).2)
      | _ => none)
    | _ => none
  | _ => none

/-- It returns; it unwinds before anything was moved; it unwinds with the map cut (dropping it is undefined behaviour).  One node belongs to the other map. -/
example : trySplit 13 50 = some (true, some (13, 4)) ∧ trySplit 13 1 = some (false, some (30, 1)) ∧ trySplit 13 4 = some (false, none) := by decide +kernel

end Verif.Props
