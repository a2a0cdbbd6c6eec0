import Verif.Heap.Proofs.GoOn
import Verif.Props.AfterFail
/-
C83: programs that go on after insertions failed.
-/
namespace Verif.Props
open Verif Verif.Heap Verif.Spec
open Verif.BTree (Map Loose)

variable {K V Q : Type} {pl : Nat → Heap.Addr}

theorem hgoOn_cases [Ord K] [Ord Q] (bor : K → Q) (ops : List (Op K V Q)) (al : Alloc) (pl : Nat → Addr) :
    match Op.hgoOn bor ops [] [] (Heap.start al pl) with
    | .ok (r, s) => s.Good ∧ GoOnPost bor ops [] [] al r s.world
    | .ub => False
    | .panic msg => BTree.Op.goOn bor ops [] [] al = .panic msg := by
  have h := hgoOn_ref (E := fun msg => BTree.Op.goOn bor ops [] [] al = .panic msg) bor ops (bad := []) (hs := []) (p := []) (Loose.ofAll (by simp)) al
    (fun _ h => h) emp (Heap.start al pl) (start_good al) (start_world al)
  cases hr : Op.hgoOn bor ops [] [] (Heap.start al pl) with
  | ok r =>
    rw [hr] at h
    exact ⟨h.1, by simpa only [sep_emp] using h.2⟩
  | ub => rw [hr] at h; exact h
  | panic msg => rw [hr] at h; exact h

/-- The end of a careful program in memory. -/
theorem hgoOn_ok [Ord K] [Ord Q] {bor : K → Q} {ops : List (Op K V Q)} {al : Alloc} {os : List (Out K V)} {bad : List Nat} {p : List HMap} {s : Heap K V}
    (hr : Op.hgoOn bor ops [] [] (Heap.start al pl) = .ok ((os, bad, p), s)) :
    s.Good ∧ ∃ ms al', BTree.Op.goOn bor ops [] [] al = .ok (os, bad, ms, al') ∧ Loose Map.Shaped bad ms ∧ (pool p ms ∗ sched al' ∗ litters (os.countP isFailed)) s.world := by
  have h := hgoOn_cases bor ops al pl
  rw [hr] at h
  obtain ⟨h1, y, h2⟩ := h
  obtain ⟨h3, h4⟩ := fact_sep.1 h2
  exact ⟨h1, y.1, y.2, h3.1, h3.2, h4⟩

theorem dropSound_world {bad : List Nat} {p : List HMap} {ms : List (Map K V)} (hl : Loose Map.Shaped bad ms) {R : HProp K V} {s : Heap K V} (hg : s.Good)
    (hw : (pool p ms ∗ R) s.world) : ∃ s', dropSound bad 0 p s = .ok (soundOf bad 0 (ms.map Map.toList), s') := by
  have h := dropSound_spec (E := fun _ => False) (bad := bad) (n := 0) (hs := p) (p := ms)
    (fun i m hi hb => (hl.sound hi (by simpa using hb)).len.trans (Nat.add_zero _)) R s hg hw
  cases hd : dropSound bad 0 p s with
  | ub => rw [hd] at h; exact h.elim
  | panic msg => rw [hd] at h; exact h.elim
  | ok r =>
    rw [hd] at h
    have h2 := h.2
    rw [sep_assoc] at h2
    exact ⟨r.2, by rw [← (fact_sep.1 h2).1]⟩

/-- C83 (safety): a program that goes on after failed insertions, and then calls on the maps they hit neither an iterator over the whole map nor `append`,
`clear` or `drop`, does nothing undefined, whatever the `Ord`, the allocator and the placement of the nodes; and the maps that were not hit can be dropped. -/
theorem C83_safe [Ord K] [Ord Q] (bor : K → Q) (ops : List (Op K V Q)) (al : Alloc) (pl : Nat → Addr) :
    Op.hgoOn bor ops [] [] (Heap.start al pl) ≠ .ub ∧
    ∀ os bad p s, Op.hgoOn bor ops [] [] (Heap.start al pl) = .ok ((os, bad, p), s) → ∃ ls s', dropSound bad 0 p s = .ok (ls, s') := by
  refine ⟨fun h => ?_, fun os bad p s hr => ?_⟩
  · have := hgoOn_cases bor ops al pl
    rw [h] at this
    exact this
  · obtain ⟨hg, ms, al', _, h2, hw⟩ := hgoOn_ok hr
    obtain ⟨s', h⟩ := dropSound_world h2 hg hw
    exact ⟨_, s', h⟩

/-- C83 (answers): with a lawful order, the answers are those a list would give, except that a call may return `Err`, an insertion that does so may lose
entries of its own map, and `len` and `is_empty` of such a map may overestimate; and dropping the maps that were not hit gives back exactly their entries. -/
theorem C83_answers [Ord K] [Ord Q] [Std.TransOrd K] [Std.TransOrd Q] {bor : K → Q} (hbo : BorrowOK bor) {ops : List (Op K V Q)} {al : Alloc}
    {os : List (Out K V)} {bad : List Nat} {p : List HMap} {s : Heap K V}
    (hr : Op.hgoOn bor ops [] [] (Heap.start al pl) = .ok ((os, bad, p), s)) :
    ∃ ls, Op.alloweds bor ops [] [] os bad ls ∧ (∀ l ∈ ls, l.Pairwise fun x y => compare x.1 y.1 = .lt) ∧
      ∃ s', dropSound bad 0 p s = .ok (soundOf bad 0 ls, s') := by
  obtain ⟨hg, ms, al', h1, h2, hw⟩ := hgoOn_ok hr
  obtain ⟨h3, h4⟩ := BTree.Op.goOn_allowed hbo ops (bad := []) (p := []) (Loose.ofAll (by simp)) h1
  refine ⟨ms.map Map.toList, h4, fun l hl => ?_, dropSound_world h2 hg hw⟩
  obtain ⟨m, hm, rfl⟩ := List.mem_map.1 hl
  obtain ⟨i, hi⟩ := List.mem_iff_getElem?.1 hm
  obtain ⟨x, hx, _⟩ := h3 i m hi
  exact hx.sorted

theorem spec_inserting [Ord K] [Ord Q] {bor : K → Q} {op : Op K V Q} {x : Nat × K × V} (h : op.inserting = some x) (s : List (List (K × V))) :
    (op.spec bor s).1 ≠ .failed := by
  cases op <;> simp only [Op.inserting, Option.some.injEq, reduceCtorEq] at h <;> simp only [Op.spec, onList] <;> split <;> simp
  all_goals split <;> simp

theorem onList_length {s : List (List (K × V))} {i : Nat} {f : List (K × V) → Out K V × List (K × V)} : (onList s i f).2.length = s.length := by
  unfold onList
  split <;> simp

theorem spec_length [Ord K] [Ord Q] {bor : K → Q} {op : Op K V Q} {s : List (List (K × V))} : s.length ≤ (op.spec bor s).2.length := by
  cases op <;> simp only [Op.spec, onList_length, Nat.le_refl] <;> (repeat' split) <;> simp

theorem allowed_below [Ord K] [Ord Q] {bor : K → Q} {op : Op K V Q} {bad : List Nat} {s s' : List (List (K × V))} {o : Out K V} {lens : List Nat}
    (hlens : lens.length = s.length) (hb : ∀ i ∈ bad, i < s.length)
    (h : op.allowed bor bad s o s') : s.length ≤ s'.length ∧ ∀ i ∈ op.mark bad lens o, i < s'.length := by
  unfold Op.allowed at h
  have hle : s.length ≤ s'.length := by
    split at h
    · rw [h.2]; exact Nat.le_refl _
    · rcases h with h | ⟨_, h⟩ | ⟨_, h⟩
      · have := spec_length (bor := bor) (op := op) (s := s)
        rw [← h] at this; exact this
      · unfold Op.leaves at h
        split at h
        · obtain ⟨l, l', _, _, _, _, rfl⟩ := h
          simp
        · rw [h]; exact Nat.le_refl _
      · rw [h]; exact Nat.le_refl _
  refine ⟨hle, ?_⟩
  unfold Op.mark
  cases o with
  | failed =>
    dsimp only
    cases hop : op.inserting with
    | none => intro i hi; exact Nat.lt_of_lt_of_le (hb i hi) hle
    | some x =>
      have hx : x.1 < s.length := by
        split at h
        · exact absurd h.1 (by simp)
        · rcases h with h | ⟨_, h⟩ | ⟨h, _⟩
          · exact absurd (by rw [← h]) (spec_inserting (bor := bor) hop s)
          · unfold Op.leaves at h
            rw [hop] at h
            obtain ⟨l, l', h1, _⟩ := h
            exact (List.getElem?_eq_some_iff.1 h1).1
          · cases op <;> simp only [Op.inserting, reduceCtorEq] at hop <;> simp [Op.miscounts] at h
      dsimp only
      intro i hi
      split at hi
      · exact Nat.lt_of_lt_of_le (hb i hi) hle
      · rcases List.mem_cons.1 hi with rfl | hi
        · exact Nat.lt_of_lt_of_le hx hle
        · exact Nat.lt_of_lt_of_le (hb i hi) hle
  | done =>
    dsimp only
    cases op with
    | splitOff i q =>
      dsimp only
      intro j hj
      split at hj
      · rename_i hbad
        rcases List.mem_cons.1 hj with rfl | hj
        · rw [if_neg (by simp [Op.trusts])] at h
          rcases h with h | ⟨h, _⟩ | ⟨h, _⟩
          · simp only [Op.spec, List.getElem?_eq_getElem (hb i hbad), Prod.mk.injEq] at h
            rw [h.2, hlens]
            simp
          · simp at h
          · simp [Op.miscounts] at h
        · exact Nat.lt_of_lt_of_le (hb j hj) hle
      · exact Nat.lt_of_lt_of_le (hb j hj) hle
    | _ => intro j hj; exact Nat.lt_of_lt_of_le (hb j hj) hle
  | _ => intro i hi; exact Nat.lt_of_lt_of_le (hb i hi) hle

theorem alloweds_snoc [Ord K] [Ord Q] {bor : K → Q} {op : Op K V Q} : ∀ {ops : List (Op K V Q)} {bad : List Nat} {s : List (List (K × V))} {os : List (Out K V)}
    {bad' : List Nat} {s' : List (List (K × V))}, Op.alloweds bor (ops ++ [op]) bad s os bad' s' → (∀ i ∈ bad, i < s.length) →
    ∃ os1 o bad1 s1, os = os1 ++ [o] ∧ Op.alloweds bor ops bad s os1 bad1 s1 ∧ op.allowed bor bad1 s1 o s' ∧ bad' = op.mark bad1 (s1.map List.length) o ∧
      ∀ i ∈ bad1, i < s1.length
  | [], bad, s, os, bad', s', h, hb => by
    obtain ⟨o, os1, s1, rfl, h1, h2⟩ := h
    obtain ⟨rfl, rfl, rfl⟩ := h2
    exact ⟨[], o, bad, s, rfl, ⟨rfl, rfl, rfl⟩, h1, rfl, hb⟩
  | op1 :: ops, bad, s, os, bad', s', h, hb => by
    obtain ⟨o, os1, s1, rfl, h1, h2⟩ := h
    obtain ⟨os2, o2, b2, s2, rfl, h3, h4, h5, h6⟩ := alloweds_snoc h2 (allowed_below (by simp) hb h1).2
    exact ⟨o :: os2, o2, b2, s2, rfl, ⟨o, os2, s1, rfl, h1, h3⟩, h4, h5, h6⟩

/-- C83 (repair): `try_clone` of a map that was hit by failed insertions, if it succeeds, gives a map with the same entries that was not hit: its number
is not among `bad`, so it may be iterated over, appended, cleared and dropped. -/
theorem C83_repair [Ord K] [Ord Q] [Std.TransOrd K] [Std.TransOrd Q] {bor : K → Q} (hbo : BorrowOK bor) {ops : List (Op K V Q)} {al : Alloc} {i : Nat}
    {os : List (Out K V)} {bad : List Nat} {p : List HMap} {s : Heap K V}
    (hr : Op.hgoOn bor (ops ++ [.tryClone i (fun _ => true) some]) [] [] (Heap.start al pl) = .ok ((os ++ [.done], bad, p), s)) :
    ∃ ls l, Op.alloweds bor ops [] [] os bad ls ∧ ls[i]? = some l ∧ ls.length ∉ bad ∧
      ∃ s', dropSound bad 0 p s = .ok (soundOf bad 0 ls ++ [l], s') := by
  obtain ⟨ls', h1, _, s', h2⟩ := C83_answers hbo hr
  obtain ⟨os1, o, bad1, ls, h3, h4, h5, h6, h7⟩ := alloweds_snoc h1 (by simp)
  obtain ⟨rfl, h3⟩ := List.append_inj' h3 rfl
  obtain rfl : Out.done = o := by simpa using h3
  have hmark : bad = bad1 := h6
  subst hmark
  have hcl : ∀ l : List (K × V), cloneList (fun _ => true) some l = some l := by
    intro l
    induction l with
    | nil => rfl
    | cons kv l ih => simp [cloneList, ih]
  unfold Op.allowed at h5
  rw [if_neg (by simp [Op.trusts])] at h5
  rcases h5 with h5 | ⟨h5, _⟩ | ⟨h5, _⟩
  · simp only [Op.spec] at h5
    cases hi : ls[i]? with
    | none => rw [hi] at h5; simp at h5
    | some l =>
      rw [hi] at h5
      simp only [hcl, Prod.mk.injEq, true_and] at h5
      subst h5
      have hnot : ls.length ∉ bad := fun h => Nat.lt_irrefl _ (h7 _ h)
      refine ⟨ls, l, h4, hi, hnot, s', ?_⟩
      rw [h2]
      have happ : ∀ (n : Nat) (xs : List (List (K × V))) (y : List (K × V)), n + xs.length ∉ bad → soundOf bad n (xs ++ [y]) = soundOf bad n xs ++ [y] := by
        intro n xs y
        induction xs generalizing n with
        | nil => intro hn; simp only [List.length_nil, Nat.add_zero] at hn; simp [soundOf, hn]
        | cons x xs ih =>
          intro hn
          have := ih (n + 1) (by rwa [List.length_cons, ← Nat.add_assoc, Nat.add_right_comm] at hn)
          simp only [List.cons_append, soundOf, this]
          split <;> simp
      rw [happ 0 ls l (by simpa using hnot)]
  · simp at h5
  · simp [Op.miscounts] at h5

/-- A program for which the hypotheses hold: the allocator grants everything but the third request (the one of `insert 0 100`).  The first map then says
12 and has 11 entries; it is asked, changed, copied and split, and the copy is iterated over and appended; `iterate 0` and `clear 0` are not called. -/
def wornProgram : List (Op Nat Nat Nat) :=
  fillTwo ++ [.insert 0 100 100, .len 0, .get 0 3, .remove 0 4, .iterate 0 [.front], .clear 0, .insert 0 200 200, .tryClone 0 (fun _ => true) some,
    .len 2, .iterate 2 [.front, .back], .splitOff 0 5, .len 3, .range 3 .unbounded .unbounded [.front], .append 1 2, .len 1]

example : (match Op.hgoOn id wornProgram [] [] (Heap.Heap.start (fun n => n != 2) reuse) with
    | .ok ((os, bad, p), s) => os.drop 23 == [.failed, .count 12, .value (some 3), .value (some 4), .skipped, .skipped, .value none, .done,
        .count 11, .items [some (0, 0), some (200, 200)], .done, .count 7, .items [some (5, 5)], .done, .count 12] && bad == [3, 0] &&
      (match dropSound bad 0 p s with
      | .ok (ls, _) => ls == [(List.range 11).map (fun i => (i, i)) ++ [(200, 200)], []]
      | _ => false)
    | _ => false) = true := by decide +kernel

/-- Up to the copy: the hypothesis of `C83_repair`. -/
example : (match Op.hgoOn id (wornProgram.take 30 ++ [.tryClone 0 (fun _ => true) some]) [] [] (Heap.Heap.start (fun n => n != 2) reuse) with
    | .ok ((os, bad, p), _) => os.drop 30 == [.done] && bad == [0] && p.map (·.length) == [12, 10, 11]
    | _ => false) = true := by decide +kernel

/-- What was left out of the program is really undefined: `clear` of the first map right after the failed insertion. -/
example : (match Op.hgoOn id (wornProgram.take 24) [] [] (Heap.Heap.start (fun n => n != 2) reuse) with
    | .ok ((_, bad, p), s) => bad == [0] && (match Op.hrun id p (.clear 0 : Op Nat Nat Nat) s with
      | .ub => true
      | _ => false)
    | _ => false) = true := by decide +kernel

end Verif.Props
