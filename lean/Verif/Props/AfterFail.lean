import Verif.BTree.Proofs.Spoilt
import Verif.Heap.Proofs.DropUb
import Verif.Props.Heap
/-
C63: in memory, what happens to the maps of a program when they are dropped after an insertion failed.
-/
namespace Verif.Props
open Verif Verif.Heap Verif.Spec
open Verif.BTree (Map insertsInto Spoilt)

variable {K V Q : Type} {pl : Nat → Heap.Addr}

/-- A program that ran to its end, followed by one call whose insertion fails: what is in memory then. -/
theorem failed_memory [Ord K] [Ord Q] {bor : K → Q} {ops : List (Op K V Q)} {al : Alloc} {os : List (Out K V)} {p p' : List HMap} {s s' : Heap K V}
    (hr : Op.hprog bor ops [] (Heap.start al pl) = .ok ((os, true, p), s)) {op : Op K V Q} {i : Nat} (hi : insertsInto op = some i)
    (hf : Op.hrun bor p op s = .ok ((.failed, p'), s')) :
    ∃ ms al', BTree.Op.runs bor ops [] al = .ok (os, ms, al') ∧ (∀ M ∈ ms, M.WF) ∧ p.length = ms.length ∧ (pool p ms ∗ anything) s.world ∧
      ∃ M M', ms[i]? = some M ∧ Spoilt M M' ∧ s'.Good ∧ p'.length = ms.length ∧ (pool p' (ms.set i M') ∗ anything) s'.world := by
  obtain ⟨hg, ms, al1, h1, h2, _, hw⟩ := hprog_ok hr
  obtain ⟨h3, h4⟩ := h2 rfl
  rw [h3, List.take_length] at h1
  have hlen : ∀ {q : List HMap} {ns : List (Map K V)} {R : HProp K V} {w : World K V}, (pool q ns ∗ R) w → q.length = ns.length := fun h => by
    have := Ent.frame pool_length _ _ h
    rw [sep_assoc] at this
    exact (fact_sep.1 this).1
  have hany : ∀ {q : List HMap} {ns : List (Map K V)} {R : HProp K V} {w : World K V}, (pool q ns ∗ R) w → (pool q ns ∗ anything) w := fun h =>
    Ent.sep (Ent.refl _) (fun _ _ => trivial) _ h
  refine ⟨ms, al1, h1, h4, hlen hw, hany hw, ?_⟩
  have h5 := hrun_ref (E := fun _ => True) (hs := p) bor h4 al1 op (fun _ _ => trivial) emp s hg (by rw [sep_emp]; simpa only [leak, sep_emp] using hw)
  rw [hf] at h5
  obtain ⟨h6, h7⟩ := h5
  rw [sep_emp] at h7
  obtain ⟨y, h7⟩ := h7
  obtain ⟨h8, h9⟩ := fact_sep.1 h7
  obtain ⟨M, M', g1, g2, g3⟩ := BTree.Op.run_spoilt bor h4 hi h8
  rw [g2] at h9
  exact ⟨M, M', g1, g3, h6, by have := hlen h9; simpa using this, hany h9⟩

/-- One map of a pool in memory. -/
theorem pool_one {p : List HMap} {ms : List (Map K V)} {R : HProp K V} {w : World K V} (hw : (pool p ms ∗ R) w) (hl : p.length = ms.length)
    {j : Nat} {hm : HMap} (hj : p[j]? = some hm) : ∃ M, ms[j]? = some M ∧ (rep hm M ∗ anything) w := by
  have hlt : j < ms.length := by rw [← hl]; exact (List.getElem?_eq_some_iff.1 hj).1
  obtain ⟨M, hM⟩ : ∃ M, ms[j]? = some M := ⟨_, List.getElem?_eq_getElem hlt⟩
  obtain ⟨hm1, F, e1, e2, _⟩ := pool_split hl hM
  rw [hj] at e1
  obtain rfl := Option.some.inj e1
  rw [e2, sep_assoc] at hw
  exact ⟨M, hM, Ent.sep (Ent.refl _) (fun _ _ => trivial) _ hw⟩

theorem rep_length {hm : HMap} {M : Map K V} {R : HProp K V} {w : World K V} (hw : (rep hm M ∗ R) w) : hm.length = M.length := by
  obtain ⟨w1, w2, _, _, ⟨ta, h1⟩, _⟩ := hw
  cases hs : M.shared with
  | true =>
    rw [own_shared hs] at h1
    rw [h1.1.1]
  | false =>
    rw [own_owned hs] at h1
    obtain ⟨pi, h1⟩ := h1
    rw [(fact_sep.1 h1).1.2]

/-- **C63** If an insertion into a map that is not empty fails, then dropping that map is undefined behaviour, whatever the key order and
whichever request was refused: the destructor goes past the last entry, up to the root, frees it and follows its null parent pointer.
`len()` is one higher than before. -/
theorem C63_drop_ub [Ord K] [Ord Q] {bor : K → Q} {ops : List (Op K V Q)} {al : Alloc} {os : List (Out K V)} {p p' : List HMap} {s s' : Heap K V}
    (hr : Op.hprog bor ops [] (Heap.start al pl) = .ok ((os, true, p), s)) {op : Op K V Q} {i : Nat} (hi : insertsInto op = some i)
    {m : HMap} (hm : p[i]? = some m) (hne : m.length ≠ 0) (hf : Op.hrun bor p op s = .ok ((.failed, p'), s')) :
    ∃ m', p'[i]? = some m' ∧ m'.length = m.length + 1 ∧ m'.drop s' = .ub := by
  obtain ⟨ms, al1, h1, h2, h3, h4, M, M', h5, h6, h7, h8, h9⟩ := failed_memory hr hi hf
  have hlt : i < p'.length := by rw [h8]; exact (List.getElem?_eq_some_iff.1 h5).1
  obtain ⟨m', hm'⟩ : ∃ m', p'[i]? = some m' := ⟨_, List.getElem?_eq_getElem hlt⟩
  obtain ⟨N, e1, e2⟩ := pool_one h4 h3 hm
  obtain ⟨N', e3, e4⟩ := pool_one h9 (by simpa using h8) hm'
  rw [h5] at e1
  obtain rfl := Option.some.inj e1
  rw [List.getElem?_set_self (by omega)] at e3
  obtain rfl := Option.some.inj e3
  rcases h6 with ⟨f1, _⟩ | ⟨f1, f2, f3, f4⟩
  · rw [rep_length e2] at hne; exact absurd f1 hne
  · exact ⟨m', hm', by rw [rep_length e2, rep_length e4, f3], mapDrop_ub f2 f4 _ _ h7 e4⟩

/-- **C63** The same for an owning iterator over that map: it hands out some entries, each `Some`, and there is a first call of `next` after
which the program has undefined behaviour although `len()` promises more. -/
theorem C63_into_iter_ub [Ord K] [Ord Q] {bor : K → Q} {ops : List (Op K V Q)} {al : Alloc} {os : List (Out K V)} {p p' : List HMap} {s s' : Heap K V}
    (hr : Op.hprog bor ops [] (Heap.start al pl) = .ok ((os, true, p), s)) {op : Op K V Q} {i : Nat} (hi : insertsInto op = some i)
    {m : HMap} (hm : p[i]? = some m) (hne : m.length ≠ 0) (hf : Op.hrun bor p op s = .ok ((.failed, p'), s')) :
    ∃ (m' : HMap) (l : List (K × V)), p'[i]? = some m' ∧ l.length < m'.length ∧
      (∀ n, n ≤ l.length → ∃ it s2, (m'.intoIter >>= fun it => it.asks m'.root.height (List.replicate n .front)) s' = .ok (((l.take n).map some, it), s2)) ∧
      ∀ n, l.length < n → (m'.intoIter >>= fun it => it.asks m'.root.height (List.replicate n .front)) s' = .ub := by
  obtain ⟨ms, al1, h1, h2, h3, h4, M, M', h5, h6, h7, h8, h9⟩ := failed_memory hr hi hf
  have hlt : i < p'.length := by rw [h8]; exact (List.getElem?_eq_some_iff.1 h5).1
  obtain ⟨m', hm'⟩ : ∃ m', p'[i]? = some m' := ⟨_, List.getElem?_eq_getElem hlt⟩
  obtain ⟨N, e1, e2⟩ := pool_one h4 h3 hm
  obtain ⟨N', e3, e4⟩ := pool_one h9 (by simpa using h8) hm'
  rw [h5] at e1
  obtain rfl := Option.some.inj e1
  rw [List.getElem?_set_self (by omega)] at e3
  obtain rfl := Option.some.inj e3
  rcases h6 with ⟨f1, _⟩ | ⟨f1, f2, f3, f4⟩
  · rw [rep_length e2] at hne; exact absurd f1 hne
  · refine ⟨m', M'.toList, hm', by rw [rep_length e4]; exact f4, fun n hn => ?_, fun n hn => intoIter_ub f2 f4 hn _ _ h7 e4⟩
    have := intoIter_fronts (E := fun _ => False) f2 f4 hn _ s' h7 e4
    generalize (m'.intoIter >>= fun it => it.asks m'.root.height (List.replicate n .front)) s' = x at this ⊢
    cases x with
    | ok r =>
      obtain ⟨⟨xs, it⟩, s2⟩ := r
      have h10 := this.2
      rw [sep_assoc] at h10
      have h11 := (fact_sep.1 h10).1
      dsimp only at h11
      subst h11
      exact ⟨it, s2, rfl⟩
    | ub => exact this.elim
    | panic msg => exact this.elim

/-- **C63** What is not affected: the map of a failed insertion if it was empty (it is as it was), and all the other maps; each of them can
be dropped, and exactly its entries are. -/
theorem C63_others [Ord K] [Ord Q] {bor : K → Q} {ops : List (Op K V Q)} {al : Alloc} {os : List (Out K V)} {p p' : List HMap} {s s' : Heap K V}
    (hr : Op.hprog bor ops [] (Heap.start al pl) = .ok ((os, true, p), s)) {op : Op K V Q} {i : Nat} (hi : insertsInto op = some i)
    (hf : Op.hrun bor p op s = .ok ((.failed, p'), s')) :
    ∃ ms al', BTree.Op.runs bor ops [] al = .ok (os, ms, al') ∧ p'.length = p.length ∧
      ∀ j m m', p[j]? = some m → p'[j]? = some m' → (j ≠ i ∨ m.length = 0) →
        m'.length = m.length ∧ ∃ M s2, ms[j]? = some M ∧ m'.drop s' = .ok (M.toList, s2) := by
  obtain ⟨ms, al1, h1, h2, h3, h4, M, M', h5, h6, h7, h8, h9⟩ := failed_memory hr hi hf
  refine ⟨ms, al1, h1, by omega, fun j m m' hj hj' hor => ?_⟩
  obtain ⟨N, e1, e2⟩ := pool_one h4 h3 hj
  obtain ⟨N', e3, e4⟩ := pool_one h9 (by simpa using h8) hj'
  have hN : N' = N := by
    by_cases hji : j = i
    · subst hji
      rw [h5] at e1
      obtain rfl := Option.some.inj e1
      rw [List.getElem?_set_self (List.getElem?_eq_some_iff.1 h5).1] at e3
      obtain rfl := Option.some.inj e3
      rcases h6 with ⟨_, f2⟩ | ⟨f1, _⟩
      · exact f2
      · rcases hor with hor | hor
        · exact absurd rfl hor
        · rw [rep_length e2] at hor; exact absurd hor f1
    · rw [List.getElem?_set_ne (fun h => hji h.symm), e1] at e3
      exact (Option.some.inj e3).symm
  subst hN
  refine ⟨by rw [rep_length e2, rep_length e4], ?_⟩
  have hwf := h2 N' (List.mem_of_getElem? e1)
  have hd := mapDrop_spec (E := fun _ => False) (hm := m') (M := N') (hwf.len.trans (Nat.add_zero _)) _ s' h7 e4
  cases hx : m'.drop s' with
  | ok r =>
    rw [hx] at hd
    have h10 := (fact_sep.1 hd.2).1
    exact ⟨N', r.2, e1, by rw [Map.toList, ← h10]⟩
  | ub => rw [hx] at hd; exact hd.elim
  | panic msg => rw [hx] at hd; exact hd.elim

/-- A program for which the hypotheses hold: two maps, ten numbers in each and an eleventh in the first; the allocator grants the two root
nodes and nothing more. -/
def fillTwo : List (Op Nat Nat Nat) :=
  [.new, .new] ++ (List.range 11).map (fun i => .insert 0 i i) ++ (List.range 10).map (fun i => .insert 1 i i)

/-- A twelfth number does not find room; the first map says twelve and cannot be dropped, the second can. -/
example : (match Op.hprog id fillTwo [] (Heap.Heap.start (fun n => n < 2) reuse) with
    | .ok ((_, true, p), s) => match Op.hrun id p (.insert 0 100 100 : Op Nat Nat Nat) s with
      | .ok ((.failed, [m0, m1]), s') => (p.map (·.length)) == [11, 10] && m0.length == 12 && m1.length == 10 &&
        (match m0.drop s' with
        | .ub => true
        | _ => false) &&
        (match m1.drop s' with
        | .ok (l, _) => l == (List.range 10).map fun i => (i, i)
        | _ => false)
      | _ => false
    | _ => false) = true := by decide +kernel

end Verif.Props
