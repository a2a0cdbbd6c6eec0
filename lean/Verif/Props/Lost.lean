import Verif.Heap.Proofs.Lost
import Verif.Props.GoOn
import Verif.Props.Oom
/-
C84: exactly what failed insertions lose.
-/
namespace Verif.Props
open Verif Verif.Heap Verif.Spec
open Verif.BTree (Map Loose Gone)

variable {K V Q : Type} {pl : Nat → Heap.Addr}

/-- Every allocated node is a node of exactly one of these maps. -/
def OwnedBy (s : Heap K V) (q : List HMap) : Prop :=
  ∀ a n, s.cells a = some n → ∃ i : Nat, (∃ m h, q[i]? = some m ∧ NodeOf s m h a) ∧ ∀ (j : Nat) m h, q[j]? = some m → NodeOf s m h a → j = i

theorem pool_ownedBy {q : List HMap} {ms : List (Map K V)} {al : Alloc} {s : Heap K V} (hw : (pool q ms ∗ sched al) s.world) : OwnedBy s q := by
  intro a n ha
  obtain ⟨w₁, w₂, hd, hsw, hpw, hw₂⟩ := hw
  have hpart : Part w₁ s := Part.left (w₂ := w₂) (fun x n hx => by rw [← hsw] at hx; exact hx)
  have hx : w₁.cells a = some n := by
    have h1 : s.cells a = (World.union w₁ w₂).cells a := congrFun (congrArg World.cells hsw) a
    rw [ha, show w₂ = _ from hw₂] at h1
    simpa [World.union] using h1.symm
  obtain ⟨m, hm, h, hn⟩ := pool_reach hpw hpart hx
  obtain ⟨i, hi⟩ := List.mem_iff_getElem?.1 hm
  exact ⟨i, ⟨m, h, hi, hn⟩, fun j m' h' hj hn' => pool_unique hpw hpart hj hi hn' hn⟩

/-- A computation that cannot go wrong, run on a described memory. -/
theorem triple_runs {α : Type} {P : HProp K V} {m : HM K V α} {X : α → HProp K V} {R : HProp K V} {s : Heap K V} (ht : Triple (fun _ => False) P m X)
    (hg : s.Good) (hs : (P ∗ R) s.world) : ∃ x s', m s = .ok (x, s') ∧ s'.Good ∧ (X x ∗ R) s'.world := by
  have h := ht R s hg hs
  cases hm : m s with
  | ok r => rw [hm] at h; exact ⟨r.1, r.2, rfl, h⟩
  | ub => rw [hm] at h; exact h.elim
  | panic msg => rw [hm] at h; exact h.elim

/-- C84 (the map): an insertion that fails, on a map that may already have seen failures, takes away one stretch of the entries that a success would
have left, and everything else stays: just the pair that was to be inserted, or at least five entries, that pair among them or not. -/
theorem C84_one_stretch [Ord K] [Std.TransOrd K] {m m' : Map K V} {k v a e a'} (h : BTree.ReachOom m) (hop : m.tryInsert k v a = .ok (.error e, m', a')) :
    ∃ l before lost after, Sees m l ∧ Spec.insert k v l = before ++ (lost ++ after) ∧ Sees m' (before ++ after) ∧ (lost = [(k, v)] ∨ 5 ≤ lost.length) := by
  obtain ⟨x, ho⟩ := h.ordered
  obtain ⟨g, _, P, S, h1, h2, h3⟩ := BTree.Map.insertGone_spec ho hop
  obtain ⟨x', ho'⟩ := (BTree.ReachOom.insert h hop).ordered
  refine ⟨m.toList, P, g.list, S, Sees.of ho, h1, h2 ▸ Sees.of ho', ?_⟩
  cases hh : g.half with
  | none =>
    rw [hh] at h3
    left
    simp only [Gone.list, hh, h3]
  | some r =>
    rw [hh] at h3
    right
    have := h3.1
    have := BTree.len_le_toList h3.2.2
    simp only [Gone.list, hh, List.length_cons]
    omega

/-- C84 (programs): at any point of a program that goes on after failed insertions, every allocated node belongs to exactly one of its maps or of the `xs`,
one for each call that failed: memory that no map owns any more, laid out like maps.  If the program knew of them it could drop them; after that, and after
dropping the maps that were not hit, just the maps that were hit are left in memory. -/
theorem C84_programs [Ord K] [Ord Q] {bor : K → Q} {ops : List (Op K V Q)} {al : Alloc} {os : List (Out K V)} {bad : List Nat} {p : List HMap} {s : Heap K V}
    (hr : Op.hgoOn bor ops [] [] (Heap.start al pl) = .ok ((os, bad, p), s)) :
    ∃ xs : List HMap, xs.length = os.countP isFailed ∧ OwnedBy s (p ++ xs) ∧
      ∃ lost s1, dropAll xs s = .ok (lost, s1) ∧ ∃ ls s2, dropSound bad 0 p s1 = .ok (ls, s2) ∧ OwnedBy s2 (harmedOf bad 0 p) := by
  obtain ⟨hg, ms, al', h1, h2, hw⟩ := hgoOn_ok hr
  have hl : p.length = ms.length := by
    have := Ent.frame pool_length _ _ hw
    rw [sep_assoc] at this
    exact (fact_sep.1 this).1
  rw [← sep_assoc, sep_comm] at hw
  unfold litters at hw
  rw [hex_sep] at hw
  obtain ⟨⟨xs, ns⟩, hw⟩ := hw
  rw [sep_assoc] at hw
  obtain ⟨⟨h3, h4⟩, hw⟩ := fact_sep.1 hw
  dsimp only at h3 h4 hw
  refine ⟨xs, h3, ?_, ?_⟩
  · refine pool_ownedBy (ms := ms ++ ns) (al := al') ?_
    rw [pool_both hl]
    have e : (pool xs ns ∗ pool p ms ∗ sched al') = ((pool p ms ∗ pool xs ns) ∗ sched al') := by ac_rfl
    rw [e] at hw
    exact hw
  · obtain ⟨lost, s1, g1, g2, g3⟩ := triple_runs (dropAll_len h4) hg hw
    refine ⟨lost, s1, g1, ?_⟩
    obtain ⟨ls, s2, f1, f2, f3⟩ := triple_runs (dropSound_exact (bad := bad) (n := 0) (hs := p) (p := ms)
      (fun i m hi hb => (h2.sound hi (by simpa using hb)).len.trans (Nat.add_zero _))) g2 (fact_sep.1 g3).2
    rw [sep_assoc] at f3
    exact ⟨ls, s2, f1, pool_ownedBy (fact_sep.1 f3).2⟩

/-- C84 (one call): if at such a point an insertion of (k, v) into map `i` fails (`try_insert`, `or_try_insert`, `or_try_insert_with` or `replace`), then with a lawful order: of the entries that a success would have left,
`before ++ (d :: lost) ++ after`, the map keeps `before ++ after`; `d` is dropped, and is the pair of the call if nothing else is lost; `lost` (nothing, or
at least four entries) is what the memory `x` holds, which nobody owns; and every node allocated then belongs to exactly one of the maps,
`x`, or the memory lost before. -/
theorem C84_one_call [Ord K] [Ord Q] [Std.TransOrd K] [Std.TransOrd Q] {bor : K → Q} (hbo : BorrowOK bor) {ops : List (Op K V Q)} {al : Alloc}
    {os : List (Out K V)} {bad : List Nat} {p : List HMap} {s : Heap K V}
    (hr : Op.hgoOn bor ops [] [] (Heap.start al pl) = .ok ((os, bad, p), s)) {op : Op K V Q} {i : Nat} {k : K} {v : V}
    (hop : op.inserting = some (i, k, v)) {p' : List HMap} {s' : Heap K V} (hf : Op.hrun bor p op s = .ok ((.failed, p'), s')) :
    ∃ ls l before d lost after x xs, Op.alloweds bor ops [] [] os bad ls ∧ ls[i]? = some l ∧ find? id k l = none ∧
      Spec.insert k v l = before ++ (d :: lost ++ after) ∧ (lost = [] ∧ d = (k, v) ∨ 4 ≤ lost.length) ∧
      (∀ es, ∃ p2 s2, Op.hrun bor p' (.range i .unbounded .unbounded es : Op K V Q) s' = .ok ((.items (pops es (before ++ after)).1, p2), s2)) ∧
      (∃ s2, HMap.drop x s' = .ok (lost, s2)) ∧ xs.length = os.countP isFailed ∧ OwnedBy s' (p' ++ x :: xs) := by
  replace hf := hrun_fails hop hf
  clear hop
  obtain ⟨hg, ms, al1, h1, h2, hw⟩ := hgoOn_ok hr
  obtain ⟨ho, hal⟩ := BTree.Op.goOn_allowed hbo ops (bad := []) (p := []) (Loose.ofAll (by simp)) h1
  have hw1 : ((pool p ms ∗ sched al1) ∗ litters (os.countP isFailed)) s.world := by rw [sep_assoc]; exact hw
  have hrun := hrun_loose (E := fun _ => True) bor h2 al1 (.insert i k v) rfl (fun _ _ => trivial) _ s hg hw1
  rw [hf] at hrun
  have hlev := hrun.2
  unfold PoolPost at hlev
  rw [hex_sep] at hlev
  obtain ⟨⟨ms', al'⟩, hlev⟩ := hlev
  rw [sep_assoc] at hlev
  have hop := (fact_sep.1 hlev).1
  dsimp only at hop
  obtain ⟨M, M', e, hi, hins, rfl⟩ : ∃ M M' e, ms[i]? = some M ∧ M.tryInsert k v al1 = .ok (.error e, M', al') ∧ ms' = ms.set i M' := by
    simp only [BTree.Op.run, BTree.onMap] at hop
    cases hi : ms[i]? with
    | none => rw [hi] at hop; simp at hop
    | some M =>
      rw [hi] at hop
      dsimp only at hop
      obtain ⟨⟨o, M1, a1⟩, g1, g2⟩ := Exec.bind_eq_ok.1 hop
      obtain ⟨⟨r, M2, a2⟩, g3, g4⟩ := Exec.bind_eq_ok.1 g1
      cases r with
      | ok old =>
        simp only [Exec.ok.injEq, Prod.mk.injEq] at g4 g2
        obtain ⟨rfl, _⟩ := g4
        exact absurd g2.1 (by simp)
      | error e =>
        simp only [Exec.ok.injEq, Prod.mk.injEq] at g4 g2
        obtain ⟨_, rfl, rfl⟩ := g4
        obtain ⟨_, rfl, rfl⟩ := g2
        exact ⟨M, M2, e, rfl, g3, rfl⟩
  obtain ⟨n, hoM, _⟩ := ho i M hi
  obtain ⟨g, hgone, P, S, c1, c2, c3⟩ := BTree.Map.insertGone_spec hoM hins
  have hnone : lookup id k M.toList = none ∧ ∃ n', M'.Ordered n' := by
    obtain ⟨r, m1, a1, k1, k2, _⟩ := BTree.Map.tryInsert_ordered hoM k v al1
    obtain ⟨rfl, rfl, rfl⟩ := by simpa using BTree.Exec.ok_unique hins k1
    refine ⟨k2.1, ?_⟩
    rcases k2.2.2 with ⟨rfl, _⟩ | ⟨_, x', _, g⟩
    · exact ⟨n, hoM⟩
    · exact ⟨x', g⟩
  have hpo := insert_exact (E := fun _ => True) bor (hs := p) hi hins _ s hg hw1
  rw [hf] at hpo
  obtain ⟨hg', hpo⟩ := hpo
  rw [hex_sep] at hpo
  obtain ⟨g', hpo⟩ := hpo
  rw [sep_assoc] at hpo
  obtain ⟨⟨_, hg2⟩, hpo⟩ := fact_sep.1 hpo
  rw [hgone] at hg2
  obtain rfl := Option.some.inj hg2
  dsimp only at hpo
  have hlen : p'.length = (ms.set i M').length := by
    have := Ent.frame (Ent.frame pool_length _) _ _ hpo
    rw [sep_assoc, sep_assoc] at this
    exact (fact_sep.1 this).1
  -- the half without an owner
  have hx : (hex fun x : HMap => rep x (halfMap g.half) ∗ ((pool p' (ms.set i M') ∗ sched al') ∗ litters (os.countP isFailed))) s'.world := by
    have e1 : ((pool p' (ms.set i M') ∗ sched al' ∗ leaked g.half) ∗ litters (os.countP isFailed)) =
      (leaked g.half ∗ (pool p' (ms.set i M') ∗ sched al') ∗ litters (os.countP isFailed)) := by ac_rfl
    rw [e1] at hpo
    have := Ent.frame leaked_rep _ _ hpo
    rw [hex_sep] at this
    exact this
  obtain ⟨x, hx⟩ := hx
  have hlost : (halfMap g.half).toList = (match g.half with
    | none => []
    | some r => BTree.toList r.1 r.2) := by cases g.half <;> rfl
  have hdrop : ∃ s2, HMap.drop x s' = .ok ((halfMap g.half).toList, s2) := by
    obtain ⟨y, s2, f1, _, f3⟩ := triple_runs (mapDrop_spec (hm := x) (M := halfMap g.half) halfMap_len) hg' hx
    have := (fact_sep.1 f3).1
    exact ⟨s2, by rw [f1, this]; rfl⟩
  have hfound : find? id k M.toList = none := by
    have := hnone.1
    unfold lookup at this
    simpa using this
  have hrest : ∃ xs : List HMap, xs.length = os.countP isFailed ∧ OwnedBy s' (p' ++ x :: xs) := by
    have e1 : (rep x (halfMap g.half) ∗ (pool p' (ms.set i M') ∗ sched al') ∗ litters (os.countP isFailed)) =
      (litters (os.countP isFailed) ∗ rep x (halfMap g.half) ∗ pool p' (ms.set i M') ∗ sched al') := by ac_rfl
    rw [e1] at hx
    unfold litters at hx
    rw [hex_sep] at hx
    obtain ⟨⟨xs, ns⟩, hx⟩ := hx
    rw [sep_assoc] at hx
    obtain ⟨⟨h3, h4⟩, hx⟩ := fact_sep.1 hx
    dsimp only at h3 h4 hx
    refine ⟨xs, h3, pool_ownedBy (ms := ms.set i M' ++ halfMap g.half :: ns) (al := al') ?_⟩
    rw [pool_both hlen, pool_cons]
    have e : (pool xs ns ∗ rep x (halfMap g.half) ∗ pool p' (ms.set i M') ∗ sched al') = ((pool p' (ms.set i M') ∗ rep x (halfMap g.half) ∗ pool xs ns) ∗ sched al') := by ac_rfl
    rw [e] at hx
    exact hx
  obtain ⟨xs, hxs, hown⟩ := hrest
  refine ⟨ms.map Map.toList, M.toList, P, g.pair, (halfMap g.half).toList, S, x, xs, hal, by simp [hi], hfound, ?_, ?_, ?_, hdrop, hxs, hown⟩
  · rw [c1, hlost]; rfl
  · rw [hlost]
    cases hh : g.half with
    | none => rw [hh] at c3; exact .inl ⟨rfl, c3⟩
    | some r =>
      rw [hh] at c3
      have := c3.1
      have := BTree.len_le_toList c3.2.2
      exact .inr (by dsimp only; omega)
  · intro es
    have hlt : i < ms.length := (List.getElem?_eq_some_iff.1 hi).1
    obtain ⟨n', hoM'⟩ := hnone.2
    have hlo : Loose Map.Ordered (i :: bad) (ms.set i M') := (ho.mono (bad' := i :: bad) (by simp +contextual)).set hoM' (by simp)
    have hrun2 : BTree.Op.run bor (ms.set i M') al' (.range i .unbounded .unbounded es) = .ok (.items (pops es (P ++ S)).1, ms.set i M', al') := by
      have hri : (ms.set i M')[i]? = some M' := by rw [List.getElem?_set_self hlt]
      simp only [BTree.Op.run, BTree.onMap, hri]
      have hrr : M'.rangeRun bor .unbounded .unbounded es = .ok (.items (pops es M'.toList).1) := by
        rcases BTree.Map.range_ordered hbo hoM' .unbounded .unbounded with ⟨hb, _⟩ | ⟨_, r, pre, post, h1, w⟩
        · simp [badRange] at hb
        · have hwi : within bor .unbounded .unbounded M'.toList = M'.toList := by simp [within, aboveLo, belowHi]
          rw [hwi] at w
          obtain ⟨r', g⟩ := BTree.Range.run_spec hoM'.below es w
          simp only [BTree.Map.rangeRun, h1, Exec.ok_bind, g]
      rw [hrr, c2]
      simp
    have hw2 : ((pool p' (ms.set i M') ∗ sched al') ∗ rep x (halfMap g.half) ∗ litters (os.countP isFailed)) s'.world := by
      have e1 : (rep x (halfMap g.half) ∗ (pool p' (ms.set i M') ∗ sched al') ∗ litters (os.countP isFailed)) =
        ((pool p' (ms.set i M') ∗ sched al') ∗ rep x (halfMap g.half) ∗ litters (os.countP isFailed)) := by ac_rfl
      rw [← e1]; exact hx
    obtain ⟨r, s2, f1, _, f3⟩ := triple_runs (hrun_loose (E := fun _ => False) bor hlo.shaped al' (.range i .unbounded .unbounded es) rfl
      (fun msg h => by rw [hrun2] at h; cases h)) hg' hw2
    unfold PoolPost at f3
    rw [hex_sep] at f3
    obtain ⟨y, f3⟩ := f3
    rw [sep_assoc] at f3
    have := (fact_sep.1 f3).1
    rw [hrun2] at this
    simp only [Exec.ok.injEq, Prod.mk.injEq] at this
    exact ⟨r.2, s2, by rw [f1, this.1]⟩

/-- **C84** non-vacuous, the map: the leaf is split, the new root is refused; (12, 6) is dropped, and (14, 7) to (20, 10) are lost. -/
example : (match eleven.tryInsert 1 100 one, eleven.insertGone 1 100 one with
    | .ok (.error _, m', _), some g => m'.toList == [(0, 0), (1, 100), (2, 1), (4, 2), (6, 3), (8, 4), (10, 5)] && g.pair == (12, 6) &&
        g.list == [(12, 6), (14, 7), (16, 8), (18, 9), (20, 10)]
    | _, _ => false) = true := by decide +kernel

/-- **C84** non-vacuous, one call: the allocator grants three requests, two roots and one half of the root of map 0.  `try_insert(100)` splits it and cannot
make a new root: (6, 6) is dropped, and the half with (7, 7) to (10, 10) and (100, 100) belongs to nobody: it is at the third address. -/
example : (match Op.hgoOn id fillTwo [] [] (Heap.Heap.start (fun n => n < 3) Heap.fresh) with
    | .ok ((_, bad, p), s) => bad == [] && (match Op.hrun id p (.insert 0 100 100 : Op Nat Nat Nat) s with
      | .ok ((.failed, p'), s') => p'.map (·.length) == [12, 10] &&
        (match Op.hrun id p' (.range 0 .unbounded .unbounded (List.replicate 7 .front) : Op Nat Nat Nat) s' with
        | .ok ((o, _), _) => o == .items ((List.range 6).map (fun i => some (i, i)) ++ [none])
        | _ => false) &&
        ((List.range 10).filter fun a => (s'.cells a).isSome) == [1, 2, 3] && (p'.map fun m => m.root.node) == [1, 2] &&
        (match HMap.drop (K := Nat) (V := Nat) ⟨⟨0, 3⟩, 5⟩ s' with
        | .ok (l, _) => l == [(7, 7), (8, 8), (9, 9), (10, 10), (100, 100)]
        | _ => false)
      | _ => false)
    | _ => false) = true := by decide +kernel

end Verif.Props
