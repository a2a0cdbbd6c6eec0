import Verif.Heap.Proofs.CloneLedgerMap
import Verif.Heap.Proofs.CloneErase
import Verif.Heap.Proofs.UnwindMap
import Verif.Props.Budget
import Verif.Props.Heap
/-
C67: a `try_clone` (or `clone`) that fails or panics halfway.
-/
namespace Verif.Props
open Verif Verif.Heap Verif.Spec
open Verif.BTree (Map Cloner)

variable {K V Q : Type} {pl : Nat → Heap.Addr}

/-- **C67** In any program, whichever clone of a key or value fails (or panics) and whichever memory request is refused, `try_clone` and `clone`
have no undefined behaviour.  If the call does not finish, what it made are clones of the first entries of the map in order, and of the next key if it was its value that could not be cloned; every cloned
pair is dropped again exactly once; and every node in memory is what and where it was before the call, so nothing has leaked and no map has changed.
If it finishes, the copy holds exactly the clones made, one of each entry; the memory is as before but for the copy, dropping which drops exactly these. -/
theorem C67_try_clone [Ord K] [Ord Q] {bor : K → Q} {ops : List (Op K V Q)} {al : Alloc} {os : List (Out K V)} {p : List HMap} {s : Heap K V}
    (hr : Op.hprog bor ops [] (Heap.start al pl) = .ok ((os, true, p), s)) {i : Nat} {m : HMap} (hm : p[i]? = some m) (ck : Cloner K) (cv : Cloner V) :
    ∃ (before : List (List (K × V))) (l : List (K × V)), (∃ s0, dropAll p s = .ok (before, s0)) ∧ before[i]? = some l ∧
      ∃ r L s', m.tryCloneL ck cv s = .ok ((r, L), s') ∧
      (∀ e, r = .error e → s'.cells = s.cells ∧ L.dropped.Perm L.made ∧ CutShort ck cv e l L.made L.lone) ∧
      (∀ c, r = .ok c → L.lone = [] ∧ L.dropped = [] ∧ c.length = L.made.length ∧
        All2 (fun x y => (∃ a a', ck x.1 a = (.ok y.1, a')) ∧ ∃ a a', cv x.2 a = (.ok y.2, a')) l L.made ∧
        (∃ s1, c.drop s' = .ok (L.made, s1) ∧ s1.cells = s.cells) ∧
        ∃ s2, dropAll (p ++ [c]) s' = .ok (before ++ [L.made], s2) ∧ ∀ a, s2.cells a = none) := by
  obtain ⟨hg, _⟩ := hprog_ok hr
  obtain ⟨ms, h1, hwf, hp⟩ := hprog_alloc hr
  obtain ⟨ms', al', g1, s0, g2, _⟩ := C51_drop hr
  rw [h1] at g1
  simp only [Exec.ok.injEq, Prod.mk.injEq, true_and] at g1
  obtain ⟨rfl, _⟩ := g1
  have hl : p.length = ms.length := (fact_sep.1 (pool_length _ hp)).1
  have hlt : i < ms.length := by rw [← hl]; exact (List.getElem?_eq_some_iff.1 hm).1
  obtain ⟨M, hM⟩ : ∃ M, ms[i]? = some M := ⟨_, List.getElem?_eq_getElem hlt⟩
  obtain ⟨hm1, F, e1, e2, _⟩ := pool_split hl hM
  rw [hm] at e1
  obtain rfl := Option.some.inj e1
  have hMwf := hwf M (List.mem_of_getElem? hM)
  have hpl := hp
  rw [e2] at hp
  obtain ⟨w1, w2, hd, hw, hp1, hp2⟩ := hp
  obtain ⟨res, a', hx, _, _⟩ := Map.tryClone_wf ck cv hMwf s.alloc
  refine ⟨_, M.toList, ⟨s0, g2⟩, by rw [List.getElem?_map, hM]; rfl, ?_⟩
  have hfits : ((only w1 ∗ sched s.alloc) ∗ only w2) s.world := by
    have h2 : ((only w1 ∗ only w2) ∗ sched s.alloc) s.world := by
      refine ⟨⟨s.cells, none⟩, ⟨fun _ => none, some s.alloc⟩, ⟨fun _ => .inr rfl, .inl rfl⟩, by simp [World.union, Heap.world], ?_, rfl⟩
      exact ⟨w1, w2, hd, hw, rfl, rfl⟩
    rw [show ((only w1 ∗ sched s.alloc) ∗ only w2 : HProp K V) = ((only w1 ∗ only w2) ∗ sched s.alloc) by ac_rfl]
    exact h2
  obtain ⟨⟨r, L⟩, s', k1, k2, k3⟩ := Triple.returns (tryCloneL_ref (E := fun _ => False) hp1 hMwf hx) hg hfits
  refine ⟨r, L, s', k1, ?_⟩
  -- the memory `w1 ∪ w2` with a schedule
  have hcells : ∀ {t : Heap K V} {b : Alloc}, (only w1 ∗ only w2 ∗ sched b) t.world → t.cells = s.cells := by
    rintro t b h
    rw [← sep_assoc] at h
    obtain ⟨u1, u2, hu, h3, ⟨u3, u4, hu', rfl, h4, h5⟩, h6⟩ := h
    rw [show u3 = w1 from h4, show u4 = w2 from h5, ← hw, show u2 = _ from h6] at h3
    have h7 : t.cells = _ := congrArg World.cells h3
    rw [h7]
    funext x
    simp [World.union]
  cases res with
  | error e =>
    rw [tryClonePostL_error] at k3
    rw [show (sched a' ∗ fact ((r, L).1 = .error e ∧ CutShort ck cv e M.toList (r, L).2.made (r, L).2.lone ∧ (r, L).2.dropped.Perm (r, L).2.made) ∗ only w1) ∗ only w2 =
      (fact ((r, L).1 = .error e ∧ CutShort ck cv e M.toList (r, L).2.made (r, L).2.lone ∧ (r, L).2.dropped.Perm (r, L).2.made) ∗ only w1 ∗ only w2 ∗ sched a') by ac_rfl] at k3
    obtain ⟨⟨rfl, k4, k5⟩, k6⟩ := fact_sep.1 k3
    exact ⟨fun _ h => ⟨hcells k6, k5, by cases h; exact k4⟩, fun c h => by cases h⟩
  | ok C =>
    rw [tryClonePostL_ok] at k3
    simp only [sep_hex, hex_sep] at k3
    obtain ⟨hc, k3⟩ := k3
    rw [show (sched a' ∗ fact ((r, L) = (.ok hc, ⟨C.toList, [], []⟩) ∧ hc.length = C.toList.length ∧ All2 (BTree.PairClone ck cv) M.toList C.toList) ∗ rep hc C ∗ only w1) ∗ only w2 =
      (fact ((r, L) = (.ok hc, ⟨C.toList, [], []⟩) ∧ hc.length = C.toList.length ∧ All2 (BTree.PairClone ck cv) M.toList C.toList) ∗ rep hc C ∗ only w1 ∗ only w2 ∗ sched a') by ac_rfl] at k3
    obtain ⟨⟨k4, k5, k6⟩, k7⟩ := fact_sep.1 k3
    simp only [Prod.mk.injEq] at k4
    obtain ⟨rfl, rfl⟩ := k4
    refine ⟨fun _ h => (nomatch h), fun c h => ?_⟩
    obtain rfl := Except.ok.inj h
    have hCwf : C.WF := by
      obtain ⟨res, a2, hx2, hx3, _⟩ := Map.tryClone_wf ck cv hMwf s.alloc
      rw [hx2] at hx
      simp only [Exec.ok.injEq, Prod.mk.injEq] at hx
      exact (hx3 C hx.1).1
    refine ⟨rfl, rfl, k5, k6, ?_, ?_⟩
    · obtain ⟨d, s1, d1, _, d2⟩ := Triple.returns (mapDrop_spec (E := fun _ => False) (hm := hc) (M := C) (hCwf.len.trans (Nat.add_zero _))) k2 k7
      obtain ⟨rfl, d3⟩ := fact_sep.1 d2
      exact ⟨s1, d1, hcells d3⟩
    · have hpool : (pool (p ++ [hc]) (ms ++ [C]) ∗ sched a') s'.world := by
        rw [pool_snoc hl, e2]
        have : Ent (rep hc C ∗ only w1 ∗ only w2 ∗ sched a') ((rep hc C ∗ rep m M ∗ F) ∗ sched a') := by
          have i1 : Ent (only w1) (rep m M) := fun w h => by rw [show w = w1 from h]; exact hp1
          have i2 : Ent (only w2) F := fun w h => by rw [show w = w2 from h]; exact hp2
          refine Ent.trans (Ent.sep (Ent.refl _) (Ent.sep i1 (Ent.sep i2 (Ent.refl _)))) ?_
          ent_ac
        exact this _ k7
      have hall : ∀ x ∈ ms ++ [C], x.WF := fun x hx => by
        rcases List.mem_append.1 hx with hx | hx
        · exact hwf x hx
        · rw [List.mem_singleton.1 hx]; exact hCwf
      obtain ⟨s2, f1, f2⟩ := all_freed (dropAll_spec hall) k2 hpool
      refine ⟨s2, ?_, f2⟩
      rw [f1, List.map_append]
      rfl

/-- The ledger only records: without it this is `try_clone`. -/
theorem C67_ledger (m : HMap) (ck : Cloner K) (cv : Cloner V) : (do let r ← m.tryCloneL ck cv; pure r.1 : HM K V (Res HMap)) = m.tryClone ck cv :=
  tryCloneL_fm m ck cv

/-- Clones of numbers that are marked by adding 100, and fail at `bad`. -/
def marked (bad : Nat) : Cloner Nat := fun k a => if k = bad then (.error .capacityOverflow, a) else (.ok (k + 100), a)

/-- A map of forty numbers. -/
def forty : List (Op Nat Nat Nat) := .new :: (List.range 40).map fun i => .insert 0 i i

/-- What a `try_clone` of it makes and drops, and whether the memory is as before: the clone of the value at 23 fails (the clone of its key is the lone one);
none fails; and memory is refused after 3 nodes. -/
example : (match Op.hprog id forty [] (Heap.Heap.start allOk fresh) with
    | .ok ((_, true, [m]), s) =>
      (match m.tryCloneL (marked 99) (marked 23) s with
        | .ok ((.error .capacityOverflow, L), s') =>
          L.made == (List.range 23).map (fun i => (i + 100, i + 100)) && L.lone == [123] && L.dropped.length == 23 && tally s == (7, 7) && tally s' == (12, 7)
        | _ => false) &&
      (match m.tryCloneL (marked 99) (marked 99) s with
        | .ok ((.ok c, L), _) => L.made == (List.range 40).map (fun i => (i + 100, i + 100)) && L.dropped == [] && c.length == 40
        | _ => false) &&
      (match m.tryCloneL (marked 99) (marked 99) { s with alloc := grants 3 } with
        | .ok ((.error .allocError, L), s') => L.made == (List.range 14).map (fun i => (i + 100, i + 100)) && L.lone == [] && L.dropped.length == 14 && tally s' == (10, 7)
        | _ => false)
    | _ => false) = true := by decide +kernel

end Verif.Props
