import Verif.Heap.Proofs.Debug
import Verif.Heap.Proofs.UnwindMap
import Verif.Props.Heap
import Verif.Props.AfterFail
/-
C70: an owning iterator used at both ends and printed in between, in memory.
-/
namespace Verif.Props
open Verif Verif.Heap Verif.Spec
open Verif.BTree (Map)

variable {K V Q : Type} {pl : Nat → Heap.Addr}

/-- **C70** After any program (any key order, any allocator, insertions that failed excepted), turn every map into an owning iterator, and on each of them make any
sequence of calls of `next`, `next_back`, `len` and `{:?}`, then drop it: nothing undefined happens; the answers are those of a list from which the handed-out
pairs have been taken, `{:?}` listing exactly the pairs that are left, in order; the destructor drops exactly the pairs that are left at the end; and nothing stays
allocated. -/
theorem C70_into_iter [Ord K] [Ord Q] {bor : K → Q} {ops : List (Op K V Q)} {al : Alloc} {os : List (Out K V)} {p : List HMap} {s : Heap K V}
    (hr : Op.hprog bor ops [] (Heap.start al pl) = .ok ((os, true, p), s)) (ass : List (List OwnAct)) :
    ∃ p' al', BTree.Op.runs bor ops [] al = .ok (os, p', al') ∧
      ∃ s', useUpAll p ass s = .ok (OwnAct.specsAll (p'.map Map.toList) ass, s') ∧ ∀ a, s'.cells a = none := by
  obtain ⟨hg, p', al', h1, h2, _, hw⟩ := hprog_ok hr
  obtain ⟨h3, h4⟩ := h2 rfl
  rw [h3, List.take_length] at h1
  exact ⟨p', al', h1, all_freed (useUpAll_spec ass h4) hg (by simpa only [leak, sep_emp] using hw)⟩

/-- **C70** The same with a lawful key order: the lists are those of the sorted association lists that the program computes. -/
theorem C70_history [Ord K] [Std.TransOrd K] [Ord Q] [Std.TransOrd Q] {bor : K → Q} (hbo : BorrowOK bor) {ops : List (Op K V Q)} {al : Alloc}
    {os : List (Out K V)} {p : List HMap} {s : Heap K V} (hr : Op.hprog bor ops [] (Heap.start al pl) = .ok ((os, true, p), s)) (hf : .failed ∉ os)
    (ass : List (List OwnAct)) :
    ∃ s', useUpAll p ass s = .ok (OwnAct.specsAll (Op.specs bor ops []).2 ass, s') ∧ ∀ a, s'.cells a = none := by
  obtain ⟨p', al', h1, h2⟩ := C70_into_iter hr ass
  rcases runs_agree hbo ops [] (by simp) al with ⟨h, _⟩ | ⟨p3, a3, e1, _, e3⟩
  · exact absurd ⟨os, p', al', h1, hf⟩ h
  · rw [h1] at e1
    simp only [Exec.ok.injEq, Prod.mk.injEq, List.map_nil] at e1 e3
    obtain ⟨_, rfl, rfl⟩ := e1
    rw [← e3]
    exact h2

/-- **C70** Printing an owning iterator changes nothing at all: at every moment of its life, `{:?}` lists what is left and the memory is the same as before, byte for
byte. -/
theorem C70_only_reads [Ord K] [Ord Q] {bor : K → Q} {ops : List (Op K V Q)} {al : Alloc} {os : List (Out K V)} {p : List HMap} {s : Heap K V}
    (hr : Op.hprog bor ops [] (Heap.start al pl) = .ok ((os, true, p), s)) {i : Nat} {m : HMap} (hm : p[i]? = some m) (as : List OwnAct) :
    ∃ p' al' M, BTree.Op.runs bor ops [] al = .ok (os, p', al') ∧ p'[i]? = some M ∧
      ∃ it s', (m.intoIter >>= fun it => it.acts m.root.height as) s = .ok (((OwnAct.specs as M.toList).1, it), s') ∧
        it.debug m.root.height s' = .ok ((OwnAct.specs as M.toList).2, s') := by
  obtain ⟨hg, p', al', h1, h2, _, hw⟩ := hprog_ok hr
  obtain ⟨h3, h4⟩ := h2 rfl
  rw [h3, List.take_length] at h1
  have hl : p.length = p'.length := by
    have := Ent.frame pool_length _ _ hw
    rw [sep_assoc] at this
    exact (fact_sep.1 this).1
  obtain ⟨M, k1, k2⟩ := pool_one hw hl hm
  refine ⟨p', al', M, h1, k1, ?_⟩
  have hM := h4 M (List.mem_of_getElem? k1)
  have ht : Triple (fun _ => False) (rep m M) (m.intoIter >>= fun it => it.acts m.root.height as)
      (fun o => fact (o.1 = (OwnAct.specs as M.toList).1 ∧ m.root.height = M.height) ∗ consuming M.height o.2 (OwnAct.specs as M.toList).2) := by
    refine Triple.seq (intoIter_spec (hM.len.trans (Nat.add_zero _))) fun it => ?_
    refine Triple.getFact fun hh => ?_
    rw [hh]
    exact (acts_spec as).post fun o => Ent.fact_left fun h => Ent.fact_right ⟨h, rfl⟩ (Ent.refl _)
  obtain ⟨⟨xs, it⟩, s', d1, d2, d3⟩ := Triple.returns ht hg k2
  rw [sep_assoc] at d3
  obtain ⟨⟨d4, d5⟩, d6⟩ := fact_sep.1 d3
  dsimp only at d4 d6
  subst d4
  refine ⟨it, s', d1, ?_⟩
  obtain ⟨w₁, w₂, _, _, hc, _⟩ := id d6
  have hlen : it.length = _ := (fact_sep.1 (consuming_length _ hc)).1
  rw [d5]
  exact walk_spec (s := s') (it.length + 1) (by omega) d2 d6 (Sub.refl s')

/-- Two maps, one of them three levels deep. -/
def twoMaps : List (Op Nat Nat Nat) := [.new, .new, .extend 0 ((List.range 90).map fun i => (i, i * i)), .insert 1 7 1, .remove 0 4]

/-- Both are printed at the start, in the middle and at the end. -/
example : (match Op.hprog id twoMaps [] (Heap.Heap.start allOk reuse) with
    | .ok ((_, true, p), s) =>
      match useUpAll p [[.debug, .ask .front, .len] ++ List.replicate 60 (.ask .back) ++ List.replicate 20 (.ask .front) ++ [.debug, .ask .back, .debug, .len],
          [.ask .back, .debug, .len, .ask .front, .debug]] s with
      | .ok ([(xs, l), (ys, r)], s') =>
        xs.drop 83 == [.listed ((List.range' 22 8).map fun i => (i, i * i)), .item (some (29, 841)), .listed ((List.range' 22 7).map fun i => (i, i * i)), .count 7] &&
        l == (List.range' 22 7).map (fun i => (i, i * i)) && ys == [.item (some (7, 1)), .listed [], .count 0, .item none, .listed []] && r == [] && (tally s').2 == 0
      | _ => false
    | _ => false) = true := by decide +kernel

end Verif.Props
