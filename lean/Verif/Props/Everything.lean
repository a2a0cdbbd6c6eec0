import Verif.Heap.Proofs.Whole
import Verif.BTree.Proofs.Determined
import Verif.Props.Compare
import Verif.Props.EntryUse
import Verif.Props.Budget
/-
C86: programs that use the whole API of maps, in memory.
-/
namespace Verif.Props
open Verif Verif.Heap Verif.Spec
open Verif.BTree (Map)

variable {K V Q S : Type} {pl : Nat → Heap.Addr}

section
variable [Ord K] [Ord Q] (f : Orders K V S) (bor : K → Q)

/-- **C86** A program that does anything at all with its maps, one thing after the other, any number of times (calls, comparisons, hashing, printing, indexing, mutable iterators used in
any way, entries held and used with closures that panic) is never undefined, whatever the key order, the comparisons, the allocator and the places it gives out. -/
theorem C86_defined (acts : List (Act K V Q)) (al : Alloc) (pl : Nat → Heap.Addr) : Act.hprog f bor acts [] (Heap.start al pl) ≠ .ub := by
  intro h
  have := acts_ref (f := f) (bor := bor) (lawful := False) (refuses := False) (fun h => h.elim) acts (hs := []) (p := []) (by simp) (fun h => h.elim) (al := al) (fun h => h.elim)
    (start_good (pl := pl) al) (by simpa only [sep_emp] using start_world (pl := pl) al)
  rw [h] at this
  exact this

/-- **C86** If it comes to its end, every answer to a question about whole maps, every item, size and printed form a mutable iterator gave, and everything an entry showed, was right for
the entries that the maps had at that moment; and dropping the maps at the end hands over the entries the last step left, and leaves nothing allocated. -/
theorem C86_any_order {acts : List (Act K V Q)} {al : Alloc} {xs : List (Ans K V S)} {p : List HMap} {s : Heap K V}
    (hr : Act.hprog f bor acts [] (Heap.start al pl) = .ok ((xs, true, p), s)) :
    ∃ ls, Act.Rights f bor False False acts [] xs ls ∧ ∃ s', dropAll p s = .ok (ls, s') ∧ ∀ a, s'.cells a = none := by
  have := acts_ref (f := f) (bor := bor) (lawful := False) (refuses := False) (fun h => h.elim) acts (hs := []) (p := []) (by simp) (fun h => h.elim) (al := al) (fun h => h.elim)
    (start_good (pl := pl) al) (by simpa only [sep_emp] using start_world (pl := pl) al)
  rw [hr] at this
  obtain ⟨hg, p', al', h1, h2, _, _, h3⟩ := this
  exact ⟨_, h1, all_freed (dropAll_spec h2) hg h3⟩

/-- **C86** With a lawful key order, every answer, those of the calls included, is the one that sorted lists give; a call may answer that it found no memory, but only if some
request was refused, and then it left all maps as they were. -/
theorem C86_history [Std.TransOrd K] [Std.TransOrd Q] (hbo : BorrowOK bor) {acts : List (Act K V Q)} {al : Alloc} {xs : List (Ans K V S)} {p : List HMap} {s : Heap K V}
    (hr : Act.hprog f bor acts [] (Heap.start al pl) = .ok ((xs, true, p), s)) :
    ∃ ls, Act.Rights f bor True (¬ al.Good) acts [] xs ls ∧ ∃ s', dropAll p s = .ok (ls, s') ∧ ∀ a, s'.cells a = none := by
  have := acts_ref (f := f) (bor := bor) (lawful := True) (refuses := ¬ al.Good) (fun _ => ⟨inferInstance, inferInstance, hbo⟩) acts (hs := []) (p := []) (by simp) (fun _ => by simp)
    (al := al) (fun _ h => h) (start_good (pl := pl) al) (by simpa only [sep_emp] using start_world (pl := pl) al)
  rw [hr] at this
  obtain ⟨hg, p', al', h1, h2, _, _, h3⟩ := this
  exact ⟨_, h1, all_freed (dropAll_spec h2) hg h3⟩

/-- **C86** It stops early only where an insertion failed; all that it was answered before was right. -/
theorem C86_stops [Std.TransOrd K] [Std.TransOrd Q] (hbo : BorrowOK bor) {acts : List (Act K V Q)} {al : Alloc} {xs : List (Ans K V S)} {p : List HMap} {s : Heap K V}
    (hr : Act.hprog f bor acts [] (Heap.start al pl) = .ok ((xs, false, p), s)) :
    ¬ al.Good ∧ ∃ before a after ys x ls, acts = before ++ a :: after ∧ xs = ys ++ [x] ∧ Act.Rights f bor True (¬ al.Good) before [] ys ls ∧ a.stops x := by
  have := acts_ref (f := f) (bor := bor) (lawful := True) (refuses := ¬ al.Good) (fun _ => ⟨inferInstance, inferInstance, hbo⟩) acts (hs := []) (p := []) (by simp) (fun _ => by simp)
    (al := al) (fun _ h => h) (start_good (pl := pl) al) (by simpa only [sep_emp] using start_world (pl := pl) al)
  rw [hr] at this
  exact ⟨this.1 trivial, this.2⟩

/-- **C86** If no request for memory is refused, the program comes to its end, no call fails, no panic gets out, every answer is the one that sorted lists give, and nothing is left
allocated when the maps are dropped. -/
theorem C86_memory [Std.TransOrd K] [Std.TransOrd Q] (hbo : BorrowOK bor) (acts : List (Act K V Q)) {al : Alloc} (hal : al.Good) (pl : Nat → Heap.Addr) :
    ∃ xs p s, Act.hprog f bor acts [] (Heap.start al pl) = .ok ((xs, true, p), s) ∧
      ∃ ls, Act.Rights f bor True False acts [] xs ls ∧ ∃ s', dropAll p s = .ok (ls, s') ∧ ∀ a, s'.cells a = none := by
  have := acts_ref (f := f) (bor := bor) (lawful := True) (refuses := False) (fun _ => ⟨inferInstance, inferInstance, hbo⟩) acts (hs := []) (p := []) (by simp) (fun _ => by simp)
    (al := al) (fun _ h => h hal) (start_good (pl := pl) al) (by simpa only [sep_emp] using start_world (pl := pl) al)
  cases hr : Act.hprog f bor acts [] (Heap.start al pl) with
  | ub => rw [hr] at this; exact this.elim
  | panic msg => rw [hr] at this; exact absurd hal (this trivial)
  | ok x =>
    obtain ⟨⟨xs, b, p⟩, s⟩ := x
    rw [hr] at this
    cases b with
    | false => exact absurd hal (this.1 trivial)
    | true =>
      obtain ⟨hg, p', al', h1, h2, _, _, h3⟩ := this
      exact ⟨xs, p, s, rfl, _, h1, all_freed (dropAll_spec h2) hg h3⟩

end

/-- **C86** (about the specification) With a lawful order and no refused request, the answers and the entries at the end are determined by the program alone. -/
theorem C86_determined [Ord K] [Ord Q] (f : Orders K V S) (bor : K → Q) : ∀ (acts : List (Act K V Q)) {ls : List (List (K × V))} {xs xs' : List (Ans K V S)} {ls' ls'' : List (List (K × V))},
    Act.Rights f bor True False acts ls xs ls' → Act.Rights f bor True False acts ls xs' ls'' → xs = xs' ∧ ls' = ls''
  | [], _, _, _, _, _, ⟨h1, h2⟩, ⟨h3, h4⟩ => ⟨h1.trans h3.symm, h2.trans h4.symm⟩
  | a :: acts, ls, _, _, ls', ls'', ⟨x, xs1, ls1, rfl, h1, _, h2⟩, ⟨y, ys1, ms1, rfl, g1, _, g2⟩ => by
    obtain ⟨rfl, rfl⟩ := h1.unique g1
    obtain ⟨rfl, rfl⟩ := C86_determined f bor acts h2 g2
    exact ⟨rfl, rfl⟩

/-- **C86** (about the specification) For a program of calls only, it is what C03 says: the calls done on lists. -/
theorem C86_calls [Ord K] [Ord Q] (f : Orders K V S) (bor : K → Q) (ops : List (Op K V Q)) : ∀ {ls : List (List (K × V))} {xs : List (Ans K V S)} {ls' : List (List (K × V))},
    Act.Rights f bor True False (ops.map .op) ls xs ls' → xs = (Op.specs bor ops ls).1.map .out ∧ ls' = (Op.specs bor ops ls).2 := by
  induction ops with
  | nil => exact fun h => h
  | cons o ops ih =>
    rintro ls xs ls' ⟨x, xs1, ls1, rfl, ⟨y, rfl, h1⟩, _, h2⟩
    rcases h1 trivial with h1 | ⟨_, h1, _⟩
    · obtain ⟨e1, e2⟩ := ih h2
      simp only [Prod.ext_iff] at h1
      obtain ⟨rfl, rfl⟩ := h1
      exact ⟨by rw [e1]; rfl, by rw [e2]; rfl⟩
    · exact h1.elim

/-! ### Examples -/

/-- Two maps of two levels; questions, looks, entries and calls in turns. -/
def everyAct : List (Act Nat Nat Nat) :=
  [.op .new, .op .new, .op (.extend 0 fortyPairs), .ask (.eq 0 1), .op (.extend 1 fortyPairs.reverse), .ask (.eq 0 1),
   .iterMut 0 [.hint, .act (.take .front), .act (.write 0 (· + 100)), .hint], .ask (.eq 0 1), .ask (.cmp 0 1),
   .entry 0 20 [.get, .modify (· + 5) true] .leave, .ask (.index 0 20), .ask (.index 0 77),
   .entry 1 77 [.debug] (.orInsertWith none id), .entry 1 77 [.debug] (.orInsert 3 (· + 1)), .op (.get 1 77),
   .rangeMut 1 (.included 9) (.excluded 3) [], .rangeMut 1 (.included 30) (.excluded 33) [.debug, .act (.take .back), .act (.write 0 fun _ => 0), .debug],
   .valuesMut 1 [.act (.take .back), .act (.take .back), .hint], .op (.splitOff 1 30), .op (.append 0 2), .ask (.debug 1), .entry 9 1 [] .leave, .op (.remove 0 77), .op (.len 0)]

def ansNumber : Ans Nat Nat Nat → Nat
  | .out .done => 1
  | .out (.value none) => 2
  | .out (.value (some v)) => 1000 + v
  | .out (.count n) => 2000 + n
  | .out _ => 3
  | .told t => 3000 + toldNumber t
  | .looked xs => 5000 + xs.length
  | .used xs => 6000 + xs.length
  | .panicked => 4
  | .skipped => 5

example : (match Act.hprog numOrders id everyAct [] (Heap.Heap.start allOk reuse) with
    | .ok ((xs, true, p), s) =>
      match dropAll p s with
      | .ok (ls, s') => xs.map ansNumber == [1, 1, 1, 3000, 1, 3001, 5004, 3000, 3022, 6002, 4025, 3099, 6002, 6002, 1004, 4, 5004, 5003, 1, 1, 3030, 5, 1004, 2040] &&
          ls == [fortyPairs.map (fun x => if x.1 = 0 then (0, 100) else if x.1 = 20 then (20, 25) else if x.1 = 32 then (32, 0) else x), fortyPairs.take 30, []] && (tally s').2 == 0
      | _ => false
    | _ => false) = true := by decide +kernel

/-- One allocation is granted: a clone finds no memory, which harms nothing; the insertion that has to split the leaf fails, and the program stops. -/
def poorActs : List (Act Nat Nat Nat) :=
  .op .new :: ((List.range 11).map fun i => .op (.insert 0 i i)) ++
    [.op (.tryClone 0 (fun _ => true) some), .ask (.debug 0), .entry 0 3 [.write (· + 1)] .intoKey, .entry 0 11 [.get] (.orInsert 5 id), .op (.len 0)]

example : (match Act.hprog numOrders id poorActs [] (Heap.Heap.start (grants 1) reuse) with
    | .ok ((xs, false, _), _) => (xs.drop 12).map ansNumber == [3, 3011, 6002, 6002]
    | _ => false) = true := by decide +kernel

example : (match Act.hprog numOrders id (poorActs.take 15) [] (Heap.Heap.start (grants 1) reuse) with
    | .ok ((_, true, p), s) => (match dropAll p s with | .ok (ls, s') => ls == [(List.range 11).map fun i => (i, if i = 3 then 4 else i)] && (tally s').2 == 0 | _ => false)
    | _ => false) = true := by decide +kernel

end Verif.Props
