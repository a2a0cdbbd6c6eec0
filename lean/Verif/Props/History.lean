import Verif.BTree.Proofs.History
import Verif.Props.Demo
/-
C03: programs over any number of maps behave like the same programs over sorted association lists.
-/
namespace Verif.Props
open Verif Verif.BTree Verif.Spec

variable {K V Q : Type}

theorem runs_agree [Ord K] [Std.TransOrd K] [Ord Q] [Std.TransOrd Q] {bor : K → Q} (hbo : BorrowOK bor) (ops : List (Op K V Q))
    (p : List (Map K V)) (hp : ∀ m ∈ p, m.Valid) (a : Alloc) :
    ((¬ ∃ os p' a', Op.runs bor ops p a = .ok (os, p', a') ∧ .failed ∉ os) ∧ ¬ a.Good) ∨
    ∃ p' a', Op.runs bor ops p a = .ok ((Op.specs bor ops (p.map Map.toList)).1, p', a') ∧ (∀ m ∈ p', m.Valid) ∧
      p'.map Map.toList = (Op.specs bor ops (p.map Map.toList)).2 := by
  induction ops generalizing p a with
  | nil => exact .inr ⟨p, a, rfl, hp, rfl⟩
  | cons op ops ih =>
    rcases Op.run_agrees hbo hp a op with ⟨⟨msg, h1⟩, h2⟩ | ⟨o, p', a', h1, h2, h3⟩
    · exact .inl ⟨by simp [Op.runs, h1], h2⟩
    · rcases h3 with ⟨rfl, h4⟩ | ⟨h3, h4, h5⟩
      · refine .inl ⟨?_, h4⟩
        rintro ⟨os, p2, a2, e1, e2⟩
        simp only [Op.runs, h1, Exec.ok_bind] at e1
        obtain ⟨⟨os', p3, a3⟩, _, e4⟩ := Exec.bind_eq_ok.1 e1
        simp only [Exec.ok.injEq, Prod.mk.injEq] at e4
        exact e2 (by rw [← e4.1]; simp)
      · rcases ih p' h3 a' with ⟨g1, g2⟩ | ⟨p2, a2, g1, g2, g3⟩
        · refine .inl ⟨?_, fun hg => g2 (h2 hg)⟩
          rintro ⟨os, p2, a2, e1, e2⟩
          simp only [Op.runs, h1, Exec.ok_bind] at e1
          obtain ⟨⟨os', p3, a3⟩, e3, e4⟩ := Exec.bind_eq_ok.1 e1
          simp only [Exec.ok.injEq, Prod.mk.injEq] at e4
          exact g1 ⟨os', p3, a3, e3, fun hc => e2 (by rw [← e4.1]; simp [hc])⟩
        · rw [h5] at g1 g3
          exact .inr ⟨p2, a2, by simp [Op.runs, h1, g1, Op.specs, h4], g2, by simpa [Op.specs] using g3⟩

theorem all2_of_valid [Ord K] {p : List (Map K V)} (hp : ∀ m ∈ p, m.Valid) {s : List (List (K × V))} (hs : p.map Map.toList = s) :
    All2 (fun m l => m.toListE = .ok l ∧ m.len = l.length ∧ Sorted l) p s := by
  subst hs
  induction p with
  | nil => trivial
  | cons m p ih =>
    have hm := hp m (by simp)
    exact ⟨⟨Map.toListE_spec hm.toShaped, by simp [Map.len, hm.len], hm.sorted⟩, ih fun x hx => hp x (by simp [hx])⟩

/-- **C03** Every program (any list of API calls on any number of maps) all of whose allocations succeed runs without
undefined behaviour or panic, every call answers exactly what it answers on sorted association lists, and at the end
iterating each map yields exactly the corresponding list. -/
theorem C03_history [Ord K] [Std.TransOrd K] [Ord Q] [Std.TransOrd Q] {bor : K → Q} (hbo : BorrowOK bor) (ops : List (Op K V Q))
    {a : Alloc} (hg : a.Good) :
    ∃ p a', Op.runs bor ops [] a = .ok ((Op.specs bor ops []).1, p, a') ∧
      All2 (fun m l => m.toListE = .ok l ∧ m.len = l.length ∧ Sorted l) p (Op.specs bor ops []).2 := by
  rcases runs_agree hbo ops [] (by simp) a with ⟨_, h⟩ | ⟨p, a', h1, h2, h3⟩
  · exact absurd hg h
  · exact ⟨p, a', h1, all2_of_valid h2 h3⟩

/-- **C03** … and under an allocator that refuses some requests, every program that ran to its end without one of its
calls having returned `Err` also got exactly the answers of the lists. -/
theorem C03_history_no_error [Ord K] [Std.TransOrd K] [Ord Q] [Std.TransOrd Q] {bor : K → Q} (hbo : BorrowOK bor) (ops : List (Op K V Q))
    {a : Alloc} {os p a'} (hr : Op.runs bor ops [] a = .ok (os, p, a')) (hf : Out.failed ∉ os) :
    os = (Op.specs bor ops []).1 ∧
      All2 (fun m l => m.toListE = .ok l ∧ m.len = l.length ∧ Sorted l) p (Op.specs bor ops []).2 := by
  rcases runs_agree hbo ops [] (by simp) a with ⟨h, _⟩ | ⟨p1, a1, h1, h2, h3⟩
  · exact absurd ⟨os, p, a', hr, hf⟩ h
  · obtain ⟨rfl, rfl, rfl⟩ := by simpa using Exec.ok_unique hr h1
    exact ⟨rfl, all2_of_valid h2 h3⟩

/-- A program with three maps that splits, merges, clones, uses entries and iterates. -/
def demoProgram : List (Op Nat Nat Nat) :=
  [.new, .extend 0 ((List.range 30).map fun i => (i, i)), .splitOff 0 12, .insert 0 5 50, .remove 1 20, .clone 1, .append 0 1,
   .entryOrInsert 2 99 1 (· + 1), .entryOrInsertWith 2 99 5 (· + 1), .entryOrInsertWith 2 98 5 (· + 1), .entryRemove 2 14, .entryModify 0 7 (· * 2), .entryKey 0 1000, .entryKey 0 6, .entryInsert 0 6 66, .entryInsert 0 1000 1, .update 0 3 (· + 100), .get 0 3, .get 1 20, .len 0, .len 1, .len 2,
   .range 0 (.included 4) (.excluded 8) [.front, .back, .front, .front, .front], .range 0 (.included 9) (.included 8) [],
   .iterMut 2 [.take .back, .write 0 (· + 5)], .iterate 2 [.back, .front], .get 0 20,
   .rangeMut 0 (.excluded 3) .unbounded [.take .front, .write 0 (· + 1), .take .back, .write 1 (fun _ => 0)], .rangeMut 0 (.included 3) (.included 2) [], .get 0 4,
   .tryClone 2 (fun _ => true) (fun v => some (v + 1)), .tryClone 2 (fun k => k != 99) some, .tryClone 2 (fun _ => true) (fun v => if v = 8 then none else some v),
   .len 3, .get 3 99,
   .views 2 [.start .iter, .start (.range (.included 97) .unbounded), .ask 1 .front, .clone 0, .ask 0 .back, .ask 2 .back, .debug 1, .hint 0, .hint 2,
     .start (.range (.included 3) (.included 2)), .start (.setRange .unbounded (.excluded 14)), .debug 3, .ask 3 .front],
   .replace 0 6 0, .replace 0 1001 7, .get 0 1001, .get 0 6, .take 0 1001, .take 0 1001,
   .intoIter 0 [.front, .back, .front], .len 0]

set_option maxRecDepth 20000 in
example : (match Op.runs id demoProgram [] allOk with
    | .ok (os, _, _) => os == [.done, .done, .done, .value (some 5), .value (some 20), .done, .done, .value (some 1), .flag false, .flag true, .pair (some (14, 14)), .done, .key 1000, .key 6, .value (some 6), .value none,
        .flag true, .value (some 103), .value none, .count 29, .count 0, .count 18,
        .items [some (4, 4), some (7, 14), some (5, 50), some (6, 66), none], .panicked, .items [some (99, 3), none],
        .items [some (99, 8), some (12, 12)], .value none,
        .items [some (4, 4), none, some (29, 29), none], .panicked, .value (some 5),
        .done, .failed, .failed, .count 18, .value (some 9),
        .seen [.opened, .opened, .item (some (.pair (98, 6))), .opened, .item (some (.pair (99, 8))), .item (some (.pair (99, 8))),
          .list [.pair (99, 8)], .hint (17, some 17), .hint (17, some 17), .panicked, .opened, .list [.pair (12, 12), .pair (13, 13)], .item (some (.key 12))],
        .oldKey (some 6), .oldKey none, .value (some 7), .value (some 66), .oldKey (some 1001), .oldKey none,
        .items [some (0, 0), some (29, 0), some (1, 1)], .count 0]
    | _ => false) = true := by decide +kernel

end Verif.Props
