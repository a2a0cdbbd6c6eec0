import Verif.Heap.Proofs.Readers
import Verif.Props.Compare
import Verif.Props.SetAlg
/-
C80: threads that compare, hash, print, index and do set algebra on shared maps and sets.
-/
namespace Verif.Props
open Verif Verif.Heap Verif.Spec
open Verif.BTree (Map BSet)

variable {K V Q S T α : Type} {pl : Nat → Heap.Addr}

theorem le_sum : ∀ {l : List Nat} {n : Nat}, n ∈ l → n ≤ l.sum
  | x :: l, n, h => by
    simp only [List.sum_cons]
    rcases List.mem_cons.1 h with rfl | h
    · omega
    · have := le_sum h; omega

/-- **C80** Threads that only look at the memory (`t.OnlyReads`) and whose accesses, in a row, are no undefined behaviour: in any interleaving of the single accesses
nothing is undefined, and the memory never changes; a thread that has come to its end has the result that it has alone, so has one that was unwound; and there is a number of turns
after which every thread that has had that many has ended, whatever the others did. -/
theorem C80_readers {ts : List (Prog K V α)} {s : Heap K V} (h : ∀ t ∈ ts, t.OnlyReads ∧ t.whole s ≠ .ub) :
    (∀ js, ∃ ts', interleave js ts s = some (ts', s) ∧ ∀ (j : Nat) (t t' : Prog K V α), ts[j]? = some t → ts'[j]? = some t' →
      (∀ a, t' = .done a → t.whole s = .ok (a, s)) ∧ (∀ msg, t' = .panic msg → t.whole s = .panic msg)) ∧
    ∃ n, ∀ js ts', interleave js ts s = some (ts', s) → ∀ (j : Nat) (t' : Prog K V α), ts'[j]? = some t' → n ≤ js.count j → t'.Ended := by
  refine ⟨fun js => ?_, (ts.map (Prog.left s)).sum, fun js ts' hi j t' hj hn => ?_⟩
  · obtain ⟨ts', h1, _, h3⟩ := readers_run js h
    refine ⟨ts', h1, fun j t t' ht ht' => ?_⟩
    obtain ⟨u, g1, g2, g3, _⟩ := h3 j t ht
    rw [ht'] at g1
    obtain rfl := Option.some.inj g1
    exact ⟨by rintro a rfl; exact g3.symm, by rintro msg rfl; exact g3.symm⟩
  · obtain ⟨ts2, h1, h2, h3⟩ := readers_run js h
    rw [hi] at h1
    simp only [Option.some.injEq, Prod.mk.injEq, and_true] at h1
    subst h1
    have hlt : j < ts.length := by rw [← h2]; exact (List.getElem?_eq_some_iff.1 hj).1
    obtain ⟨u, g1, g2, g3, g4⟩ := h3 j ts[j] (List.getElem?_eq_getElem hlt)
    rw [hj] at g1
    obtain rfl := Option.some.inj g1
    have hmem : ts[j] ∈ ts := List.getElem_mem hlt
    refine g2.ended (by rw [g3]; exact (h _ hmem).2) ?_
    have : ts[j].left s ≤ (ts.map (Prog.left s)).sum := le_sum (List.mem_map_of_mem hmem)
    omega

/-- Thread number `j` does the work of `fs[j]`, in single accesses that only look. -/
def Looks (fs : List (HM K V α)) (ts : List (Prog K V α)) : Prop := All2 (fun f t => t.whole = f ∧ t.OnlyReads) fs ts

theorem looks_exist (fs : List (HM K V α)) (h : ∀ f ∈ fs, Steps true f) : ∃ ts, Looks fs ts := by
  induction fs with
  | nil => exact ⟨[], trivial⟩
  | cons f fs ih =>
    obtain ⟨ts, hts⟩ := ih fun g hg => h g (List.mem_cons_of_mem _ hg)
    obtain ⟨t, h1, h2⟩ := (h f (List.mem_cons_self ..)).ex
    exact ⟨t :: ts, ⟨h1, h2 rfl⟩, hts⟩

theorem looks_get {fs : List (HM K V α)} {ts : List (Prog K V α)} (h : Looks fs ts) {j : Nat} {t : Prog K V α} (ht : ts[j]? = some t) : ∃ f, fs[j]? = some f ∧ t.whole = f ∧ t.OnlyReads := by
  induction fs generalizing ts j with
  | nil => cases ts with
    | nil => cases ht
    | cons => exact h.elim
  | cons f fs ih =>
    cases ts with
    | nil => exact h.elim
    | cons u ts =>
      cases j with
      | zero => obtain rfl := Option.some.inj ht; exact ⟨f, rfl, h.1⟩
      | succ j => exact ih h.2 ht

theorem looks_get' {fs : List (HM K V α)} {ts : List (Prog K V α)} (h : Looks fs ts) {j : Nat} {f : HM K V α} (hf : fs[j]? = some f) : ∃ t, ts[j]? = some t := by
  induction fs generalizing ts j with
  | nil => cases hf
  | cons g fs ih =>
    cases ts with
    | nil => exact h.elim
    | cons u ts =>
      cases j with
      | zero => exact ⟨u, rfl⟩
      | succ j => exact ih h.2 hf

/-- Threads whose work, alone, gives `R`: in any interleaving, too. -/
theorem looks_run {β : Type} {jobs : List β} {work : β → HM K V α} {ts : List (Prog K V α)} (hl : Looks (jobs.map work) ts) {s : Heap K V} {R : β → α → Prop}
    (hw : ∀ b ∈ jobs, ∃ a, work b s = .ok (a, s) ∧ R b a) :
    (∀ js, ∃ ts', interleave js ts s = some (ts', s) ∧ ts'.length = jobs.length ∧
      ∀ (j : Nat) (b : β) (t : Prog K V α), jobs[j]? = some b → ts'[j]? = some t → (∀ msg, t ≠ .panic msg) ∧ ∀ a, t = .done a → R b a) ∧
    ∃ n, ∀ js ts', interleave js ts s = some (ts', s) → ∀ (j : Nat) (b : β), jobs[j]? = some b → n ≤ js.count j → ∃ a, ts'[j]? = some (.done a) ∧ R b a := by
  have hwork : ∀ {j : Nat} {t : Prog K V α}, ts[j]? = some t → ∃ b, jobs[j]? = some b ∧ t.whole = work b ∧ t.OnlyReads := fun ht => by
    obtain ⟨f, h1, h2, h3⟩ := looks_get hl ht
    rw [List.getElem?_map] at h1
    obtain ⟨b, h4, rfl⟩ := Option.map_eq_some_iff.1 h1
    exact ⟨b, h4, h2, h3⟩
  have hall : ∀ t ∈ ts, t.OnlyReads ∧ t.whole s ≠ .ub := fun t ht => by
    obtain ⟨j, hj⟩ := List.mem_iff_getElem?.1 ht
    obtain ⟨b, h1, h2, h3⟩ := hwork hj
    obtain ⟨a, h4, _⟩ := hw b (List.mem_of_getElem? h1)
    exact ⟨h3, by rw [h2, h4]; simp⟩
  have hlen : ts.length = jobs.length := by
    have := All2.length hl
    simpa using this.symm
  obtain ⟨h1, n, h2⟩ := C80_readers hall
  have key : ∀ {js ts'}, interleave js ts s = some (ts', s) → ts'.length = jobs.length ∧ ∀ (j : Nat) (b : β) (t : Prog K V α), jobs[j]? = some b → ts'[j]? = some t →
      (∀ msg, t ≠ .panic msg) ∧ ∀ a, t = .done a → R b a := fun {js ts'} hi => by
    obtain ⟨ts2, e1, e2, _⟩ := readers_run js hall
    rw [hi] at e1
    simp only [Option.some.injEq, Prod.mk.injEq, and_true] at e1
    subst e1
    refine ⟨by rw [e2, hlen], fun j b t hb ht => ?_⟩
    obtain ⟨ts3, e3, e4⟩ := h1 js
    rw [hi] at e3
    simp only [Option.some.injEq, Prod.mk.injEq, and_true] at e3
    subst e3
    obtain ⟨u, hu⟩ := looks_get' (j := j) hl (by rw [List.getElem?_map, hb]; rfl)
    obtain ⟨b', g1, g2, _⟩ := hwork hu
    rw [hb] at g1
    obtain rfl := Option.some.inj g1
    obtain ⟨a, g3, g4⟩ := hw b (List.mem_of_getElem? hb)
    obtain ⟨k1, k2⟩ := e4 j u t hu ht
    rw [g2, g3] at k1 k2
    refine ⟨fun msg hm => (by have := k2 msg hm; cases this), fun a' ha => ?_⟩
    have := k1 a' ha
    simp only [Exec.ok.injEq, Prod.mk.injEq, and_true] at this
    rw [← this]; exact g4
  refine ⟨fun js => ?_, n, fun js ts' hi j b hb hn => ?_⟩
  · obtain ⟨ts', hi, _⟩ := h1 js
    exact ⟨ts', hi, key hi⟩
  · obtain ⟨k1, k2⟩ := key hi
    have hlt : j < ts'.length := by rw [k1]; exact (List.getElem?_eq_some_iff.1 hb).1
    have hj := List.getElem?_eq_getElem hlt
    have he := h2 js ts' hi j _ hj hn
    obtain ⟨k3, k4⟩ := k2 j b _ hb hj
    generalize ts'[j] = t at hj he k3 k4
    cases t with
    | done a => exact ⟨a, hj, k4 a rfl⟩
    | panic msg => exact absurd rfl (k3 msg)
    | ub => exact he.elim
    | read a k => exact he.elim
    | write a n k => exact he.elim
    | alloc lay k => exact he.elim
    | free a lay k => exact he.elim

/-- **C80** After any program over maps without a failed allocation, and with a lawful key order, any number of threads ask questions (`==`, `partial_cmp`, `cmp`, `hash`,
`{:?}`, indexing) about the same maps at the same time; each thread has its list of questions.  Their work can be done in single accesses that only look (`Looks`), and
however it is, and however the accesses are interleaved: the memory never changes, there is no undefined behaviour, no thread is unwound, every thread that has come to its
end got the right answers, and every thread comes to its end after a fixed number of turns. -/
theorem C80_maps [Ord K] [Std.TransOrd K] [Ord Q] [Std.TransOrd Q] {bor : K → Q} (hbo : BorrowOK bor) {ops : List (Op K V Q)} {al : Alloc} {os : List (Out K V)}
    {p : List HMap} {s : Heap K V} (hr : Op.hprog bor ops [] (Heap.start al pl) = .ok ((os, true, p), s)) (hf : .failed ∉ os) (f : Orders K V S) (jobs : List (List (Ask Q))) :
    (∃ ts, Looks (jobs.map (Ask.hruns f bor p)) ts) ∧ ∀ ts, Looks (jobs.map (Ask.hruns f bor p)) ts →
      (∀ js, ∃ ts', interleave js ts s = some (ts', s) ∧ ts'.length = jobs.length ∧ ∀ (j : Nat) (asks : List (Ask Q)) (t : Prog K V (List (Told K V S))), jobs[j]? = some asks → ts'[j]? = some t →
        (∀ msg, t ≠ .panic msg) ∧ ∀ xs, t = .done xs → All2 (fun a x => a.Right f bor True (Op.specs bor ops []).2 x) asks xs) ∧
      ∃ n, ∀ js ts', interleave js ts s = some (ts', s) → ∀ j asks, jobs[j]? = some asks → n ≤ js.count j →
        ∃ xs, ts'[j]? = some (.done xs) ∧ All2 (fun a x => a.Right f bor True (Op.specs bor ops []).2 x) asks xs := by
  refine ⟨looks_exist _ fun g hg => ?_, fun ts hl => looks_run hl fun asks _ => C79_history hbo hr hf f asks⟩
  obtain ⟨asks, _, rfl⟩ := List.mem_map.1 hg
  infer_instance

/-- One question about the sets of a pool. -/
theorem setAsk_right [Ord T] [Std.TransOrd T] [Ord Q] [Std.TransOrd Q] {bor : T → Q} (hbo : BorrowOK bor) {ops : List (Op T Unit Q)} {al : Alloc} {os : List (Out T Unit)}
    {p : List HMap} {s : Heap T Unit} (hr : Op.hprog bor ops [] (Heap.start al pl) = .ok ((os, true, p), s)) (hf : .failed ∉ os) (a : SetAsk) :
    ∃ t, SetAsk.hrun p a s = .ok (t, s) ∧ a.Right ((Op.specs bor ops []).2.map (List.map Prod.fst)) t := by
  have hlen : (Op.specs bor ops []).2.length = p.length := by
    obtain ⟨_, p', al', hl, _, he, _⟩ := hprog_specs hbo hr hf
    rw [← he, hl, List.length_map]
  have none_of : ∀ {i : Nat}, p[i]? = none → ((Op.specs bor ops []).2.map (List.map Prod.fst))[i]? = none := fun h => by
    rw [List.getElem?_eq_none_iff] at h ⊢
    simpa [hlen] using h
  have getl : ∀ {i : Nat} {l : List (T × Unit)}, (Op.specs bor ops []).2[i]? = some l → ((Op.specs bor ops []).2.map (List.map Prod.fst))[i]? = some (l.map Prod.fst) := fun h => by
    rw [List.getElem?_map, h]; rfl
  cases a with
  | algebra i j acts =>
    simp only [SetAsk.hrun, SetAsk.Right]
    cases hi : p[i]? with
    | none => rw [none_of hi]; exact ⟨_, rfl, by cases p[j]? <;> rfl⟩
    | some m =>
      cases hj : p[j]? with
      | none => rw [none_of hj]; exact ⟨_, rfl, by split <;> simp_all⟩
      | some n =>
        obtain ⟨l, r, e1, e2, outs, o1, o2, o3, o4, h1, _⟩ := C78_history hbo hr hf hi hj
        obtain ⟨xs, g1, g2⟩ := h1 acts
        rw [getl e1, getl e2]
        refine ⟨.seen xs, by simp only [bind_run, g1]; rfl, outs, xs, fun k => ?_, rfl, g2⟩
        cases k with
        | difference => exact o1
        | symmetricDifference => exact o2
        | intersection => simpa [AlgKind.Out] using o3
        | union => exact o4
  | subset i j =>
    simp only [SetAsk.hrun, SetAsk.Right]
    cases hi : p[i]? with
    | none => rw [none_of hi]; exact ⟨_, rfl, by cases p[j]? <;> rfl⟩
    | some m =>
      cases hj : p[j]? with
      | none => rw [none_of hj]; exact ⟨_, rfl, by split <;> simp_all⟩
      | some n =>
        obtain ⟨l, r, e1, e2, outs, _, _, _, _, _, ⟨b, g1, g2⟩, _⟩ := C78_history hbo hr hf hi hj
        rw [getl e1, getl e2]
        exact ⟨.bool b, by simp only [bind_run, g1]; rfl, b, rfl, g2⟩
  | superset i j =>
    simp only [SetAsk.hrun, SetAsk.Right]
    cases hi : p[i]? with
    | none => rw [none_of hi]; exact ⟨_, rfl, by cases p[j]? <;> rfl⟩
    | some m =>
      cases hj : p[j]? with
      | none => rw [none_of hj]; exact ⟨_, rfl, by split <;> simp_all⟩
      | some n =>
        obtain ⟨l, r, e1, e2, outs, _, _, _, _, _, _, ⟨b, g1, g2⟩, _⟩ := C78_history hbo hr hf hi hj
        rw [getl e1, getl e2]
        exact ⟨.bool b, by simp only [bind_run, g1]; rfl, b, rfl, g2⟩
  | disjoint i j =>
    simp only [SetAsk.hrun, SetAsk.Right]
    cases hi : p[i]? with
    | none => rw [none_of hi]; exact ⟨_, rfl, by cases p[j]? <;> rfl⟩
    | some m =>
      cases hj : p[j]? with
      | none => rw [none_of hj]; exact ⟨_, rfl, by split <;> simp_all⟩
      | some n =>
        obtain ⟨l, r, e1, e2, outs, _, _, _, _, _, _, _, ⟨b, g1, g2⟩, _⟩ := C78_history hbo hr hf hi hj
        rw [getl e1, getl e2]
        exact ⟨.bool b, by simp only [bind_run, g1]; rfl, b, rfl, g2⟩
  | debug i =>
    simp only [SetAsk.hrun, SetAsk.Right]
    cases hi : p[i]? with
    | none => rw [none_of hi]; exact ⟨_, rfl, rfl⟩
    | some m =>
      obtain ⟨l, r, e1, e2, outs, _, _, _, _, _, _, _, _, g, _⟩ := C78_history hbo hr hf hi hi
      rw [getl e1]
      exact ⟨.elements (l.map Prod.fst), by simp only [bind_run, g]; rfl, rfl⟩

theorem setAsks_right [Ord T] [Std.TransOrd T] [Ord Q] [Std.TransOrd Q] {bor : T → Q} (hbo : BorrowOK bor) {ops : List (Op T Unit Q)} {al : Alloc} {os : List (Out T Unit)}
    {p : List HMap} {s : Heap T Unit} (hr : Op.hprog bor ops [] (Heap.start al pl) = .ok ((os, true, p), s)) (hf : .failed ∉ os) :
    ∀ as : List SetAsk, ∃ ts, SetAsk.hruns p as s = .ok (ts, s) ∧ All2 (fun a t => a.Right ((Op.specs bor ops []).2.map (List.map Prod.fst)) t) as ts
  | [] => ⟨[], rfl, trivial⟩
  | a :: as => by
    obtain ⟨t, h1, h2⟩ := setAsk_right hbo hr hf a
    obtain ⟨ts, h3, h4⟩ := setAsks_right hbo hr hf as
    refine ⟨t :: ts, ?_, h2, h4⟩
    simp only [SetAsk.hruns, bind_run, h1, h3]
    rfl

/-- **C80** The same for sets: threads that walk through set-algebra iterators over the same sets, clone and print them, and ask `is_subset`, `is_superset`, `is_disjoint`. -/
theorem C80_sets [Ord T] [Std.TransOrd T] [Ord Q] [Std.TransOrd Q] {bor : T → Q} (hbo : BorrowOK bor) {ops : List (Op T Unit Q)} {al : Alloc} {os : List (Out T Unit)}
    {p : List HMap} {s : Heap T Unit} (hr : Op.hprog bor ops [] (Heap.start al pl) = .ok ((os, true, p), s)) (hf : .failed ∉ os) (jobs : List (List SetAsk)) :
    (∃ ts, Looks (jobs.map (SetAsk.hruns p : List SetAsk → HM T Unit (List (SetTold T)))) ts) ∧
    ∀ ts, Looks (jobs.map (SetAsk.hruns p : List SetAsk → HM T Unit (List (SetTold T)))) ts →
      (∀ js, ∃ ts', interleave js ts s = some (ts', s) ∧ ts'.length = jobs.length ∧ ∀ (j : Nat) (asks : List SetAsk) (t : Prog T Unit (List (SetTold T))), jobs[j]? = some asks → ts'[j]? = some t →
        (∀ msg, t ≠ .panic msg) ∧ ∀ xs, t = .done xs → All2 (fun a x => a.Right ((Op.specs bor ops []).2.map (List.map Prod.fst)) x) asks xs) ∧
      ∃ n, ∀ js ts', interleave js ts s = some (ts', s) → ∀ j asks, jobs[j]? = some asks → n ≤ js.count j →
        ∃ xs, ts'[j]? = some (.done xs) ∧ All2 (fun a x => a.Right ((Op.specs bor ops []).2.map (List.map Prod.fst)) x) asks xs := by
  refine ⟨looks_exist _ fun g hg => ?_, fun ts hl => looks_run hl fun asks _ => setAsks_right hbo hr hf asks⟩
  obtain ⟨asks, _, rfl⟩ := List.mem_map.1 hg
  infer_instance

/-! ### the hypotheses are met -/

/-- The program of `Verif/Props/SetAlg.lean` runs to its end without a failed allocation; two threads on its sets. -/
example : (match Op.hprog id algProgram [] (Heap.Heap.start allOk reuse) with
  | .ok ((os, b, p), s) => b && !os.contains .failed && p.length == 4 &&
    (match SetAsk.hruns p [.algebra 0 1 [.start .union, .next 0, .next 0, .debug 0], .subset 3 0] s, SetAsk.hruns p [.disjoint 0 1, .debug 1, .superset 0 3, .subset 0 7] s with
    | .ok (xs, _), .ok (ys, _) =>
      xs == [.seen [.opened, .item (some 1), .item (some 3), .printed [.peekable [4, 9, 10, 11, 70] none, .peekable [10, 80] (some (some 4))]], .bool true] &&
      ys == [.bool false, .elements [1, 4, 10, 80], .bool true, .skipped]
    | _, _ => false)
  | _ => false) = true := by decide +kernel

/-- So does the one of `Verif/Props/Compare.lean`. -/
example : (match Op.hprog id cmpProgram [] (Heap.Heap.start allOk reuse) with
  | .ok ((os, b, p), _) => b && !os.contains .failed && p.length == 4
  | _ => false) = true := by decide +kernel

/-- Three threads that look at the nodes of one of these maps, interleaved. -/
example : (match Op.hprog id cmpProgram [] (Heap.Heap.start allOk reuse) with
  | .ok ((_, true, m :: _), s) =>
    let t : Prog Nat Nat Nat := .read m.root.node fun n => .read m.root.node fun n' => .done (n.len + n'.len)
    match interleave [0, 1, 1, 2, 0, 7, 1] [t, t, t] s with
    | some ([.done a, .done b, .read _ _], _) => a == 10 && b == 10
    | _ => false
  | _ => false) = true := by decide +kernel

end Verif.Props
