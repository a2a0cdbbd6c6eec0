import Verif.Props.Conc
/-
C82: threads that clone a shared map while others read and clone it.
-/
namespace Verif.Props
open Verif Verif.Heap Verif.Spec
open Verif.BTree (Map)

variable {K V Q : Type} [Ord K] [Ord Q] {bor : K → Q} {pl : Nat → Heap.Addr}

/-- **C82** A `clone` or `try_clone` is a sequence of accesses of which none, at any point of its run, stores into a node that was there when the call began, or frees one:
whatever the order on keys, wherever new nodes are put, and whatever the allocator answers (also if the copy is given up half-way and thrown away).  None of the accesses is undefined behaviour. -/
theorem C82_spares {setup : List (Op K V Q)} {al : Alloc} {os : List (Out K V)} {sh rest : List HMap} {s : Heap.Heap K V} (hr : Op.hprog bor setup [] (Heap.start al pl) = .ok ((os, true, sh ++ rest), s))
    {op : Op K V Q} (hop : Op.copies op = true) :
    ∃ t : Prog K V (Out K V × List HMap), t.whole = Op.hrun bor sh op ∧ ∀ next al' pl', s.next ≤ next →
      t.Spares (fun a => s.cells a ≠ none) ⟨s.cells, next, al', pl'⟩ ∧ ∀ n, interleave (List.replicate n 0) [t] ⟨s.cells, next, al', pl'⟩ ≠ none := by
  refine ⟨copyP sh op, copyP_whole bor sh hop, fun next al' pl' hn => ?_⟩
  obtain ⟨ms, _, hwf, hp⟩ := hprog_alloc hr
  obtain ⟨psh, m2, rfl, hl, h1⟩ := pool_append hp
  have hg := (hprog_ok hr).1
  have hk : Known s.cells (pool sh psh) := Known.left ⟨s.cells, fun _ _ h => h, h1⟩
  have hs := copyP_look (bor := bor) (E := fun _ => True) hk (fun m hm => hwf m (by simp [hm])) hop (al := al') (fun _ _ => trivial) emp ⟨s.cells, next, al', pl'⟩
    ⟨fun x hx => hg.1 x (Nat.le_trans hn hx), hg.2.1, Nat.lt_of_lt_of_le hg.2.2 hn⟩ ⟨fun _ => none, fun _ => .inl rfl, by funext x; simp [both], by rw [sep_emp]; rfl⟩
  exact ⟨hs.spares, hs.runs⟩

/-- **C82** … so all the nodes that were there when the call began are as they were when it has ended. -/
theorem C82_unchanged {setup : List (Op K V Q)} {al : Alloc} {os : List (Out K V)} {sh rest : List HMap} {s : Heap.Heap K V} (hr : Op.hprog bor setup [] (Heap.start al pl) = .ok ((os, true, sh ++ rest), s))
    {op : Op K V Q} (hop : Op.copies op = true) {r : Out K V × List HMap} {s' : Heap.Heap K V} (h : Op.hrun bor sh op s = .ok (r, s')) : ∀ a, s.cells a ≠ none → s'.cells a = s.cells a := by
  obtain ⟨ms, _, hwf, hp⟩ := hprog_alloc hr
  obtain ⟨psh, m2, rfl, hl, h1⟩ := pool_append hp
  have hg := (hprog_ok hr).1
  have hk : Known s.cells (pool sh psh) := Known.left ⟨s.cells, fun _ _ h => h, h1⟩
  have hs := (copyP_look (bor := bor) (E := fun _ => True) hk (fun m hm => hwf m (by simp [hm])) hop (al := s.alloc) (fun _ _ => trivial) emp s
    hg ⟨fun _ => none, fun _ => .inl rfl, by funext x; simp [both], by rw [sep_emp]; rfl⟩).whole
  rw [copyP_whole bor sh hop, h] at hs
  obtain ⟨_, w, h2, h3, _⟩ := hs
  intro a ha
  rw [h3]
  unfold both
  rw [(h2 a).resolve_right ha]; rfl

section
variable [Std.TransOrd K] [Std.TransOrd Q]

theorem own_specs {lsh : List (List (K × V))} : ∀ (ops : List (Op K V Q)) (l : List (List (K × V))), Call.specs bor lsh (ops.map .own) l = Op.specs bor ops l
  | [], _ => rfl
  | op :: ops, l => by simp only [List.map_cons, Call.specs, Op.specs, own_specs ops]

/-- **C82** Threads that all look at the same shared maps, some of which begin with a `clone` of a shared map number `i` and go on with calls on their copies: however the accesses of all threads are
interleaved, with a lawful order and an allocator that refuses nothing such a thread gets exactly the answers of a map of its own that held, at the beginning, what the shared one holds. -/
theorem C82_snapshot (hbo : BorrowOK bor) {setup : List (Op K V Q)} {al : Alloc} (hal : al.Good) {os : List (Out K V)} {sh : List HMap} {jobs : List (Job K V Q)} {s : Heap.Heap K V}
    (hr : Op.hprog bor setup [] (Heap.start al pl) = .ok ((os, true, sh ++ moved jobs), s)) (hok : ∀ job ∈ jobs, ∀ c ∈ job.calls, c.Ok)
    {d : List HMap → Op K V Q → Prog K V (Out K V × List HMap)} (hd : TakesApart bor d) {lsh : List (List (K × V))} {low : List (List (List (K × V)))}
    (hl : (Op.specs bor setup []).2 = lsh ++ low.flatten) (hls : lsh.length = sh.length) (hlo : low.map List.length = jobs.map (·.maps.length))
    {js : List Nat} {ts : List (Prog K V (List (Out K V) × Bool × List HMap))} {s' : Heap.Heap K V} (h : interleave js (spawn d sh jobs) s = some (ts, s'))
    {j i : Nat} {ops : List (Op K V Q)} (hj : jobs[j]? = some ⟨.copy (.clone i) :: ops.map .own, []⟩) {l : List (K × V)} (hi : lsh[i]? = some l)
    {t : Prog K V (List (Out K V) × Bool × List HMap)} (ht : ts[j]? = some t) (he : t.Ended) :
    ∃ p, t = .done (.done :: (Op.specs bor ops [l]).1, true, p) := by
  have hlj : low[j]? = some [] := by
    have h1 : (low.map List.length)[j]? = some 0 := by rw [hlo, List.getElem?_map, hj]; rfl
    rw [List.getElem?_map] at h1
    obtain ⟨x, h2, h3⟩ := Option.map_eq_some_iff.1 h1
    rw [h2, List.eq_nil_of_length_eq_zero h3]
  obtain ⟨p, hp⟩ := C73_answers hbo hal hr hok hd hl hls hlo h hj hlj ht he
  refine ⟨p, ?_⟩
  rw [hp]
  have e : ∀ ops : List (Op K V Q), Call.specs bor lsh (.copy (.clone i) :: ops.map .own) [] = (.done :: (Op.specs bor ops [l]).1, (Op.specs bor ops [l]).2) := fun ops => by
    simp only [Call.specs, Op.spec, hi, List.drop_left, List.nil_append, own_specs]
  rw [e]

/-- **C82** … and when any number of threads have each cloned the shared map number `i`, all at the same time, the shared maps and the copies all hold what they should, are apart, and can be dropped, which
leaves nothing allocated. -/
theorem C82_contents (hbo : BorrowOK bor) {setup : List (Op K V Q)} {al : Alloc} (hal : al.Good) {os : List (Out K V)} {sh : List HMap} {n i : Nat} {s : Heap.Heap K V}
    (hr : Op.hprog bor setup [] (Heap.start al pl) = .ok ((os, true, sh), s))
    {d : List HMap → Op K V Q → Prog K V (Out K V × List HMap)} (hd : TakesApart bor d) {l : List (K × V)} (hi : (Op.specs bor setup []).2[i]? = some l)
    {js : List Nat} {rs : List (List (Out K V) × Bool × List HMap)} {s' : Heap.Heap K V} (h : interleave js (spawn d sh (List.replicate n ⟨[.copy (.clone i)], []⟩)) s = some (rs.map .done, s')) :
    ∃ s2, dropAll (sh ++ (rs.map (·.2.2)).flatten) s' = .ok ((Op.specs bor setup []).2 ++ List.replicate n l, s2) ∧ ∀ a, s2.cells a = none := by
  have hm : moved (List.replicate n (⟨[.copy (.clone i)], []⟩ : Job K V Q)) = [] := by simp [moved]
  obtain ⟨ms, h1, _, h3⟩ := hprog_alloc hr
  obtain ⟨_, _, g3⟩ := runs_good hbo setup (by simp) hal h1
  obtain ⟨hlen, _⟩ := fact_sep.1 (pool_length _ h3)
  have hls : (Op.specs bor setup []).2.length = sh.length := by
    rw [hlen, show (Op.specs bor setup []).2 = ms.map Map.toList from g3.symm, List.length_map]
  obtain ⟨s2, h4, h5⟩ := C73_contents hbo hal (sh := sh) (jobs := List.replicate n ⟨[.copy (.clone i)], []⟩) (by rw [hm, List.append_nil]; exact hr)
    (fun job hj c hc => by
      rw [(List.mem_replicate.1 hj).2] at hc
      simp only [List.mem_cons, List.not_mem_nil, or_false] at hc
      subst hc; rfl) hd (lsh := (Op.specs bor setup []).2) (low := List.replicate n []) (by simp) hls (by simp) h
  refine ⟨s2, ?_, h5⟩
  rw [h4]
  congr 3
  have e : (Call.specs bor (Op.specs bor setup []).2 [.copy (.clone i)] []).2 = [l] := by
    simp only [Call.specs, Op.spec, hi, List.drop_left, List.nil_append]
  have e2 : ∀ n : Nat, (((List.replicate n (⟨[.copy (.clone i)], []⟩ : Job K V Q)).zip (List.replicate n [])).map fun x => (Call.specs bor (Op.specs bor setup []).2 x.1.calls x.2).2).flatten = List.replicate n l := by
    intro n
    induction n with
    | zero => rfl
    | succ n ih =>
      simp only [List.replicate_succ, List.zip_cons_cons, List.map_cons, List.flatten_cons, e, ih]
      rfl
  exact e2 n

end

/-! ### a case -/

/-- A thread that clones the shared map, and goes on with its copy; another that tries to clone it and counts. -/
def copier : List (Call Nat Nat Nat) := [.copy (.clone 0), .own (.remove 0 7), .own (.insert 0 100 1), .own (.len 0), .own (.get 0 7), .shared (.get 0 7), .shared (.len 0)]
def trier : List (Call Nat Nat Nat) := [.copy (.tryClone 0 (fun k => k < 30) (fun v => some (v + 1))), .own (.get 0 5), .copy (.tryClone 0 (fun k => k < 20) some), .copy (.clone 0), .own (.len 1), .own (.append 0 1), .own (.len 0)]

def oneMap : List (Op Nat Nat Nat) := [.new, .extend 0 ((List.range 30).map fun i => (i, i * i))]

theorem oneMap_run : ∃ a s, Op.hprog id oneMap [] (Heap.start allOk reuse) = .ok (([.done, .done], true, [a]), s) := by
  have h : (match Op.hprog id oneMap [] (Heap.start allOk reuse) with
    | .ok ((os, true, [_]), _) => decide (os = [.done, .done])
    | _ => false) = true := by decide +kernel
  revert h
  cases Op.hprog id oneMap [] (Heap.start allOk reuse) with
  | ub => intro h; cases h
  | panic msg => intro h; cases h
  | ok r =>
    obtain ⟨⟨os, b, p⟩, s⟩ := r
    cases b with
    | false => intro h; cases h
    | true =>
      match p with
      | [a] => intro h; exact ⟨a, s, by rw [of_decide_eq_true h]⟩
      | [] => intro h; cases h
      | _ :: _ :: _ => intro h; cases h

def copierTold : List (Out Nat Nat) := [.done, .value (some 49), .value none, .count 30, .value none, .value (some 49), .count 30]
def trierTold : List (Out Nat Nat) := [.done, .value (some 26), .failed, .done, .count 30, .done, .count 30]

theorem copier_told : (Call.specs id squares copier []).1 = copierTold := by decide +kernel
theorem trier_told : (Call.specs id squares trier []).1 = trierTold := by decide +kernel

/-- However the two threads are interleaved, these are the answers they get. -/
example : ∃ (a : HMap) (s : Heap.Heap Nat Nat), Op.hprog id oneMap [] (Heap.start allOk reuse) = .ok (([.done, .done], true, [a]), s) ∧
    ∀ d, TakesApart id d → ∀ js, ∃ ts s', interleave js (spawn d [a] [⟨copier, []⟩, ⟨trier, []⟩]) s = some (ts, s') ∧
      (∀ t, ts[0]? = some t → t.Ended → ∃ p, t = .done (copierTold, true, p)) ∧ (∀ t, ts[1]? = some t → t.Ended → ∃ p, t = .done (trierTold, true, p)) := by
  obtain ⟨a, s, hr⟩ := oneMap_run
  have hok : ∀ job ∈ ([⟨copier, []⟩, ⟨trier, []⟩] : List (Job Nat Nat Nat)), ∀ c ∈ job.calls, c.Ok := by
    have h1 : ∀ c ∈ copier, c.Ok := by simp [copier, Call.Ok, Op.shared, Op.copies]
    have h2 : ∀ c ∈ trier, c.Ok := by simp [trier, Call.Ok, Op.copies]
    intro job hj
    simp only [List.mem_cons, List.not_mem_nil, or_false] at hj
    rcases hj with rfl | rfl
    · exact h1
    · exact h2
  refine ⟨a, s, hr, fun d hd js => ?_⟩
  cases h : interleave js (spawn d [a] [⟨copier, []⟩, ⟨trier, []⟩]) s with
  | none => exact absurd h (C73_no_ub (sh := [a]) hr hok hd js)
  | some r =>
    obtain ⟨ts, s'⟩ := r
    have key := fun {j : Nat} {job : Job Nat Nat Nat} (hj : [⟨copier, []⟩, ⟨trier, []⟩][j]? = some job) {l : List (List (Nat × Nat))} (hl : [[], []][j]? = some l)
        {t : Prog Nat Nat (List (Out Nat Nat) × Bool × List HMap)} (ht : ts[j]? = some t) (he : t.Ended) =>
      C73_answers (bor := id) (fun _ _ => rfl) (al := allOk) (fun _ => rfl) (sh := [a]) hr hok hd (lsh := squares) (low := [[], []]) (by decide +kernel) rfl rfl h hj hl ht he
    refine ⟨ts, s', rfl, fun t ht he => ?_, fun t ht he => ?_⟩
    · have := key (j := 0) rfl rfl ht he
      rwa [copier_told] at this
    · have := key (j := 1) rfl rfl ht he
      rwa [trier_told] at this

/-- Three threads clone the shared map at the same time. -/
example (a : HMap) (s : Heap.Heap Nat Nat) (hr : Op.hprog id oneMap [] (Heap.start allOk reuse) = .ok (([.done, .done], true, [a]), s)) (d) (hd : TakesApart id d) (js) (rs : List (List (Out Nat Nat) × Bool × List HMap)) (s')
    (h : interleave js (spawn d [a] (List.replicate 3 ⟨[.copy (.clone 0)], []⟩)) s = some (rs.map .done, s')) :
    ∃ s2, dropAll ([a] ++ (rs.map (·.2.2)).flatten) s' = .ok (List.replicate 4 ((List.range 30).map fun i => (i, i * i)), s2) ∧ ∀ a, s2.cells a = none := by
  have := C82_contents (bor := id) (fun _ _ => rfl) (al := allOk) (fun _ => rfl) hr hd (i := 0) (l := (List.range 30).map fun i => (i, i * i)) (by decide +kernel) h
  rwa [show (Op.specs id oneMap []).2 = [(List.range 30).map fun i => (i, i * i)] from by decide +kernel] at this

end Verif.Props
