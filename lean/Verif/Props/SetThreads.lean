import Verif.Heap.Proofs.SetThreads
import Verif.Props.ThreadsWhole
/-
C89: threads that use the whole API of sets.
-/
namespace Verif.Props
open Verif Verif.Heap Verif.Spec
open Verif.BTree (Map)

variable {T Q S : Type} {pl : Nat → Heap.Addr}

section
variable [Ord T] [Ord Q] {f : Orders T Unit S} {bor : T → Q} {setup : List (SetAct T Q)} {al : Alloc} {xs : List (SetAns T S)} {sh : List HMap} {tasks : List (Worker (SetAct T Q))}
  {s : Heap T Unit} {d : List HMap → SetAct T Q → Prog T Unit (SetAns T S × List HMap)}

/-- No thread uses an operator, or no request for memory is refused any more. -/
def Roomy (s : Heap T Unit) (tasks : List (Worker (SetAct T Q))) : Prop := s.alloc.Good ∨ ∀ t ∈ tasks, ∀ c ∈ t.turns, c.act.operates = false

/-- After the first part of the program, the threads can be started. -/
theorem set_ready {lawful refuses : Prop} (href : lawful → ¬ al.Good → refuses) (hlaw : lawful → Lawful (K := T) bor)
    (hr : SetAct.hprog f bor setup [] (Heap.start al pl) = .ok ((xs, true, sh ++ given tasks), s)) (hok : ∀ t ∈ tasks, ∀ c ∈ t.turns, c.Ok SetAct.looks SetAct.makes) (hm : Roomy s tasks) :
    ∃ ms : List (Map T Unit), SetAct.Rights f bor lawful refuses setup [] xs (ms.map Map.toList) ∧
      Ready lawful s.alloc.Good (setApi f bor) (fun a => a.operates = true → s.alloc.Good) s sh tasks ms := by
  have := setActs_ref (f := f) (bor := bor) (lawful := lawful) (refuses := refuses) hlaw setup (hs := []) (p := []) (by simp) (fun _ => by simp) (al := al) href
    (start_good (pl := pl) al) (by simpa only [sep_emp] using start_world (pl := pl) al)
  rw [hr] at this
  obtain ⟨hg, p', al', h1, h2, h3, h5, h4⟩ := this
  refine ⟨p', h1, hg, id, h2, h3, sched_off h4, fun t ht c hc => ⟨hok t ht c hc, fun ho => ?_⟩⟩
  rcases hm with hm | hm
  · exact hm
  · rw [hm t ht c hc] at ho; cases ho

/-- With a lawful order, the allocator is then as good as it was. -/
theorem set_start_good (hlaw : Lawful (K := T) bor) (hal : al.Good) {p : List HMap} (hr : SetAct.hprog f bor setup [] (Heap.start al pl) = .ok ((xs, true, p), s)) : s.alloc.Good := by
  have := setActs_ref (f := f) (bor := bor) (lawful := True) (refuses := True) (fun _ => hlaw) setup (hs := []) (p := []) (by simp) (fun _ => by simp) (al := al) (fun _ _ => trivial)
    (start_good (pl := pl) al) (by simpa only [sep_emp] using start_world (pl := pl) al)
  rw [hr] at this
  obtain ⟨_, p', al', _, _, _, h5, h4⟩ := this
  rw [sched_here h4]
  exact h5 trivial hal

theorem set_obeys_any {mem : Prop} : Obeys False mem (SetAct.Right f bor False ¬mem) SetAct.stops (setApi (Q := Q) f bor) (fun a => a.operates = true → mem) := set_obeys fun h => h.elim

/-- **C89** Threads that each have their own sets, with which they do anything at all, and that all look at some shared ones (lookups, iteration, set-algebra iterators, `is_subset`,
`is_disjoint`, comparisons, printing), clone them, and make new sets out of them and their own with `-`, `^`, `&` and `|`, take turns at every single access to a node, in any order:
whatever the order on elements and the comparisons, and whatever the allocator unless there are operators, no access is ever undefined behaviour. -/
theorem C89_no_ub (hr : SetAct.hprog f bor setup [] (Heap.start al pl) = .ok ((xs, true, sh ++ given tasks), s)) (hok : ∀ t ∈ tasks, ∀ c ∈ t.turns, c.Ok SetAct.looks SetAct.makes)
    (hm : Roomy s tasks) (hd : (setApi f bor).TakesApart d) (js : List Nat) : interleave js ((setApi f bor).spawn d sh tasks) s ≠ none := by
  obtain ⟨ms, _, h⟩ := set_ready (lawful := False) (refuses := True) (fun _ _ => trivial) False.elim hr hok hm
  exact tasks_no_ub hd set_obeys_any h js

/-- **C89** … there is never a data race: when the next access of one thread stores into a node or frees it, the next access of no other thread is to that node. -/
theorem C89_no_race (hr : SetAct.hprog f bor setup [] (Heap.start al pl) = .ok ((xs, true, sh ++ given tasks), s)) (hok : ∀ t ∈ tasks, ∀ c ∈ t.turns, c.Ok SetAct.looks SetAct.makes)
    (hm : Roomy s tasks) (hd : (setApi f bor).TakesApart d) {js : List Nat} {ts : List (Prog T Unit (List (SetAns T S) × Bool × List HMap))} {s' : Heap T Unit}
    (h : interleave js ((setApi f bor).spawn d sh tasks) s = some (ts, s')) {i j : Nat} (hij : i ≠ j) {t u : Prog T Unit (List (SetAns T S) × Bool × List HMap)}
    (hi : ts[i]? = some t) (hj : ts[j]? = some u) {a : Addr} (ht : t.changes a) : ¬ u.touches a := by
  obtain ⟨ms, _, hR⟩ := set_ready (lawful := False) (refuses := True) (fun _ _ => trivial) False.elim hr hok hm
  exact tasks_no_race hd set_obeys_any hR h hij hi hj ht

/-- **C89** … no thread waits for another: one whose turn comes again and again ends. -/
theorem C89_ends (hr : SetAct.hprog f bor setup [] (Heap.start al pl) = .ok ((xs, true, sh ++ given tasks), s)) (hok : ∀ t ∈ tasks, ∀ c ∈ t.turns, c.Ok SetAct.looks SetAct.makes)
    (hm : Roomy s tasks) (hd : (setApi f bor).TakesApart d) {g : Nat → Nat} {j : Nat} (hj : j < tasks.length) (hf : ∀ m, ∃ m', m ≤ m' ∧ g m' = j) :
    ∃ m ts s', interleave (turns g m) ((setApi f bor).spawn d sh tasks) s = some (ts, s') ∧ ∃ t, ts[j]? = some t ∧ t.Ended := by
  obtain ⟨ms, _, hR⟩ := set_ready (lawful := False) (refuses := True) (fun _ _ => trivial) False.elim hr hok hm
  exact tasks_ends hd set_obeys_any hR hj hf

/-- **C89** … and what a thread answers is what it answers alone: with the shared sets and its own in memory and nothing else, from some point of the answers of the allocator on. -/
theorem C89_alone (hr : SetAct.hprog f bor setup [] (Heap.start al pl) = .ok ((xs, true, sh ++ given tasks), s)) (hok : ∀ t ∈ tasks, ∀ c ∈ t.turns, c.Ok SetAct.looks SetAct.makes)
    (hm : Roomy s tasks) (hd : (setApi f bor).TakesApart d) {js : List Nat} {ts : List (Prog T Unit (List (SetAns T S) × Bool × List HMap))} {s' : Heap T Unit}
    (h : interleave js ((setApi f bor).spawn d sh tasks) s = some (ts, s')) {j : Nat} {t : Worker (SetAct T Q)} (hj : tasks[j]? = some t) :
    ∃ next al' pl', s.next ≤ next ∧ (s.alloc.Good → al'.Good) ∧
      (∀ r, ts[j]? = some (.done r) → ∃ s2, (setApi f bor).alone sh t.turns t.maps ⟨s.only (sh ++ t.maps), next, al', pl'⟩ = .ok (r, s2)) ∧
      ∀ msg, ts[j]? = some (.panic msg) → (setApi f bor).alone sh t.turns t.maps ⟨s.only (sh ++ t.maps), next, al', pl'⟩ = .panic msg := by
  obtain ⟨ms, _, hR⟩ := set_ready (lawful := False) (refuses := True) (fun _ _ => trivial) False.elim hr hok hm
  exact tasks_alone hd set_obeys_any hR h hj

/-- **C89** Whatever the order on the elements: there are lists, those of the sets when the threads are started, such that every thread that comes to its end got answers that were right
for the shared lists, as they were at the start, and for its own, with its own changes (an operator made a set of clones of elements of its two sets); the answers of one that stops
where an insertion failed were right up to there; and if all come to their ends, dropping all sets hands over the shared lists, unchanged, and those the threads left, and leaves nothing
allocated. -/
theorem C89_any_order (hr : SetAct.hprog f bor setup [] (Heap.start al pl) = .ok ((xs, true, sh ++ given tasks), s)) (hok : ∀ t ∈ tasks, ∀ c ∈ t.turns, c.Ok SetAct.looks SetAct.makes)
    (hm : Roomy s tasks) (hd : (setApi f bor).TakesApart d) :
    ∃ (lsh : List (List (T × Unit))) (low : List (List (List (T × Unit)))), SetAct.Rights f bor False True setup [] xs (lsh ++ low.flatten) ∧ lsh.length = sh.length ∧
      low.map List.length = tasks.map (·.maps.length) ∧
      ∀ (js : List Nat) (ts : List (Prog T Unit (List (SetAns T S) × Bool × List HMap))) (s' : Heap T Unit), interleave js ((setApi f bor).spawn d sh tasks) s = some (ts, s') →
        (∀ (j : Nat) t l r, tasks[j]? = some t → low[j]? = some l → ts[j]? = some (.done r) →
          Turn.Told (SetAct.Right f bor False (¬ s.alloc.Good)) SetAct.stops True lsh t.turns l r.1 r.2.1) ∧
        ∀ rs : List (List (SetAns T S) × Bool × List HMap), ts = rs.map .done → (∀ r ∈ rs, r.2.1 = true) → ∃ low' : List (List (List (T × Unit))), low'.length = tasks.length ∧
          (∀ (j : Nat) t l r l', tasks[j]? = some t → low[j]? = some l → rs[j]? = some r → low'[j]? = some l' →
            Turn.Rights (SetAct.Right f bor False (¬ s.alloc.Good)) SetAct.stops lsh t.turns l r.1 l') ∧
          ∃ s2, dropAll (sh ++ (rs.map (·.2.2)).flatten) s' = .ok (lsh ++ low'.flatten, s2) ∧ ∀ a, s2.cells a = none := by
  have e' : (False → ¬ s.alloc.Good) = True := by simp
  obtain ⟨ms, h1, h⟩ := set_ready (lawful := False) (refuses := True) (fun _ _ => trivial) False.elim hr hok hm
  obtain ⟨lsh, low, h2, h3, h4, h5⟩ := tasks_told hd set_obeys_any h
  rw [h2] at h1
  refine ⟨lsh, low, h1, h3, h4, fun js ts s' hi => ?_⟩
  obtain ⟨_, h6, _, h7⟩ := h5 js ts s' hi
  rw [e'] at h6
  exact ⟨h6, h7⟩

/-- **C89** With a lawful order, every answer of every thread is the one that sorted lists and mathematical sets give, or, if a request can be refused, that a call found no memory, in which
case it left all sets as they were. -/
theorem C89_history [Std.TransOrd T] [Std.TransOrd Q] (hbo : BorrowOK bor) (hr : SetAct.hprog f bor setup [] (Heap.start al pl) = .ok ((xs, true, sh ++ given tasks), s))
    (hok : ∀ t ∈ tasks, ∀ c ∈ t.turns, c.Ok SetAct.looks SetAct.makes) (hm : Roomy s tasks) (hd : (setApi f bor).TakesApart d) :
    ∃ (lsh : List (List (T × Unit))) (low : List (List (List (T × Unit)))), SetAct.Rights f bor True (¬ al.Good) setup [] xs (lsh ++ low.flatten) ∧ lsh.length = sh.length ∧
      low.map List.length = tasks.map (·.maps.length) ∧
      ∀ (js : List Nat) (ts : List (Prog T Unit (List (SetAns T S) × Bool × List HMap))) (s' : Heap T Unit), interleave js ((setApi f bor).spawn d sh tasks) s = some (ts, s') →
        (∀ (j : Nat) t l r, tasks[j]? = some t → low[j]? = some l → ts[j]? = some (.done r) →
          Turn.Told (SetAct.Right f bor True (¬ s.alloc.Good)) SetAct.stops (¬ s.alloc.Good) lsh t.turns l r.1 r.2.1) ∧
        ∀ rs : List (List (SetAns T S) × Bool × List HMap), ts = rs.map .done → (∀ r ∈ rs, r.2.1 = true) → ∃ low' : List (List (List (T × Unit))), low'.length = tasks.length ∧
          (∀ (j : Nat) t l r l', tasks[j]? = some t → low[j]? = some l → rs[j]? = some r → low'[j]? = some l' →
            Turn.Rights (SetAct.Right f bor True (¬ s.alloc.Good)) SetAct.stops lsh t.turns l r.1 l') ∧
          ∃ s2, dropAll (sh ++ (rs.map (·.2.2)).flatten) s' = .ok (lsh ++ low'.flatten, s2) ∧ ∀ a, s2.cells a = none := by
  have hlaw : True → Lawful (K := T) bor := fun _ => ⟨inferInstance, inferInstance, hbo⟩
  have e' : (True → ¬ s.alloc.Good) = ¬ s.alloc.Good := by simp
  obtain ⟨ms, h1, h⟩ := set_ready (lawful := True) (fun _ h => h) hlaw hr hok hm
  obtain ⟨lsh, low, h2, h3, h4, h5⟩ := tasks_told hd (set_obeys hlaw) h
  rw [h2] at h1
  refine ⟨lsh, low, h1, h3, h4, fun js ts s' hi => ?_⟩
  obtain ⟨_, h6, _, h7⟩ := h5 js ts s' hi
  rw [e'] at h6
  exact ⟨h6, h7⟩

/-- **C89** … and if no request for memory is refused once the threads have started, no thread ever panics or stops, no operator panics, every thread that has ended has got exactly the right
answers; and when all have ended, dropping everything yields exactly those lists, and leaves nothing allocated. -/
theorem C89_memory [Std.TransOrd T] [Std.TransOrd Q] (hbo : BorrowOK bor) (hr : SetAct.hprog f bor setup [] (Heap.start al pl) = .ok ((xs, true, sh ++ given tasks), s)) (hal : s.alloc.Good)
    (hok : ∀ t ∈ tasks, ∀ c ∈ t.turns, c.Ok SetAct.looks SetAct.makes) (hd : (setApi f bor).TakesApart d) :
    ∃ (lsh : List (List (T × Unit))) (low : List (List (List (T × Unit)))), SetAct.Rights f bor True (¬ al.Good) setup [] xs (lsh ++ low.flatten) ∧ lsh.length = sh.length ∧
      low.map List.length = tasks.map (·.maps.length) ∧
      ∀ (js : List Nat) (ts : List (Prog T Unit (List (SetAns T S) × Bool × List HMap))) (s' : Heap T Unit), interleave js ((setApi f bor).spawn d sh tasks) s = some (ts, s') →
        (∀ (j : Nat) t l p, tasks[j]? = some t → low[j]? = some l → ts[j]? = some p → p.Ended →
          ∃ ys hs l', p = .done (ys, true, hs) ∧ Turn.Rights (SetAct.Right f bor True False) SetAct.stops lsh t.turns l ys l') ∧
        ∀ rs : List (List (SetAns T S) × Bool × List HMap), ts = rs.map .done → ∃ low' : List (List (List (T × Unit))), low'.length = tasks.length ∧
          (∀ (j : Nat) t l r l', tasks[j]? = some t → low[j]? = some l → rs[j]? = some r → low'[j]? = some l' →
            Turn.Rights (SetAct.Right f bor True False) SetAct.stops lsh t.turns l r.1 l') ∧
          ∃ s2, dropAll (sh ++ (rs.map (·.2.2)).flatten) s' = .ok (lsh ++ low'.flatten, s2) ∧ ∀ a, s2.cells a = none := by
  have hlaw : True → Lawful (K := T) bor := fun _ => ⟨inferInstance, inferInstance, hbo⟩
  have e : (¬ s.alloc.Good) = False := by simp [hal]
  obtain ⟨ms, h1, h⟩ := set_ready (lawful := True) (fun _ h => h) hlaw hr hok (.inl hal)
  obtain ⟨lsh, low, h2, h3, h4, h5⟩ := tasks_told hd (set_obeys hlaw) h
  rw [h2] at h1
  refine ⟨lsh, low, h1, h3, h4, fun js ts s' hi => ?_⟩
  obtain ⟨hlen, h6, h8, h7⟩ := h5 js ts s' hi
  rw [e] at h6 h7
  have hll : low.length = tasks.length := by simpa using congrArg List.length h4
  have hend : ∀ (j : Nat) t l p, tasks[j]? = some t → low[j]? = some l → ts[j]? = some p → p.Ended →
      ∃ ys hs l', p = .done (ys, true, hs) ∧ Turn.Rights (SetAct.Right f bor True False) SetAct.stops lsh t.turns l ys l' := by
    intro j t l p hj hl hp he
    cases p with
    | panic msg => exact (h8 j msg hp trivial hal).elim
    | done r =>
      have := h6 j t l r hj hl hp
      unfold Turn.Told at this
      obtain ⟨ys, b, hs⟩ := r
      cases b with
      | false => exact (this.1 trivial).elim
      | true =>
        obtain ⟨l', h⟩ := this
        exact ⟨ys, hs, l', rfl, h⟩
    | ub => exact he.elim
    | read a k => exact he.elim
    | write a n k => exact he.elim
    | alloc lay k => exact he.elim
    | free a lay k => exact he.elim
  refine ⟨hend, fun rs hrs => h7 rs hrs fun r hr => ?_⟩
  subst hrs
  obtain ⟨j, hj⟩ := List.mem_iff_getElem?.1 hr
  have hjl : j < tasks.length := by
    have := (List.getElem?_eq_some_iff.1 hj).1
    simpa [← hlen] using this
  obtain ⟨ys, hs, l', h9, _⟩ := hend j tasks[j] (low[j]'(hll ▸ hjl)) (.done r) (by rw [List.getElem?_eq_getElem]) (by rw [List.getElem?_eq_getElem]) (by rw [List.getElem?_map, hj]; rfl) trivial
  cases h9; rfl

/-- **C89** Everything can be taken apart into single accesses to nodes, such that what only needs `&` only looks, and `clone` and the operators never change what they are given: so the
theorems above speak about something. -/
theorem C89_exists (f : Orders T Unit S) (bor : T → Q) : ∃ d : List HMap → SetAct T Q → Prog T Unit (SetAns T S × List HMap), (setApi f bor).TakesApart d := set_apart f bor

/-- **C89** (about the specification) With a lawful order and no refused request, what is in the sets of each thread at the end is determined by the shared lists and its own alone: it does
not depend on who takes turns when. -/
theorem C89_determined [Std.TransOrd T] (f : Orders T Unit S) (bor : T → Q) {lsh : List (List (T × Unit))} : ∀ (ts : List (Turn (SetAct T Q))) {ls : List (List (T × Unit))} {xs xs' : List (SetAns T S)}
    {ls' ls'' : List (List (T × Unit))}, Turn.Rights (SetAct.Right f bor True False) SetAct.stops lsh ts ls xs ls' →
    Turn.Rights (SetAct.Right f bor True False) SetAct.stops lsh ts ls xs' ls'' → ls' = ls''
  | [], _, _, _, _, _, ⟨_, h2⟩, ⟨_, h4⟩ => h2.trans h4.symm
  | .own a :: ts, ls, _, _, ls', ls'', ⟨x, xs1, ls1, e1, h1, _, h2⟩, ⟨y, ys1, ms1, e2, g1, _, g2⟩ => by
    obtain rfl := setRight_unique h1 g1
    exact C89_determined f bor ts h2 g2
  | .look a :: ts, ls, _, _, ls', ls'', ⟨x, xs1, e1, h1, h2⟩, ⟨y, ys1, e2, g1, g2⟩ => C89_determined f bor ts h2 g2
  | .copy a :: ts, ls, _, _, ls', ls'', ⟨x, xs1, new, e1, h1, h2⟩, ⟨y, ys1, new', e2, g1, g2⟩ => by
    obtain rfl := List.append_cancel_left (setRight_unique h1 g1)
    exact C89_determined f bor ts h2 g2

end

/-! ### a case -/

/-- Three sets: one to be shared, {0, …, 39}, and one for each thread. -/
def threeSets : List (SetAct Nat Nat) :=
  [.act (.op .new), .act (.op .new), .act (.op .new), .act (.op (.extend 0 (unitsOf (List.range 40)))), .act (.op (.extend 1 (unitsOf ((List.range 30).map (· + 20))))),
   .act (.op (.insert 2 7 ()))]

/-- The first thread makes new sets out of the shared one and its own. -/
def combiner : List (Turn (SetAct Nat Nat)) :=
  [.look (.ask (.subset 1 0)), .copy (.operator 0 1 .intersection id), .copy (.operator 0 1 .symmetricDifference id), .look (.ask (.disjoint 2 3)), .copy (.operator 2 3 .union id),
   .own (.act (.op (.remove 3 7))), .look (.act (.ask (.cmp 0 4))), .own (.act (.op (.append 0 1))), .look (.ask (.algebra 0 3 [.start .difference, .next 0, .clone 0, .next 1, .hint 0]))]

/-- The second one clones the shared set and takes its own from the clone. -/
def taker : List (Turn (SetAct Nat Nat)) :=
  [.copy (.act (.op (.clone 0))), .own (.operator 1 0 .difference id), .own (.act (.op (.extend 0 (unitsOf [3, 50])))), .look (.ask (.debug 1)), .look (.ask (.superset 0 3)),
   .copy (.operator 3 1 .union (· + 0)), .own (.act (.op (.splitOff 3 20)))]

def isThree : Exec ((List (SetAns Nat Nat) × Bool × List HMap) × Heap.Heap Nat Unit) → Bool
  | .ok ((_, b, p), _) => b && p.length == 3
  | _ => false

/-- The three sets are there after the first part of the program. -/
theorem threeSets_run : ∃ xs a b c s, SetAct.hprog setOrders id threeSets [] (Heap.Heap.start allOk reuse) = .ok ((xs, true, [a, b, c]), s) := by
  have h : isThree (SetAct.hprog setOrders id threeSets [] (Heap.Heap.start allOk reuse)) = true := by decide +kernel
  revert h
  generalize SetAct.hprog setOrders id threeSets [] (Heap.Heap.start allOk reuse) = r
  intro h
  cases r with
  | ub => cases h
  | panic msg => cases h
  | ok r =>
    obtain ⟨⟨os, b, p⟩, s⟩ := r
    simp only [isThree, Bool.and_eq_true, beq_iff_eq] at h
    obtain ⟨rfl, h⟩ := h
    match p, h with
    | [a, b, c], _ => exact ⟨os, a, b, c, s, rfl⟩

theorem their_set_turns {b c : HMap} : ∀ t ∈ ([⟨combiner, [b]⟩, ⟨taker, [c]⟩] : List (Worker (SetAct Nat Nat))), ∀ c ∈ t.turns, c.Ok SetAct.looks SetAct.makes := by
  have h1 : ∀ c ∈ combiner, c.Ok SetAct.looks SetAct.makes := by simp [combiner, Turn.Ok, SetAct.looks, SetAct.makes, Act.looks]
  have h2 : ∀ c ∈ taker, c.Ok SetAct.looks SetAct.makes := by simp [taker, Turn.Ok, SetAct.looks, SetAct.makes, Act.makes, Spec.Op.makes]
  intro t ht
  simp only [List.mem_cons, List.not_mem_nil, or_false] at ht
  rcases ht with rfl | rfl
  · exact h1
  · exact h2

/-- However the two threads are interleaved, nothing is undefined, and each ends with answers that are right. -/
example : ∃ (xs : List (SetAns Nat Nat)) (a b c : HMap) (s : Heap.Heap Nat Unit),
    SetAct.hprog setOrders id threeSets [] (Heap.Heap.start allOk reuse) = .ok ((xs, true, [a] ++ given [⟨combiner, [b]⟩, ⟨taker, [c]⟩]), s) ∧
    ∀ d, (setApi setOrders id).TakesApart d → ∃ lsh l₀ l₁, ∀ js, ∃ ts s', interleave js ((setApi setOrders id).spawn d [a] [⟨combiner, [b]⟩, ⟨taker, [c]⟩]) s = some (ts, s') ∧
      (∀ t, ts[0]? = some t → t.Ended → ∃ ys hs l', t = .done (ys, true, hs) ∧ Turn.Rights (SetAct.Right setOrders id True False) SetAct.stops lsh combiner l₀ ys l') ∧
      (∀ t, ts[1]? = some t → t.Ended → ∃ ys hs l', t = .done (ys, true, hs) ∧ Turn.Rights (SetAct.Right setOrders id True False) SetAct.stops lsh taker l₁ ys l') := by
  obtain ⟨xs, a, b, c, s, hr⟩ := threeSets_run
  refine ⟨xs, a, b, c, s, hr, fun d hd => ?_⟩
  have hr' : SetAct.hprog setOrders id threeSets [] (Heap.Heap.start allOk reuse) = .ok ((xs, true, [a] ++ given [⟨combiner, [b]⟩, ⟨taker, [c]⟩]), s) := hr
  have hal := set_start_good ⟨inferInstance, inferInstance, fun _ _ => rfl⟩ (fun _ => rfl) hr
  obtain ⟨lsh, low, _, _, h3, h4⟩ := C89_memory (fun _ _ => rfl) hr' hal their_set_turns hd
  have h5 : low.length = 2 := by simpa using congrArg List.length h3
  match low, h5 with
  | [l₀, l₁], _ =>
    refine ⟨lsh, l₀, l₁, fun js => ?_⟩
    cases h : interleave js ((setApi setOrders id).spawn d [a] [⟨combiner, [b]⟩, ⟨taker, [c]⟩]) s with
    | none => exact absurd h (C89_no_ub hr' their_set_turns (.inl hal) hd js)
    | some r =>
      obtain ⟨ts, s'⟩ := r
      obtain ⟨h6, _⟩ := h4 js ts s' h
      exact ⟨ts, s', rfl, fun t ht he => h6 0 _ _ _ rfl rfl ht he, fun t ht he => h6 1 _ _ _ rfl rfl ht he⟩

/-- What they are told, in numbers. -/
def toldSets : Exec ((List (SetAns Nat Nat) × Bool × List HMap) × Heap.Heap Nat Unit) → List Nat
  | .ok ((_, true, [a, b, c]), s) =>
    let say := fun x : Exec ((List (SetAns Nat Nat) × Bool × List HMap) × Heap.Heap Nat Unit) => match x with
      | .ok ((xs, true, p), s) =>
        xs.map setAnsNumber ++ (match dropAll p s with
          | .ok (ls, _) => ls.map List.length
          | _ => [])
      | _ => []
    say ((setApi setOrders id).alone [a] combiner [b] s) ++ say ((setApi setOrders id).alone [a] taker [c] s)
  | _ => []

example : toldSets (SetAct.hprog setOrders id threeSets [] (Heap.Heap.start allOk reuse)) =
    [10, 13, 13, 11, 13, 3, 5, 1, 3005, 30, 0, 30, 49, 1, 13, 1, 2060, 11, 13, 1, 3, 40, 39, 20, 21] := by decide +kernel

end Verif.Props
