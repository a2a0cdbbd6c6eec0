import Verif.Heap.Proofs.MapThreads
import Verif.Heap.Proofs.TasksWhole
import Verif.Props.Everything
import Verif.Props.Conc
/-
C88: threads that use the whole API of maps.
-/
namespace Verif.Props
open Verif Verif.Heap Verif.Spec
open Verif.BTree (Map)

variable {K V Q S : Type} {pl : Nat → Heap.Addr}

section
variable [Ord K] [Ord Q] {f : Orders K V S} {bor : K → Q} {setup : List (Act K V Q)} {al : Alloc} {xs : List (Ans K V S)} {sh : List HMap} {tasks : List (Worker (Act K V Q))} {s : Heap K V}
  {d : List HMap → Act K V Q → Prog K V (Ans K V S × List HMap)}

/-- After the first part of the program, the threads can be started. -/
theorem map_ready {lawful mem refuses : Prop} (href : lawful → ¬ al.Good → refuses) (hlaw : lawful → Lawful (K := K) bor) (hmem : mem → s.alloc.Good)
    (hr : Act.hprog f bor setup [] (Heap.start al pl) = .ok ((xs, true, sh ++ given tasks), s)) (hok : ∀ t ∈ tasks, ∀ c ∈ t.turns, c.Ok Act.looks Act.makes) :
    ∃ ms : List (Map K V), Act.Rights f bor lawful refuses setup [] xs (ms.map Map.toList) ∧ Ready lawful mem (mapApi (V := V) f bor) (fun _ => True) s sh tasks ms := by
  have := acts_ref (f := f) (bor := bor) (lawful := lawful) (refuses := refuses) hlaw setup (hs := []) (p := []) (by simp) (fun _ => by simp) (al := al) href
    (start_good (pl := pl) al) (by simpa only [sep_emp] using start_world (pl := pl) al)
  rw [hr] at this
  obtain ⟨hg, p', al', h1, h2, h3, h5, h4⟩ := this
  exact ⟨p', h1, hg, hmem, h2, h3, sched_off h4, fun t ht c hc => ⟨hok t ht c hc, trivial⟩⟩

omit [Ord K] in
theorem sched_here {P : HProp K V} (hw : (P ∗ sched al) s.world) : s.alloc = al := by
  obtain ⟨w₁, w₂, hd, hsw, _, hs⟩ := hw
  rw [show w₂ = _ from hs] at hsw hd
  have e1 : some s.alloc = (World.union w₁ ⟨fun _ => none, some al⟩).sched := congrArg World.sched hsw
  have e2 : w₁.sched = none := by rcases hd.2 with h | h; exact h; cases h
  simpa [World.union, e2] using e1

/-- With a lawful order, the allocator is then as good as it was. -/
theorem map_start_good (hlaw : Lawful (K := K) bor) (hal : al.Good) {p : List HMap} (hr : Act.hprog f bor setup [] (Heap.start al pl) = .ok ((xs, true, p), s)) : s.alloc.Good := by
  have := acts_ref (f := f) (bor := bor) (lawful := True) (refuses := True) (fun _ => hlaw) setup (hs := []) (p := []) (by simp) (fun _ => by simp) (al := al) (fun _ _ => trivial)
    (start_good (pl := pl) al) (by simpa only [sep_emp] using start_world (pl := pl) al)
  rw [hr] at this
  obtain ⟨_, p', al', _, _, _, h5, h4⟩ := this
  rw [sched_here h4]
  exact h5 trivial hal

theorem map_obeys_any {mem : Prop} : Obeys False mem (Act.Right f bor False ¬mem) Act.stops (mapApi (V := V) (Q := Q) f bor) (fun _ => True) := map_obeys fun h => h.elim

/-- **C88** Threads that each have their own maps, with which they do anything at all (calls, mutable iterators used in any way, entries held and used with closures that panic), and that all
look at some shared ones (lookups, iteration, `==`, `cmp`, `hash`, `{:?}`, indexing) and clone them, take turns at every single access to a node, in any order: whatever the order on
keys, the comparisons and the allocator, no access is ever undefined behaviour. -/
theorem C88_no_ub (hr : Act.hprog f bor setup [] (Heap.start al pl) = .ok ((xs, true, sh ++ given tasks), s)) (hok : ∀ t ∈ tasks, ∀ c ∈ t.turns, c.Ok Act.looks Act.makes)
    (hd : (mapApi f bor).TakesApart d) (js : List Nat) : interleave js ((mapApi f bor).spawn d sh tasks) s ≠ none := by
  obtain ⟨ms, _, h⟩ := map_ready (lawful := False) (mem := False) (refuses := True) (fun _ _ => trivial) False.elim False.elim hr hok
  exact tasks_no_ub hd map_obeys_any h js

/-- **C88** … there is never a data race: when the next access of one thread stores into a node or frees it, the next access of no other thread is to that node. -/
theorem C88_no_race (hr : Act.hprog f bor setup [] (Heap.start al pl) = .ok ((xs, true, sh ++ given tasks), s)) (hok : ∀ t ∈ tasks, ∀ c ∈ t.turns, c.Ok Act.looks Act.makes)
    (hd : (mapApi f bor).TakesApart d) {js : List Nat} {ts : List (Prog K V (List (Ans K V S) × Bool × List HMap))} {s' : Heap K V}
    (h : interleave js ((mapApi f bor).spawn d sh tasks) s = some (ts, s')) {i j : Nat} (hij : i ≠ j) {t u : Prog K V (List (Ans K V S) × Bool × List HMap)}
    (hi : ts[i]? = some t) (hj : ts[j]? = some u) {a : Addr} (ht : t.changes a) : ¬ u.touches a := by
  obtain ⟨ms, _, hR⟩ := map_ready (lawful := False) (mem := False) (refuses := True) (fun _ _ => trivial) False.elim False.elim hr hok
  exact tasks_no_race hd map_obeys_any hR h hij hi hj ht

/-- **C88** … every thread that gets its turn again and again comes to its end, stops where an insertion failed, or panics: no thread waits for another one. -/
theorem C88_ends (hr : Act.hprog f bor setup [] (Heap.start al pl) = .ok ((xs, true, sh ++ given tasks), s)) (hok : ∀ t ∈ tasks, ∀ c ∈ t.turns, c.Ok Act.looks Act.makes)
    (hd : (mapApi f bor).TakesApart d) {g : Nat → Nat} {j : Nat} (hj : j < tasks.length) (hg : ∀ m, ∃ m', m ≤ m' ∧ g m' = j) :
    ∃ m ts s', interleave (turns g m) ((mapApi f bor).spawn d sh tasks) s = some (ts, s') ∧ ∃ t, ts[j]? = some t ∧ t.Ended := by
  obtain ⟨ms, _, h⟩ := map_ready (lawful := False) (mem := False) (refuses := True) (fun _ _ => trivial) False.elim False.elim hr hok
  exact tasks_ends hd map_obeys_any h hj hg

/-- **C88** … and it ends exactly as it could have ended had it been alone: with the same answers and the same maps, run to its end in one go from a memory in which there are only the
shared maps and its own, just where they were, with some other answers and addresses from the allocator (answers that are never a refusal, if there was none). -/
theorem C88_alone (hr : Act.hprog f bor setup [] (Heap.start al pl) = .ok ((xs, true, sh ++ given tasks), s)) (hok : ∀ t ∈ tasks, ∀ c ∈ t.turns, c.Ok Act.looks Act.makes)
    (hd : (mapApi f bor).TakesApart d) {js : List Nat} {ts : List (Prog K V (List (Ans K V S) × Bool × List HMap))} {s' : Heap K V}
    (h : interleave js ((mapApi f bor).spawn d sh tasks) s = some (ts, s')) {j : Nat} {t : Worker (Act K V Q)} (hj : tasks[j]? = some t) :
    ∃ next al' pl', s.next ≤ next ∧ (s.alloc.Good → al'.Good) ∧
      (∀ r, ts[j]? = some (.done r) → ∃ s2, (mapApi f bor).alone sh t.turns t.maps ⟨s.only (sh ++ t.maps), next, al', pl'⟩ = .ok (r, s2)) ∧
      ∀ msg, ts[j]? = some (.panic msg) → (mapApi f bor).alone sh t.turns t.maps ⟨s.only (sh ++ t.maps), next, al', pl'⟩ = .panic msg := by
  obtain ⟨ms, _, hR⟩ := map_ready (lawful := False) (mem := s.alloc.Good) (refuses := True) (fun _ _ => trivial) False.elim id hr hok
  exact tasks_alone hd map_obeys_any hR h hj

/-- **C88** Whatever the order on the keys: there are lists, those of the maps when the threads are started, such that every thread that comes to its end got answers that were right for
the shared lists, as they were at the start, and for its own, with its own changes; the answers of one that stops where an insertion failed were right up to there; and if all come
to their ends, dropping the shared maps and all maps of the threads hands over the shared lists, unchanged, and those the threads left, and leaves nothing allocated. -/
theorem C88_any_order (hr : Act.hprog f bor setup [] (Heap.start al pl) = .ok ((xs, true, sh ++ given tasks), s)) (hok : ∀ t ∈ tasks, ∀ c ∈ t.turns, c.Ok Act.looks Act.makes)
    (hd : (mapApi f bor).TakesApart d) :
    ∃ (lsh : List (List (K × V))) (low : List (List (List (K × V)))), Act.Rights f bor False True setup [] xs (lsh ++ low.flatten) ∧ lsh.length = sh.length ∧
      low.map List.length = tasks.map (·.maps.length) ∧
      ∀ (js : List Nat) (ts : List (Prog K V (List (Ans K V S) × Bool × List HMap))) (s' : Heap K V), interleave js ((mapApi f bor).spawn d sh tasks) s = some (ts, s') →
        (∀ (j : Nat) t l r, tasks[j]? = some t → low[j]? = some l → ts[j]? = some (.done r) → Turn.Told (Act.Right f bor False True) Act.stops True lsh t.turns l r.1 r.2.1) ∧
        ∀ rs : List (List (Ans K V S) × Bool × List HMap), ts = rs.map .done → (∀ r ∈ rs, r.2.1 = true) → ∃ low' : List (List (List (K × V))), low'.length = tasks.length ∧
          (∀ (j : Nat) t l r l', tasks[j]? = some t → low[j]? = some l → rs[j]? = some r → low'[j]? = some l' → Turn.Rights (Act.Right f bor False True) Act.stops lsh t.turns l r.1 l') ∧
          ∃ s2, dropAll (sh ++ (rs.map (·.2.2)).flatten) s' = .ok (lsh ++ low'.flatten, s2) ∧ ∀ a, s2.cells a = none := by
  have e : (¬ False) = True := by simp
  have e' : (False → True) = True := by simp
  obtain ⟨ms, h1, h⟩ := map_ready (lawful := False) (mem := False) (refuses := True) (fun _ _ => trivial) False.elim False.elim hr hok
  obtain ⟨lsh, low, h2, h3, h4, h5⟩ := tasks_told hd map_obeys_any h
  rw [h2] at h1
  refine ⟨lsh, low, h1, h3, h4, fun js ts s' hi => ?_⟩
  obtain ⟨_, h6, _, h7⟩ := h5 js ts s' hi
  rw [e] at h6 h7
  rw [e'] at h6
  exact ⟨h6, h7⟩

/-- **C88** With a lawful key order, every answer of every thread, those of the calls included, is the one that sorted lists give, or that a call found no memory, in which case it left
all maps as they were. -/
theorem C88_history [Std.TransOrd K] [Std.TransOrd Q] (hbo : BorrowOK bor) (hr : Act.hprog f bor setup [] (Heap.start al pl) = .ok ((xs, true, sh ++ given tasks), s))
    (hok : ∀ t ∈ tasks, ∀ c ∈ t.turns, c.Ok Act.looks Act.makes) (hd : (mapApi f bor).TakesApart d) :
    ∃ (lsh : List (List (K × V))) (low : List (List (List (K × V)))), Act.Rights f bor True (¬ al.Good) setup [] xs (lsh ++ low.flatten) ∧ lsh.length = sh.length ∧
      low.map List.length = tasks.map (·.maps.length) ∧
      ∀ (js : List Nat) (ts : List (Prog K V (List (Ans K V S) × Bool × List HMap))) (s' : Heap K V), interleave js ((mapApi f bor).spawn d sh tasks) s = some (ts, s') →
        (∀ (j : Nat) t l r, tasks[j]? = some t → low[j]? = some l → ts[j]? = some (.done r) → Turn.Told (Act.Right f bor True True) Act.stops True lsh t.turns l r.1 r.2.1) ∧
        ∀ rs : List (List (Ans K V S) × Bool × List HMap), ts = rs.map .done → (∀ r ∈ rs, r.2.1 = true) → ∃ low' : List (List (List (K × V))), low'.length = tasks.length ∧
          (∀ (j : Nat) t l r l', tasks[j]? = some t → low[j]? = some l → rs[j]? = some r → low'[j]? = some l' → Turn.Rights (Act.Right f bor True True) Act.stops lsh t.turns l r.1 l') ∧
          ∃ s2, dropAll (sh ++ (rs.map (·.2.2)).flatten) s' = .ok (lsh ++ low'.flatten, s2) ∧ ∀ a, s2.cells a = none := by
  have hlaw : True → Lawful (K := K) bor := fun _ => ⟨inferInstance, inferInstance, hbo⟩
  have e : (¬ False) = True := by simp
  have e' : (True → True) = True := by simp
  obtain ⟨ms, h1, h⟩ := map_ready (lawful := True) (mem := False) (fun _ h => h) hlaw False.elim hr hok
  obtain ⟨lsh, low, h2, h3, h4, h5⟩ := tasks_told hd (map_obeys hlaw) h
  rw [h2] at h1
  refine ⟨lsh, low, h1, h3, h4, fun js ts s' hi => ?_⟩
  obtain ⟨_, h6, _, h7⟩ := h5 js ts s' hi
  rw [e] at h6 h7
  rw [e'] at h6
  exact ⟨h6, h7⟩

/-- **C88** … and if no request for memory is refused once the threads have started, no thread ever panics or stops: every one that has ended has got exactly the answers of sorted lists; and
when all have come to their ends, dropping everything yields exactly those lists, and leaves nothing allocated. -/
theorem C88_memory [Std.TransOrd K] [Std.TransOrd Q] (hbo : BorrowOK bor) (hr : Act.hprog f bor setup [] (Heap.start al pl) = .ok ((xs, true, sh ++ given tasks), s)) (hal : s.alloc.Good)
    (hok : ∀ t ∈ tasks, ∀ c ∈ t.turns, c.Ok Act.looks Act.makes) (hd : (mapApi f bor).TakesApart d) :
    ∃ (lsh : List (List (K × V))) (low : List (List (List (K × V)))), Act.Rights f bor True (¬ al.Good) setup [] xs (lsh ++ low.flatten) ∧ lsh.length = sh.length ∧
      low.map List.length = tasks.map (·.maps.length) ∧
      ∀ (js : List Nat) (ts : List (Prog K V (List (Ans K V S) × Bool × List HMap))) (s' : Heap K V), interleave js ((mapApi f bor).spawn d sh tasks) s = some (ts, s') →
        (∀ (j : Nat) t l p, tasks[j]? = some t → low[j]? = some l → ts[j]? = some p → p.Ended →
          ∃ ys hs l', p = .done (ys, true, hs) ∧ Turn.Rights (Act.Right f bor True False) Act.stops lsh t.turns l ys l') ∧
        ∀ rs : List (List (Ans K V S) × Bool × List HMap), ts = rs.map .done → ∃ low' : List (List (List (K × V))), low'.length = tasks.length ∧
          (∀ (j : Nat) t l r l', tasks[j]? = some t → low[j]? = some l → rs[j]? = some r → low'[j]? = some l' → Turn.Rights (Act.Right f bor True False) Act.stops lsh t.turns l r.1 l') ∧
          ∃ s2, dropAll (sh ++ (rs.map (·.2.2)).flatten) s' = .ok (lsh ++ low'.flatten, s2) ∧ ∀ a, s2.cells a = none := by
  have hlaw : True → Lawful (K := K) bor := fun _ => ⟨inferInstance, inferInstance, hbo⟩
  have e : (¬ True) = False := by simp
  obtain ⟨ms, h1, h⟩ := map_ready (lawful := True) (mem := True) (fun _ h => h) hlaw (fun _ => hal) hr hok
  obtain ⟨lsh, low, h2, h3, h4, h5⟩ := tasks_told hd (map_obeys hlaw) h
  rw [h2] at h1
  refine ⟨lsh, low, h1, h3, h4, fun js ts s' hi => ?_⟩
  obtain ⟨hlen, h6, h8, h7⟩ := h5 js ts s' hi
  rw [e] at h6 h7
  have hll : low.length = tasks.length := by simpa using congrArg List.length h4
  have hend : ∀ (j : Nat) t l p, tasks[j]? = some t → low[j]? = some l → ts[j]? = some p → p.Ended →
      ∃ ys hs l', p = .done (ys, true, hs) ∧ Turn.Rights (Act.Right f bor True False) Act.stops lsh t.turns l ys l' := by
    intro j t l p hj hl hp he
    cases p with
    | panic msg => exact (h8 j msg hp trivial trivial).elim
    | done r =>
      have := h6 j t l r hj hl hp
      unfold Turn.Told at this
      obtain ⟨ys, b, hs⟩ := r
      cases b with
      | false => exact (this.1 trivial).elim
      | true =>
        obtain ⟨l', h⟩ := this
        exact ⟨ys, hs, l', rfl, h⟩
    | ub => exact he.elim
    | read a k => exact he.elim
    | write a n k => exact he.elim
    | alloc lay k => exact he.elim
    | free a lay k => exact he.elim
  refine ⟨hend, fun rs hrs => h7 rs hrs fun r hr => ?_⟩
  subst hrs
  obtain ⟨j, hj⟩ := List.mem_iff_getElem?.1 hr
  have hjl : j < tasks.length := by
    have := (List.getElem?_eq_some_iff.1 hj).1
    simpa [← hlen] using this
  obtain ⟨ys, hs, l', h9, _⟩ := hend j tasks[j] (low[j]'(hll ▸ hjl)) (.done r) (by rw [List.getElem?_eq_getElem]) (by rw [List.getElem?_eq_getElem]) (by rw [List.getElem?_map, hj]; rfl) trivial
  cases h9; rfl

/-- **C88** (about the specification) With a lawful order and no refused request, what each thread is answered, and what its maps are at the end, is determined by the shared lists and its own
alone: it does not depend on who takes turns when. -/
theorem C88_determined (f : Orders K V S) (bor : K → Q) {lsh : List (List (K × V))} : ∀ (ts : List (Turn (Act K V Q))) {ls : List (List (K × V))} {xs xs' : List (Ans K V S)}
    {ls' ls'' : List (List (K × V))}, Turn.Rights (Act.Right f bor True False) Act.stops lsh ts ls xs ls' → Turn.Rights (Act.Right f bor True False) Act.stops lsh ts ls xs' ls'' →
    xs = xs' ∧ ls' = ls''
  | [], _, _, _, _, _, ⟨h1, h2⟩, ⟨h3, h4⟩ => ⟨h1.trans h3.symm, h2.trans h4.symm⟩
  | .own a :: ts, ls, _, _, ls', ls'', ⟨x, xs1, ls1, e1, h1, _, h2⟩, ⟨y, ys1, ms1, e2, g1, _, g2⟩ => by
    obtain ⟨rfl, rfl⟩ := h1.unique g1
    obtain ⟨rfl, rfl⟩ := C88_determined f bor ts h2 g2
    exact ⟨e1.trans e2.symm, rfl⟩
  | .look a :: ts, ls, _, _, ls', ls'', ⟨x, xs1, e1, h1, h2⟩, ⟨y, ys1, e2, g1, g2⟩ => by
    obtain ⟨rfl, _⟩ := h1.unique g1
    obtain ⟨rfl, rfl⟩ := C88_determined f bor ts h2 g2
    exact ⟨e1.trans e2.symm, rfl⟩
  | .copy a :: ts, ls, _, _, ls', ls'', ⟨x, xs1, new, e1, h1, h2⟩, ⟨y, ys1, new', e2, g1, g2⟩ => by
    obtain ⟨rfl, e⟩ := h1.unique g1
    obtain rfl := List.append_cancel_left e
    obtain ⟨rfl, rfl⟩ := C88_determined f bor ts h2 g2
    exact ⟨e1.trans e2.symm, rfl⟩

/-- **C88** Everything can be taken apart into single accesses to nodes, such that what only needs `&` only looks, and `clone` never changes what it clones: so the theorems above speak
about something. -/
theorem C88_exists (f : Orders K V S) (bor : K → Q) : ∃ d : List HMap → Act K V Q → Prog K V (Ans K V S × List HMap), (mapApi (V := V) f bor).TakesApart d := map_apart f bor

end

/-! ### a case -/

/-- Three maps: one to be shared, with 40 entries, one for the first thread, two for the second. -/
def fourMaps : List (Act Nat Nat Nat) :=
  [.op .new, .op .new, .op .new, .op .new, .op (.extend 0 fortyPairs), .op (.extend 1 (fortyPairs.take 20)), .entry 0 3 [.write (· + 1)] .intoKey, .op (.insert 3 5 5)]

/-- The first thread compares the shared map with its own, makes its own more alike through a mutable iterator and an entry, and clones the shared one. -/
def comparer : List (Turn (Act Nat Nat Nat)) :=
  [.look (.ask (.eq 0 1)), .own (.entry 0 3 [.get, .modify (· + 1) true] .leave), .own (.iterMut 0 [.act (.take .back), .act (.write 0 (· + 7)), .hint]), .copy (.op (.clone 0)),
   .look (.ask (.eq 0 2)), .own (.op (.remove 1 39)), .look (.ask (.cmp 0 2)), .own (.rangeMut 1 (.included 9) (.excluded 3) []), .own (.op (.append 1 0)), .look (.op (.get 2 3))]

/-- The second one looks at the shared map while it fills and empties its own. -/
def mover : List (Turn (Act Nat Nat Nat)) :=
  [.own (.op (.extend 0 (fortyPairs.drop 30))), .look (.op (.range 0 (.included 37) .unbounded [.back, .front])), .own (.op (.splitOff 0 35)), .own (.entry 1 5 [] .removeEntry),
   .look (.ask (.debug 2)), .copy (.op (.tryClone 0 (fun _ => true) some)), .own (.op (.remove 3 0)), .look (.ask (.index 0 0))]

def isFour : Exec ((List (Ans Nat Nat Nat) × Bool × List HMap) × Heap.Heap Nat Nat) → Bool
  | .ok ((_, b, p), _) => b && p.length == 4
  | _ => false

/-- The four maps are there after the first part of the program. -/
theorem fourMaps_run : ∃ xs a b c e s, Act.hprog numOrders id fourMaps [] (Heap.Heap.start allOk reuse) = .ok ((xs, true, [a, b, c, e]), s) := by
  have h : isFour (Act.hprog numOrders id fourMaps [] (Heap.Heap.start allOk reuse)) = true := by decide +kernel
  revert h
  generalize Act.hprog numOrders id fourMaps [] (Heap.Heap.start allOk reuse) = r
  intro h
  cases r with
  | ub => cases h
  | panic msg => cases h
  | ok r =>
    obtain ⟨⟨os, b, p⟩, s⟩ := r
    simp only [isFour, Bool.and_eq_true, beq_iff_eq] at h
    obtain ⟨rfl, h⟩ := h
    match p, h with
    | [a, b, c, e], _ => exact ⟨os, a, b, c, e, s, rfl⟩

theorem their_turns {b c e : HMap} : ∀ t ∈ ([⟨comparer, [b]⟩, ⟨mover, [c, e]⟩] : List (Worker (Act Nat Nat Nat))), ∀ c ∈ t.turns, c.Ok Act.looks Act.makes := by
  have h1 : ∀ c ∈ comparer, c.Ok Act.looks Act.makes := by simp [comparer, Turn.Ok, Act.looks, Act.makes, Spec.Op.looks, Spec.Op.makes]
  have h2 : ∀ c ∈ mover, c.Ok Act.looks Act.makes := by simp [mover, Turn.Ok, Act.looks, Act.makes, Spec.Op.looks, Spec.Op.makes]
  intro t ht
  simp only [List.mem_cons, List.not_mem_nil, or_false] at ht
  rcases ht with rfl | rfl
  · exact h1
  · exact h2

/-- However the two threads are interleaved, nothing is undefined, and each ends with answers that are right. -/
example : ∃ (xs : List (Ans Nat Nat Nat)) (a b c e : HMap) (s : Heap.Heap Nat Nat),
    Act.hprog numOrders id fourMaps [] (Heap.Heap.start allOk reuse) = .ok ((xs, true, [a] ++ given [⟨comparer, [b]⟩, ⟨mover, [c, e]⟩]), s) ∧
    ∀ d, (mapApi numOrders id).TakesApart d → ∃ lsh l₀ l₁, ∀ js, ∃ ts s', interleave js ((mapApi numOrders id).spawn d [a] [⟨comparer, [b]⟩, ⟨mover, [c, e]⟩]) s = some (ts, s') ∧
      (∀ t, ts[0]? = some t → t.Ended → ∃ ys hs l', t = .done (ys, true, hs) ∧ Turn.Rights (Act.Right numOrders id True False) Act.stops lsh comparer l₀ ys l') ∧
      (∀ t, ts[1]? = some t → t.Ended → ∃ ys hs l', t = .done (ys, true, hs) ∧ Turn.Rights (Act.Right numOrders id True False) Act.stops lsh mover l₁ ys l') := by
  obtain ⟨xs, a, b, c, e, s, hr⟩ := fourMaps_run
  refine ⟨xs, a, b, c, e, s, hr, fun d hd => ?_⟩
  have hr' : Act.hprog numOrders id fourMaps [] (Heap.Heap.start allOk reuse) = .ok ((xs, true, [a] ++ given [⟨comparer, [b]⟩, ⟨mover, [c, e]⟩]), s) := hr
  have hal := map_start_good ⟨inferInstance, inferInstance, fun _ _ => rfl⟩ (fun _ => rfl) hr
  obtain ⟨lsh, low, _, _, h3, h4⟩ := C88_memory (fun _ _ => rfl) hr' hal their_turns hd
  have h5 : low.length = 2 := by simpa using congrArg List.length h3
  match low, h5 with
  | [l₀, l₁], _ =>
    refine ⟨lsh, l₀, l₁, fun js => ?_⟩
    cases h : interleave js ((mapApi numOrders id).spawn d [a] [⟨comparer, [b]⟩, ⟨mover, [c, e]⟩]) s with
    | none => exact absurd h (C88_no_ub hr' their_turns hd js)
    | some r =>
      obtain ⟨ts, s'⟩ := r
      obtain ⟨h6, _⟩ := h4 js ts s' h
      exact ⟨ts, s', rfl, fun t ht he => h6 0 _ _ _ rfl rfl ht he, fun t ht he => h6 1 _ _ _ rfl rfl ht he⟩

/-- What they are told, in numbers. -/
def toldAlone : Exec ((List (Ans Nat Nat Nat) × Bool × List HMap) × Heap.Heap Nat Nat) → List Nat
  | .ok ((_, true, [a, b, c, e]), s) =>
    let say := fun x : Exec ((List (Ans Nat Nat Nat) × Bool × List HMap) × Heap.Heap Nat Nat) => match x with
      | .ok ((xs, true, p), _) => xs.map ansNumber ++ [p.length]
      | _ => []
    say ((mapApi numOrders id).alone [a] comparer [b] s) ++ say ((mapApi numOrders id).alone [a] mover [c, e] s)
  | _ => []

example : toldAlone (Act.hprog numOrders id fourMaps [] (Heap.Heap.start allOk reuse)) = [3000, 6002, 5003, 1, 3001, 1039, 3022, 4, 1, 1004, 2, 1, 3, 1, 6001, 3000, 1, 1000, 4000, 4] := by decide +kernel

end Verif.Props
