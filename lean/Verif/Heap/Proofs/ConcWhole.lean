import Verif.Heap.ConcWhole
import Verif.Heap.Proofs.Spawn
import Verif.Heap.Proofs.Whole
/-
Threads that use the whole API: in general.
-/
namespace Verif.Heap
open Verif
open Verif.BTree (Map)
open Verif.Spec (Turn)

variable {K V A X α : Type} {ro : Cells K V} {lawful mem : Prop} {E : String → Prop}

/-! ### looking at the shared nodes and at one's own -/

theorem both_comm {w v : Cells K V} (h : Apart w v) : both w v = both v w := by
  funext x
  unfold both
  rcases h x with h | h <;> rw [h] <;> simp

theorem both_none_left (w : Cells K V) : both (fun _ => none) w = w := by funext x; simp [both]
theorem both_none_right (w : Cells K V) : both w (fun _ => none) = w := by funext x; simp [both]

theorem below_both {w v : Cells K V} (h : Low w) (h' : Low v) : Low (both w v) := by
  obtain ⟨n, h1, h2, h3⟩ := h
  obtain ⟨n', h4, h5, h6⟩ := h'
  refine ⟨max n n', fun x hx => ?_, ?_, by omega⟩
  · unfold both
    have := Nat.max_le.1 hx
    rw [h1 x this.1, h4 x this.2]; rfl
  · unfold both
    rw [h2, h5]; rfl

/-- What is fine for a computation that may only look at `w` is fine for one that has `w`. -/
theorem Prog.Fine.widen {F : α → Cells K V → Prop} {w : Cells K V} {t : Prog K V α} : ∀ {v : Cells K V}, t.Fine (both ro w) mem E F v → Apart v w →
    t.Fine ro mem E (fun a u => ∃ v', Apart v' w ∧ u = both v' w ∧ F a v') (both v w) := by
  have hw : ∀ {v : Cells K V} {a : Addr} {nd : Node K V}, Apart v w → v a = some nd → w a = none := fun h1 h2 => (h1 _).resolve_left (by rw [h2]; simp)
  have hb : ∀ {v : Cells K V} {a : Addr} {nd : Node K V}, v a = some nd → both v w a = some nd := fun h => by unfold both; rw [h]; rfl
  induction t with
  | done a => exact fun h h1 => ⟨_, h1, rfl, h⟩
  | ub => exact fun h _ => h
  | panic msg => exact fun h _ => h
  | read a k ih =>
    rintro v ⟨h1, nd, h2, h3⟩ ha
    refine ⟨h1, nd, ?_, ih nd h3 ha⟩
    rcases h2 with h2 | h2
    · exact .inl (hb h2)
    · unfold both at h2 ⊢
      cases hr : ro a with
      | some n => rw [hr] at h2; exact .inr h2
      | none =>
        rw [hr] at h2
        have h4 : w a = some nd := by simpa using h2
        exact .inl (by rw [(ha a).resolve_right (by rw [h4]; simp), h4]; rfl)
  | write a nd k ih =>
    rintro v ⟨h1, ⟨nd', h2⟩, h3⟩ ha
    have := ih h3 (ha.upd (hw ha h2))
    rw [both_upd (hw ha h2)] at this
    exact ⟨h1, ⟨nd', hb h2⟩, this⟩
  | alloc lay k ih =>
    rintro v ⟨h1, h2⟩ ha
    refine ⟨fun a h3 h4 h5 => ?_, fun hm => ih _ (h2 hm) ha⟩
    have h6 : v a = none ∧ w a = none := by
      unfold both at h4
      exact Option.or_eq_none_iff.1 h4
    have := ih _ (h1 a h3 h6.1 (by unfold both; rw [h5, h6.2]; rfl)) (ha.upd h6.2)
    rwa [both_upd h6.2] at this
  | free a lay k ih =>
    rintro v ⟨h1, ⟨nd, h2, h4⟩, h3⟩ ha
    have := ih h3 (ha.upd (hw ha h2))
    rw [both_upd (hw ha h2)] at this
    exact ⟨h1, ⟨nd, hb h2, h4⟩, this⟩

/-! ### what one thing does -/

variable [Ord K] (right : List (List (K × V)) → A → X → List (List (K × V)) → Prop) (stops : A → X → Prop) (lawful mem)

/-- What it leaves. -/
def DoneWith (p : List (Map K V)) (a : A) (r : X × List HMap) : HProp K V :=
  hex fun y : Option (List (Map K V) × Alloc) =>
    match y with
    | none => fact (stops a r.1 ∧ (lawful → ¬ mem)) ∗ anything
    | some (p', al') => fact (¬ stops a r.1 ∧ right (p.map Map.toList) a r.1 (p'.map Map.toList) ∧ (∀ m ∈ p', m.WF) ∧ (lawful → ∀ m ∈ p', m.Valid)) ∗ pool r.2 p' ∗ sched al'

/-- What it leaves if it makes a new map: the given ones as they were, in the part `c`, and the new one. -/
def Made (hs : List HMap) (p : List (Map K V)) (c : Cells K V) (a : A) (r : X × List HMap) (c' : Cells K V) : Prop :=
  ∃ (v : Cells K V) (x : List (Map K V)), Apart v c ∧ c' = both v c ∧ right (p.map Map.toList) a r.1 ((p ++ x).map Map.toList) ∧ (∀ m ∈ x, m.WF) ∧ (lawful → ∀ m ∈ x, m.Valid) ∧
    pool (r.2.drop hs.length) x ⟨v, none⟩

/-- It does what it should, if it is `fit`. -/
structure Obeys (L : Api K V A X) (fit : A → Prop) : Prop where
  stops_iff : ∀ a x, L.spoils a x = true ↔ stops a x
  runs : ∀ {hs : List HMap} {p : List (Map K V)} {al : Alloc} {s : Heap K V}, (∀ m ∈ p, m.WF) → (lawful → ∀ m ∈ p, m.Valid) → (mem → al.Good) → s.Good →
    (pool hs p ∗ sched al) s.world → ∀ a, fit a → RunsTo (fun _ => lawful → ¬ mem) (L.run hs a) (DoneWith lawful mem right stops p a) s
  needs : ∀ a, fit a → L.needs a = true → mem
  looks : ∀ ls a x ls', L.looks a = true → right ls a x ls' → right ls a x ls
  calm : ∀ a x, L.looks a = true → ¬ stops a x
  makes : ∀ {hs : List HMap} {p : List (Map K V)} {s : Heap K V}, (∀ m ∈ p, m.WF) → (lawful → ∀ m ∈ p, m.Valid) → (mem → s.alloc.Good) → s.Good →
    pool hs p ⟨s.cells, none⟩ → ∀ a, fit a → L.makes a = true → EndsWell (fun _ => lawful → ¬ mem) (Made lawful right hs p s.cells a) (L.run hs a s)

/-- What a thread leaves. -/
def TaskPost (psh : List (Map K V)) (ts : List (Turn A)) (ms : List (Map K V)) (r : List X × Bool × List HMap) (w : Cells K V) : Prop :=
  match r.2.1 with
  | true => ∃ ms' : List (Map K V), Turn.Rights right stops (psh.map Map.toList) ts (ms.map Map.toList) r.1 (ms'.map Map.toList) ∧ (∀ m ∈ ms', m.WF) ∧ pool r.2.2 ms' ⟨w, none⟩
  | false => (lawful → ¬ mem) ∧ ∃ ts1 a ts2 xs1 x ls, ts = ts1 ++ .own a :: ts2 ∧ r.1 = xs1 ++ [x] ∧ Turn.Rights right stops (psh.map Map.toList) ts1 (ms.map Map.toList) xs1 ls ∧ stops a x

variable {right stops lawful mem} {L : Api K V A X} {fit : A → Prop}

theorem world_sched {P : HProp K V} {c : Cells K V} (h : P ⟨c, none⟩) (next : Nat) (al : Alloc) (pl : Nat → Addr) : (P ∗ sched al) (⟨c, next, al, pl⟩ : Heap K V).world :=
  ⟨⟨c, none⟩, ⟨fun _ => none, some al⟩, ⟨fun x => .inr rfl, .inl rfl⟩, by simp [World.union, Heap.world], h, rfl⟩

theorem RunsTo.ends {β : Type} {m : HM K V β} {Qb : β → HProp K V} {s : Heap K V} (h : RunsTo E m Qb s) {F : β → Cells K V → Prop}
    (hF : ∀ r s', Qb r (Heap.world s') → F r s'.cells) : EndsWell E F (m s) := by
  unfold RunsTo at h
  cases hm : m s with
  | ok x => rw [hm] at h; exact hF _ _ h.2
  | ub => rw [hm] at h; exact h
  | panic msg => rw [hm] at h; exact h

theorem task_fine {d : List HMap → A → Prog K V (X × List HMap)} (hd : L.TakesApart d) (hO : Obeys lawful mem right stops L fit) {sh : List HMap} {psh : List (Map K V)} (hps : ∀ m ∈ psh, m.WF)
    (hpv : lawful → ∀ m ∈ psh, m.Valid) (hro : pool sh psh ⟨ro, none⟩) (hrb : Low ro) :
    ∀ (ts : List (Turn A)) {own : List HMap} {ms : List (Map K V)} {w : Cells K V}, (∀ t ∈ ts, t.Ok L.looks L.makes ∧ fit (Turn.act t)) →
    (∀ m ∈ ms, m.WF) → (lawful → ∀ m ∈ ms, m.Valid) → pool own ms ⟨w, none⟩ → Low w → Apart w ro →
    (L.thread d sh ts own).Fine ro mem (fun _ => lawful → ¬ mem) (TaskPost lawful mem right stops psh ts ms) w
  | [], own, ms, w, _, hm, hv, hw, hb, har => ⟨ms, ⟨rfl, rfl⟩, hm, hw⟩
  | .own a :: ts, own, ms, w, hc, hm, hv, hw, hb, har => by
    obtain ⟨n, hb'⟩ := hb
    have hfit : fit a := (hc (.own a) (by simp)).2
    have h2 := fine_of_whole (ro := ro) (mem := mem) (E := fun _ => lawful → ¬ mem) (t := d own a) (F := fun r c => (stops a r.1 ∧ (lawful → ¬ mem)) ∨
        ∃ ms' : List (Map K V), ¬ stops a r.1 ∧ right (ms.map Map.toList) a r.1 (ms'.map Map.toList) ∧ (∀ m ∈ ms', m.WF) ∧ (lawful → ∀ m ∈ ms', m.Valid) ∧ pool r.2 ms' ⟨c, none⟩) hb'
      fun next al pl hn ha => by
        rw [hd.whole]
        refine (hO.runs hm hv ha (below_good (below_later hb' hn)) (world_sched hw next al pl) a hfit).ends ?_
        rintro r s' ⟨y, hy⟩
        cases y with
        | none => exact .inl (fact_sep.1 hy).1
        | some y =>
          obtain ⟨h1, h2⟩ := fact_sep.1 hy
          exact .inr ⟨y.1, h1.1, h1.2.1, h1.2.2.1, h1.2.2.2, sched_off h2⟩
    unfold Api.thread
    refine ((h2.low ⟨n, hb'⟩).beside har).bind ?_
    rintro ⟨o, own'⟩ w ⟨⟨h3, hb⟩, har⟩
    dsimp only at h3 ⊢
    rcases h3 with ⟨h3, h4⟩ | ⟨ms', h3, h4, h5, h6, h7⟩
    · rw [if_pos ((hO.stops_iff a o).2 h3)]
      exact ⟨h4, [], a, ts, [], o, _, rfl, rfl, ⟨rfl, rfl⟩, h3⟩
    · rw [if_neg fun h => h3 ((hO.stops_iff a o).1 h)]
      refine Prog.Fine.bind (task_fine hd hO hps hpv hro hrb ts (fun c h => hc c (by simp [h])) h5 h6 h7 hb har) ?_
      rintro ⟨xs, b, p⟩ w h8
      cases b with
      | true =>
        obtain ⟨ms2, g1, g2, g3⟩ := h8
        exact ⟨ms2, ⟨o, xs, _, rfl, h4, h3, g1⟩, g2, g3⟩
      | false =>
        obtain ⟨g0, ts1, a1, ts2, xs1, x, ls, g1, g2, g3, g4⟩ := h8
        refine ⟨g0, .own a :: ts1, a1, ts2, o :: xs1, x, ls, by rw [g1]; rfl, ?_, ⟨o, xs1, _, rfl, h4, h3, g3⟩, g4⟩
        show o :: xs = _
        rw [show xs = xs1 ++ [x] from g2]; rfl
  | .look a :: ts, own, ms, w, hc, hm, hv, hw, hb, har => by
    have hfit : fit a := (hc (.look a) (by simp)).2
    have hlook : L.looks a = true := (hc (.look a) (by simp)).1
    obtain ⟨n, hb'⟩ := below_both hrb hb
    have hall : pool (sh ++ own) (psh ++ ms) ⟨both ro w, none⟩ := pool_join _ (cells_sep hro hw fun x => (har x).symm)
    have hwf : ∀ m ∈ psh ++ ms, m.WF := fun m h => (List.mem_append.1 h).elim (hps m) (hm m)
    have hval : lawful → ∀ m ∈ psh ++ ms, m.Valid := fun hl m h => (List.mem_append.1 h).elim (hpv hl m) (hv hl m)
    have h1 := fine_of_looks (mem := mem) (w := fun _ => none) (hd.looks (sh ++ own) a hlook) (s := ⟨both ro w, n, fun _ => true, fun _ => 0⟩) rfl
      (F := fun r => right ((psh ++ ms).map Map.toList) a r.1 ((psh ++ ms).map Map.toList)) (E := fun _ => lawful → ¬ mem) (by
        rw [hd.whole]
        refine (hO.runs hwf hval (al := fun _ => true) (fun _ _ => rfl) (below_good hb') (world_sched hall n _ _) a hfit).ends ?_
        rintro r s' ⟨y, hy⟩
        cases y with
        | none => exact absurd (fact_sep.1 hy).1.1 (hO.calm a r.1 hlook)
        | some y => exact hO.looks _ _ _ _ hlook (fact_sep.1 hy).1.2.1)
    have h2 := h1.widen fun x => .inl rfl
    rw [both_none_left] at h2
    unfold Api.thread
    refine h2.bind ?_
    rintro r u ⟨v', _, rfl, h3, rfl⟩
    rw [both_none_left]
    refine Prog.Fine.bind (task_fine hd hO hps hpv hro hrb ts (fun c h => hc c (by simp [h])) hm hv hw hb har) ?_
    rw [List.map_append] at h3
    rintro ⟨xs, b, p⟩ w h8
    cases b with
    | true =>
      obtain ⟨ms2, g1, g2, g3⟩ := h8
      exact ⟨ms2, ⟨r.1, xs, rfl, h3, g1⟩, g2, g3⟩
    | false =>
      obtain ⟨g0, ts1, a1, ts2, xs1, x, ls, g1, g2, g3, g4⟩ := h8
      refine ⟨g0, .look a :: ts1, a1, ts2, r.1 :: xs1, x, ls, by rw [g1]; rfl, ?_, ⟨r.1, xs1, rfl, h3, g3⟩, g4⟩
      show r.1 :: xs = _
      rw [show xs = xs1 ++ [x] from g2]; rfl
  | .copy a :: ts, own, ms, w, hc, hm, hv, hw, hb, har => by
    have hfit : fit a := (hc (.copy a) (by simp)).2
    have hmk : L.makes a = true := (hc (.copy a) (by simp)).1
    obtain ⟨n, hb'⟩ := below_both hrb hb
    have hall : pool (sh ++ own) (psh ++ ms) ⟨both ro w, none⟩ := pool_join _ (cells_sep hro hw fun x => (har x).symm)
    have hwf : ∀ m ∈ psh ++ ms, m.WF := fun m h => (List.mem_append.1 h).elim (hps m) (hm m)
    have hval : lawful → ∀ m ∈ psh ++ ms, m.Valid := fun hl m h => (List.mem_append.1 h).elim (hpv hl m) (hv hl m)
    have h1 := fine_of_spares (ro := both ro w) (mem := mem) (n := n) (w := fun _ => none) (v := fun _ => none) (t := d (sh ++ own) a) (E := fun _ => lawful → ¬ mem)
      (F := Made lawful right (sh ++ own) (psh ++ ms) (both ro w) a) (fun _ => .inl rfl) (fun _ => .inl rfl)
      fun next al pl hn ha => by
        rw [both_none_left, hd.whole]
        have hg : (⟨both ro w, next, al, pl⟩ : Heap K V).Good := below_good (below_later hb' hn)
        exact ⟨hO.makes hwf hval ha hg hall a hfit hmk, hd.spares hg ⟨_, hwf, hall⟩ a hmk fun h => ha (hO.needs a hfit h)⟩
    rw [both_none_left] at h1
    have h2 := h1.widen fun x => .inl rfl
    rw [both_none_left] at h2
    unfold Api.thread
    refine ((h2.low hb).beside har).bind ?_
    rintro ⟨o, p⟩ u ⟨⟨⟨v', hvw, rfl, v, g1, _, e1, v2, x, g3, g4, g5, g6, g7, g8⟩, hb'⟩, har'⟩
    rw [both_none_left] at e1
    subst e1
    obtain rfl := both_inj g1 g3 g4
    dsimp only at g5 g8 ⊢
    have hm' : ∀ m ∈ ms ++ x, m.WF := fun m h => (List.mem_append.1 h).elim (hm m) (g6 m)
    have hv' : lawful → ∀ m ∈ ms ++ x, m.Valid := fun hl m h => (List.mem_append.1 h).elim (hv hl m) (g7 hl m)
    have hp' : pool (own ++ p.drop (sh ++ own).length) (ms ++ x) ⟨both v' w, none⟩ := by
      rw [both_comm hvw]
      exact pool_join _ (cells_sep hw g8 fun x => (hvw x).symm)
    refine Prog.Fine.bind (task_fine hd hO hps hpv hro hrb ts (fun c h => hc c (by simp [h])) hm' hv' hp' hb' har') ?_
    simp only [List.map_append] at g5
    rintro ⟨xs, b, p⟩ w h8
    cases b with
    | true =>
      obtain ⟨ms2, e1, e2, e3⟩ := h8
      rw [List.map_append] at e1
      exact ⟨ms2, ⟨o, xs, x.map Map.toList, rfl, g5, e1⟩, e2, e3⟩
    | false =>
      obtain ⟨e0, ts1, a1, ts2, xs1, y, ls, e1, e2, e3, e4⟩ := h8
      rw [List.map_append] at e3
      refine ⟨e0, .copy a :: ts1, a1, ts2, o :: xs1, y, ls, by rw [e1]; rfl, ?_, ⟨o, xs1, x.map Map.toList, rfl, g5, e3⟩, e4⟩
      show o :: xs = _
      rw [show xs = xs1 ++ [y] from e2]; rfl

omit [Ord K] in
/-- A thread by itself is what it does in a row. -/
theorem task_whole {d : List HMap → A → Prog K V (X × List HMap)} (hd : L.TakesApart d) (sh : List HMap) : ∀ (ts : List (Turn A)) (p : List HMap),
    (L.thread d sh ts p).whole = L.alone sh ts p
  | [], p => rfl
  | .own a :: ts, p => by
    unfold Api.thread Api.alone
    rw [Prog.whole_bind, hd.whole]
    congr 1; funext r
    split
    · rfl
    · rw [Prog.whole_bind, task_whole hd sh ts r.2]
      rfl
  | .look a :: ts, p => by
    unfold Api.thread Api.alone
    rw [Prog.whole_bind, hd.whole]
    congr 1; funext r
    rw [Prog.whole_bind, task_whole hd sh ts p]
    rfl
  | .copy a :: ts, p => by
    unfold Api.thread Api.alone
    rw [Prog.whole_bind, hd.whole]
    congr 1; funext r
    rw [Prog.whole_bind, task_whole hd sh ts _]
    rfl

/-! ### how they start -/

/-- What thread number `j` should leave. -/
def TaskLeft [Ord K] (lawful mem : Prop) (right : List (List (K × V)) → A → X → List (List (K × V)) → Prop) (stops : A → X → Prop) (psh : List (Map K V)) (tasks : List (Worker A))
    (mss : List (List (Map K V))) (j : Nat) (r : List X × Bool × List HMap) (w : Cells K V) : Prop :=
  ∀ t mj, tasks[j]? = some t → mss[j]? = some mj → TaskPost lawful mem right stops psh t.turns mj r w

theorem tasks_start {d : List HMap → A → Prog K V (X × List HMap)} (hd : L.TakesApart d) (hO : Obeys lawful mem right stops L fit) {s : Heap K V} (hg : s.Good) (hmem : mem → s.alloc.Good)
    {sh : List HMap} {tasks : List (Worker A)} {ms : List (Map K V)} (hms : ∀ m ∈ ms, m.WF) (hmv : lawful → ∀ m ∈ ms, m.Valid) (hp : pool (sh ++ given tasks) ms ⟨s.cells, none⟩)
    (hok : ∀ t ∈ tasks, ∀ c ∈ t.turns, c.Ok L.looks L.makes ∧ fit (Turn.act c)) :
    ∃ psh mss w, ms = psh ++ mss.flatten ∧ psh.length = sh.length ∧ mss.map List.length = tasks.map (·.maps.length) ∧ pool sh psh ⟨s.only sh, none⟩ ∧
      (∀ (j : Nat) t, tasks[j]? = some t → w j = s.only t.maps) ∧
      Going (s.only sh) mem (fun _ => lawful → ¬ mem) (TaskLeft lawful mem right stops psh tasks mss) s (L.spawn d sh tasks) w (L.spawn d sh tasks) s w := by
  obtain ⟨psh, m2, rfl, hl, h1⟩ := pool_append hp
  obtain ⟨ro, c2, h2, h3, h4, hc⟩ := sep_cells h1
  obtain ⟨mss, w, rfl, e2, e3, e4, e5, e6, e7⟩ := pool_parts h3
  have hlook : ∀ x nd, ro x = some nd → s.cells x = some nd := fun x nd hx => by rw [hc]; unfold both; rw [hx]; rfl
  have hmine : ∀ j x nd, w j x = some nd → s.cells x = some nd := fun j x nd hx => by
    rw [hc]
    unfold both
    rcases h4 x with h | h
    · rw [h, e6 j x nd hx]; rfl
    · rw [e6 j x nd hx] at h; cases h
  have haside : ∀ j x, w j x = none ∨ ro x = none := fun j x => by
    cases hx : w j x with
    | none => exact .inl rfl
    | some nd => exact .inr ((h4 x).resolve_right (by rw [e6 j x nd hx]; simp))
  have hbelow : ∀ c : Cells K V, (∀ x nd, c x = some nd → s.cells x = some nd) → Low c := fun c hcs =>
    have : ∀ x, s.cells x = none → c x = none := fun x hx => by
      cases h : c x with
      | none => rfl
      | some nd => rw [hcs x nd h] at hx; cases hx
    ⟨s.next, fun x hx => this x (hg.1 x hx), this _ hg.2.1, hg.2.2⟩
  have hlen : (L.spawn d sh tasks).length = tasks.length := by simp [Api.spawn]
  have hmsl : mss.length = tasks.length := by
    have := congrArg List.length e2
    simpa using this
  have hro : ro = s.only sh := pool_only h2 hlook
  subst hro
  have hown : ∀ (j : Nat) t mj, tasks[j]? = some t → mss[j]? = some mj → pool t.maps mj ⟨w j, none⟩ := fun j t mj hj hmj =>
    e3 j t.maps mj (by rw [List.getElem?_map, hj]; rfl) hmj
  refine ⟨psh, mss, w, rfl, hl, ?_, h2, fun j t hj => ?_, ?_⟩
  · rw [e2, List.map_map]; rfl
  · have hjl := (List.getElem?_eq_some_iff.1 hj).1
    exact pool_only (hown j t mss[j] hj (by rw [List.getElem?_eq_getElem])) (hmine j)
  · constructor
    · rfl
    · exact hg
    · exact hmem
    · exact Nat.le_refl _
    · intro j t ht
      rw [show (L.spawn d sh tasks)[j]? = (tasks[j]?).map fun t => L.thread d sh t.turns t.maps from List.getElem?_map ..] at ht
      obtain ⟨task, hj, rfl⟩ := Option.map_eq_some_iff.1 ht
      have hjl := (List.getElem?_eq_some_iff.1 hj).1
      have hmj : mss[j]? = some mss[j] := by rw [List.getElem?_eq_getElem]
      have hin : ∀ m ∈ mss[j], m ∈ psh ++ mss.flatten := fun m hm => by
        rw [List.mem_append]; exact .inr (List.mem_flatten.2 ⟨mss[j], List.getElem_mem _, hm⟩)
      refine (task_fine hd hO (fun m hm => hms m (by simp [hm])) (fun hl m hm => hmv hl m (by simp [hm])) h2 (hbelow _ hlook) task.turns (hok task (List.mem_of_getElem? hj))
        (fun m hm => hms m (hin m hm)) (fun hl m hm => hmv hl m (hin m hm)) (hown j task mss[j] hj hmj) (hbelow _ (hmine j)) (haside j)).weaken (fun _ h => h) ?_
      intro r w h t' mj' hj' hmj'
      rw [hj] at hj'
      rw [hmj] at hmj'
      cases hj'; cases hmj'
      exact h
    · exact hmine
    · exact hlook
    · exact e4
    · exact haside
    · intro x nd hx
      rw [hc] at hx
      unfold both at hx
      cases hr : s.only sh x with
      | some n => exact .inl (by simp)
      | none =>
        rw [hr] at hx
        exact .inr (e7 x nd hx)
    · intro j x hj
      rw [hlen] at hj
      exact e5 j x (by simpa using hj)
    · intro j t t₀ ht ht0 next' al' pl' hn ha
      rw [ht] at ht0
      cases ht0
      exact ⟨next', al', pl', hn, ha, rfl⟩

end Verif.Heap
