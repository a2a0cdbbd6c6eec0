import Verif.Heap.Panics
import Verif.Heap.Proofs.UnwindOps
import Verif.Heap.Proofs.UnwindSplit
/-
`append` in which a destructor panics does what `append` does in which a comparison panics, up to the order in which what is left is dropped.
-/
namespace Verif.Heap
open Verif
open Verif.BTree (Why)

variable {K V α β γ δ : Type}

/-- The same end, in the same memory, with related results. -/
def SameEnd (R : α → β → Prop) : Exec (α × Heap K V) → Exec (β × Heap K V) → Prop
  | .ok x, .ok y => R x.1 y.1 ∧ x.2 = y.2
  | .panic a, .panic b => a = b
  | .ub, .ub => True
  | _, _ => False

theorem SameEnd.bind {R : α → β → Prop} {S : γ → δ → Prop} {m : HM K V α} {n : HM K V β} {f : α → HM K V γ} {g : β → HM K V δ} {s : Heap K V}
    (h : SameEnd R (m s) (n s)) (hf : ∀ a b s, R a b → SameEnd S (f a s) (g b s)) : SameEnd S ((m >>= f) s) ((n >>= g) s) := by
  rw [bind_run, bind_run]
  generalize m s = x, n s = y at h ⊢
  cases x <;> cases y <;> simp only [SameEnd] at h ⊢
  · rename_i a b
    obtain ⟨a, s1⟩ := a
    obtain ⟨b, s2⟩ := b
    obtain ⟨h, h'⟩ := h
    dsimp only at h'
    subst h'
    exact hf a b s1 h
  · exact h

theorem SameEnd.same {S : γ → δ → Prop} {m : HM K V α} {f : α → HM K V γ} {g : α → HM K V δ} {s : Heap K V}
    (hf : ∀ a s, SameEnd S (f a s) (g a s)) : SameEnd S ((m >>= f) s) ((m >>= g) s) := by
  rw [bind_run, bind_run]
  cases m s with
  | ok x => exact hf x.1 x.2
  | panic _ => rfl
  | ub => trivial

theorem Peek.peek_peeked {p : Peek K V} {s : Heap K V} {x : Option (K × V)} {q : Peek K V} {s' : Heap K V} (h : p.peek s = .ok ((x, q), s')) :
    q.peeked = some x := by
  unfold Peek.peek at h
  cases hp : p.peeked with
  | some y =>
    rw [hp] at h
    injection h with h
    injection h with h _
    injection h with h1 h2
    rw [← h1, ← h2, hp]
  | none =>
    rw [hp] at h
    dsimp only at h
    rw [bind_run] at h
    generalize p.it.next p.bnd s = z at h
    cases z with
    | ok z =>
      injection h with h
      injection h with h _
      injection h with h1 h2
      rw [← h1, ← h2]
    | panic _ => cases h
    | ub => cases h

theorem Peek.next_peeked {p : Peek K V} {x : Option (K × V)} (h : p.peeked = some x) : p.next = (pure (x, { p with peeked := none }) : HM K V _) := by
  unfold Peek.next
  rw [h]

/-- Related answers of the merging iterators when the call goes on. -/
def NextRel (f : Nat) (x : Option (Option (K × V) × Nat) × List (K × V) × HMerge K V) (y : Option (Option (K × V) × List (K × V) × Nat) × HMerge K V) : Prop :=
  ∃ kv c d m, x = (some (kv, c), d, m) ∧ y = (some (kv, d, f), m)

/-- Related answers when the call unwinds. -/
def StopRel (x : Option (Option (K × V) × Nat) × List (K × V) × HMerge K V) (y : Option (Option (K × V) × List (K × V) × Nat) × HMerge K V) : Prop :=
  ∃ u m, m.left.peeked = some (some u) ∧ x = (none, [u], ⟨{ m.left with peeked := none }, m.right⟩) ∧ y = (none, m)

theorem nextD_sim [Ord K] (m : HMerge K V) (calm : Nat) (s : Heap K V) :
    (∃ e, ∀ f, SameEnd (NextRel f) (m.nextD calm s) (m.nextU (f + e) s)) ∨ SameEnd StopRel (m.nextD calm s) (m.nextU 0 s) := by
  unfold HMerge.nextD HMerge.nextU
  simp only [bind_run (m := m.left.peek)]
  cases ha : m.left.peek s with
  | panic e => exact .inl ⟨0, fun _ => rfl⟩
  | ub => exact .inl ⟨0, fun _ => trivial⟩
  | ok a =>
    obtain ⟨⟨a1, a2⟩, s1⟩ := a
    have hpa := Peek.peek_peeked ha
    dsimp only
    simp only [bind_run (m := m.right.peek)]
    cases hb : m.right.peek s1 with
    | panic e => exact .inl ⟨0, fun _ => rfl⟩
    | ub => exact .inl ⟨0, fun _ => trivial⟩
    | ok b =>
      obtain ⟨⟨b1, b2⟩, s2⟩ := b
      have hpb := Peek.peek_peeked hb
      dsimp only
      rw [Peek.next_peeked hpa, Peek.next_peeked hpb]
      cases a1 with
      | none =>
        cases b1 with
        | none => exact .inl ⟨0, fun f => ⟨⟨none, calm, [], _, rfl, rfl⟩, rfl⟩⟩
        | some v => exact .inl ⟨0, fun f => ⟨⟨some v, calm, [], _, rfl, rfl⟩, rfl⟩⟩
      | some u =>
        cases b1 with
        | none => exact .inl ⟨0, fun f => ⟨⟨some u, calm, [], _, rfl, rfl⟩, rfl⟩⟩
        | some v =>
          dsimp only
          cases hc : compare u.1 v.1 with
          | lt => exact .inl ⟨1, fun f => ⟨⟨some u, calm, [], _, rfl, rfl⟩, rfl⟩⟩
          | gt => exact .inl ⟨1, fun f => ⟨⟨some v, calm, [], _, rfl, rfl⟩, rfl⟩⟩
          | eq =>
            cases calm with
            | zero => exact .inr ⟨⟨u, ⟨a2, b2⟩, hpa, rfl, rfl⟩, rfl⟩
            | succ calm => exact .inl ⟨1, fun f => ⟨⟨some v, calm, [u], _, rfl, rfl⟩, rfl⟩⟩

/-- How the two kinds of panic correspond. -/
def Stop.ofWhy : Option Why → Stop
  | none => .done
  | some .cmp => .drop
  | some .mem => .mem

/-- Related ends of the two loops. -/
def EndRel (x : Stop × BuildingD K V) (y : Option Why × BuildingU K V) : Prop :=
  x.1 = Stop.ofWhy y.1 ∧ x.2.root = y.2.root ∧ x.2.length = y.2.length ∧ x.2.iter.right = y.2.iter.right ∧
  ((x.2.iter.left = y.2.iter.left ∧ x.2.dropped = y.2.dropped) ∨
   ∃ u, y.2.iter.left.peeked = some (some u) ∧ x.2.iter.left = { y.2.iter.left with peeked := none } ∧ x.2.dropped = y.2.dropped ++ [u])

/-- Related rounds. -/
def LoopRel : BuildingD K V ⊕ (Stop × BuildingD K V) → BuildingU K V ⊕ (Option Why × BuildingU K V) → Prop
  | .inl _, .inl _ => True
  | .inr x, .inr y => EndRel x y
  | _, _ => False

theorem SameEnd.mono {R S : α → β → Prop} (h : ∀ a b, R a b → S a b) {x : Exec (α × Heap K V)} {y : Exec (β × Heap K V)} (hx : SameEnd R x y) : SameEnd S x y := by
  cases x <;> cases y <;> simp only [SameEnd] at hx ⊢
  · exact ⟨h _ _ hx.1, hx.2⟩
  · exact hx

theorem buildLoop_sim [Ord K] : ∀ (n : Nat) (it : HMerge K V) (root cur : NRef) (len calm : Nat) (d : List (K × V)) (s : Heap K V),
    ∃ f, SameEnd LoopRel (loopN buildStepD n ⟨it, root, cur, len, calm, d⟩ s) (loopN buildStepU n ⟨it, root, cur, len, f, d⟩ s)
  | 0, it, root, cur, len, calm, d, s => ⟨0, trivial, rfl⟩
  | n + 1, it, root, cur, len, calm, d, s => by
    have key : ∀ f, loopN buildStepU (n + 1) ⟨it, root, cur, len, f, d⟩ = (it.nextU f >>= fun x => (match x.1 with
        | none => pure (.inr (some .cmp, ⟨x.2, root, cur, len, f, d⟩))
        | some (none, d', f') => pure (.inr (none, ⟨x.2, root, cur, len, f', d ++ d'⟩))
        | some (some kv, d', f') => sortedPushU root cur kv >>= fun r => (match r.1 with
          | some c => loopN buildStepU n ⟨x.2, r.2, c, len + 1, f', d ++ d'⟩
          | none => pure (.inr (some .mem, ⟨x.2, r.2, cur, len, f', d ++ d' ++ [kv]⟩)))
        : HM K V (BuildingU K V ⊕ (Option Why × BuildingU K V)))) := by
      intro f
      show (buildStepU _ >>= _) = _
      unfold buildStepU
      rw [hm_assoc]
      refine bind_congr fun x => ?_
      obtain ⟨x1, x2⟩ := x
      rcases x1 with _ | ⟨_ | kv, d', f'⟩
      · rfl
      · rfl
      · dsimp only
        rw [hm_assoc]
        refine bind_congr fun r => ?_
        obtain ⟨r1, r2⟩ := r
        cases r1 <;> rfl
    have keyD : loopN buildStepD (n + 1) ⟨it, root, cur, len, calm, d⟩ = (it.nextD calm >>= fun x => (match x.1 with
        | none => pure (.inr (.drop, ⟨x.2.2, root, cur, len, calm, d ++ x.2.1⟩))
        | some (none, c') => pure (.inr (.done, ⟨x.2.2, root, cur, len, c', d ++ x.2.1⟩))
        | some (some kv, c') => sortedPushU root cur kv >>= fun r => (match r.1 with
          | some c => loopN buildStepD n ⟨x.2.2, r.2, c, len + 1, c', d ++ x.2.1⟩
          | none => pure (.inr (.mem, ⟨x.2.2, r.2, cur, len, c', d ++ x.2.1 ++ [kv]⟩)))
        : HM K V (BuildingD K V ⊕ (Stop × BuildingD K V)))) := by
      show (buildStepD _ >>= _) = _
      unfold buildStepD
      rw [hm_assoc]
      refine bind_congr fun x => ?_
      obtain ⟨x1, x2, x3⟩ := x
      rcases x1 with _ | ⟨_ | kv, c'⟩
      · rfl
      · rfl
      · dsimp only
        rw [hm_assoc]
        refine bind_congr fun r => ?_
        obtain ⟨r1, r2⟩ := r
        cases r1 <;> rfl
    rw [keyD]
    rcases nextD_sim it calm s with ⟨e, hx⟩ | hx
    · -- the answer, which does not depend on the number of comparisons left
      rw [bind_run]
      cases hd : it.nextD calm s with
      | panic msg =>
        refine ⟨0 + e, ?_⟩
        rw [key, bind_run]
        have := hx 0
        rw [hd] at this
        generalize it.nextU (0 + e) s = y at this ⊢
        cases y <;> first | exact this | exact this.elim
      | ub =>
        refine ⟨0 + e, ?_⟩
        rw [key, bind_run]
        have := hx 0
        rw [hd] at this
        generalize it.nextU (0 + e) s = y at this ⊢
        cases y <;> first | exact this | exact this.elim
      | ok x =>
        obtain ⟨x, s1⟩ := x
        dsimp only
        have h0 := hx 0
        rw [hd] at h0
        generalize it.nextU (0 + e) s = y at h0
        cases y <;> simp only [SameEnd] at h0
        obtain ⟨⟨kv, c', d', m', rfl, h0⟩, -⟩ := h0
        have hu : ∀ f, it.nextU (f + e) s = .ok ((some (kv, d', f), m'), s1) := by
          intro f
          have := hx f
          rw [hd] at this
          generalize it.nextU (f + e) s = y at this ⊢
          cases y <;> simp only [SameEnd] at this
          obtain ⟨⟨_, _, _, _, e1, e2⟩, e3⟩ := this
          cases e1
          rename_i y
          obtain ⟨y, t⟩ := y
          cases e2
          cases e3
          rfl
        clear hx h0
        cases kv with
        | none =>
          refine ⟨0 + e, ?_⟩
          rw [key, bind_run, hu]
          exact ⟨⟨rfl, rfl, rfl, rfl, .inl ⟨rfl, rfl⟩⟩, rfl⟩
        | some kv =>
          dsimp only
          rw [bind_run]
          cases hp : sortedPushU root cur kv s1 with
          | panic msg =>
            refine ⟨0 + e, ?_⟩
            rw [key, bind_run, hu]
            dsimp only
            rw [bind_run, hp]
            rfl
          | ub =>
            refine ⟨0 + e, ?_⟩
            rw [key, bind_run, hu]
            dsimp only
            rw [bind_run, hp]
            trivial
          | ok r =>
            obtain ⟨⟨r1, r2⟩, s2⟩ := r
            cases r1 with
            | none =>
              refine ⟨0 + e, ?_⟩
              rw [key, bind_run, hu]
              dsimp only
              rw [bind_run, hp]
              exact ⟨⟨rfl, rfl, rfl, rfl, .inl ⟨rfl, rfl⟩⟩, rfl⟩
            | some c =>
              dsimp only
              obtain ⟨f, ih⟩ := buildLoop_sim n m' r2 c (len + 1) c' (d ++ d') s2
              refine ⟨f + e, ?_⟩
              rw [key, bind_run, hu]
              dsimp only
              rw [bind_run, hp]
              exact ih
    · refine ⟨0, ?_⟩
      rw [key]
      refine SameEnd.bind hx fun a b s1 hr => ?_
      obtain ⟨u, m', h1, rfl, rfl⟩ := hr
      exact ⟨⟨rfl, rfl, rfl, rfl, .inr ⟨u, h1, rfl, rfl⟩⟩, rfl⟩

theorem nextD_calm [Ord K] {m m' : HMerge K V} {calm : Nat} {s s' : Heap K V} {x : Option (Option (K × V) × Nat)} {d : List (K × V)}
    (h : m.nextD calm s = .ok ((x, d, m'), s')) : (x = none → calm < d.length) ∧ (∀ kv c, x = some (kv, c) → c + d.length = calm) := by
  unfold HMerge.nextD at h
  rw [bind_run] at h
  cases ha : m.left.peek s with
  | panic e => rw [ha] at h; cases h
  | ub => rw [ha] at h; cases h
  | ok a =>
    obtain ⟨⟨a1, a2⟩, s1⟩ := a
    have hpa := Peek.peek_peeked ha
    rw [ha] at h
    dsimp only at h
    rw [bind_run] at h
    cases hb : m.right.peek s1 with
    | panic e => rw [hb] at h; cases h
    | ub => rw [hb] at h; cases h
    | ok b =>
      obtain ⟨⟨b1, b2⟩, s2⟩ := b
      have hpb := Peek.peek_peeked hb
      rw [hb] at h
      dsimp only at h
      rw [Peek.next_peeked hpa, Peek.next_peeked hpb] at h
      have done : ∀ {y : Option (K × V)} {q : HMerge K V} {t : Heap K V}, (Exec.ok ((some (y, calm), [], q), t) : Exec ((Option (Option (K × V) × Nat) × List (K × V) × HMerge K V) × Heap K V)) =
          .ok ((x, d, m'), s') → (x = none → calm < d.length) ∧ (∀ kv c, x = some (kv, c) → c + d.length = calm) := by
        intro y q t h
        simp only [Exec.ok.injEq, Prod.mk.injEq] at h
        obtain ⟨⟨rfl, rfl, _⟩, _⟩ := h
        refine ⟨by simp, fun kv c e => ?_⟩
        simp only [Option.some.injEq, Prod.mk.injEq] at e
        simp [e.2]
      cases a1 with
      | none =>
        cases b1 with
        | none => exact done h
        | some v => exact done h
      | some u =>
        cases b1 with
        | none => exact done h
        | some v =>
          dsimp only at h
          cases hc : compare u.1 v.1 with
          | lt => rw [hc] at h; exact done h
          | gt => rw [hc] at h; exact done h
          | eq =>
            rw [hc] at h
            cases calm with
            | zero =>
              injection h with h
              injection h with h _
              simp only [Prod.mk.injEq] at h
              obtain ⟨rfl, rfl, _⟩ := h
              exact ⟨by simp, by simp⟩
            | succ calm =>
              injection h with h
              injection h with h _
              simp only [Prod.mk.injEq] at h
              obtain ⟨rfl, rfl, _⟩ := h
              refine ⟨by simp, fun kv c e => ?_⟩
              simp only [Option.some.injEq, Prod.mk.injEq] at e
              simp [e.2]

/-- When a destructor panics, all those that were to return have run. -/
theorem buildLoop_calm [Ord K] : ∀ {n : Nat} {it : HMerge K V} {root cur : NRef} {len calm : Nat} {d : List (K × V)} {s s' : Heap K V} {x : BuildingD K V},
    loopN buildStepD n ⟨it, root, cur, len, calm, d⟩ s = .ok (.inr (.drop, x), s') → d.length + calm < x.dropped.length
  | 0, it, root, cur, len, calm, d, s, s', x, h => by cases h
  | n + 1, it, root, cur, len, calm, d, s, s', x, h => by
    have h : (buildStepD ⟨it, root, cur, len, calm, d⟩ >>= _) s = _ := h
    unfold buildStepD at h
    rw [hm_assoc, bind_run] at h
    dsimp only at h
    cases hd : it.nextD calm s with
    | panic e => rw [hd] at h; cases h
    | ub => rw [hd] at h; cases h
    | ok a =>
      obtain ⟨⟨a1, a2, a3⟩, s1⟩ := a
      obtain ⟨q1, q2⟩ := nextD_calm hd
      rw [hd] at h
      dsimp only at h
      rcases a1 with _ | ⟨_ | kv, c⟩
      · injection h with h
        injection h with h _
        injection h with h
        injection h with _ h
        rw [← h]
        have := q1 rfl
        simp only [List.length_append]
        omega
      · injection h with h
        injection h with h _
        injection h with h
        injection h with h
        cases h
      · dsimp only at h
        rw [hm_assoc, bind_run] at h
        have := q2 _ _ rfl
        cases hp : sortedPushU root cur kv s1 with
        | panic e => rw [hp] at h; cases h
        | ub => rw [hp] at h; cases h
        | ok r =>
          obtain ⟨⟨r1, r2⟩, s2⟩ := r
          rw [hp] at h
          cases r1 with
          | none =>
            injection h with h
            injection h with h _
            injection h with h
            injection h with h
            cases h
          | some c' =>
            have := buildLoop_calm (n := n) h
            simp only [List.length_append] at this
            omega

theorem fromSortedD_calm [Ord K] {m m' : HMap} {it : HMerge K V} {bnd calm : Nat} {s s' : Heap K V} {d : List (K × V)}
    (h : m.fromSortedIterD it bnd calm s = .ok ((.drop, m', d), s')) : calm < d.length := by
  unfold HMap.fromSortedIterD at h
  obtain ⟨r, s1, _, h⟩ := run_bind.1 h
  cases r with
  | none =>
    obtain ⟨_, _, _, h⟩ := run_bind.1 h
    obtain ⟨_, _, _, h⟩ := run_bind.1 h
    obtain ⟨h, _⟩ := run_pure.1 h
    cases h
  | some m1 =>
    obtain ⟨e, s2, _, h⟩ := run_bind.1 h
    obtain ⟨x, s3, hx, h⟩ := run_bind.1 h
    obtain ⟨y, s4, hy, h⟩ := run_bind.1 h
    obtain ⟨_, _, _, h'⟩ := run_bind.1 h
    clear h
    obtain ⟨_, _, _, h⟩ := run_bind.1 h'
    clear h'
    obtain ⟨h', _⟩ := run_pure.1 h
    clear h
    rcases x with x | x
    · cases hy
    · obtain ⟨rfl, rfl⟩ := run_pure.1 hy
      obtain ⟨x1, x2⟩ := x
      injection h' with h1 h
      injection h with _ h
      subst h
      dsimp only at h1
      subst h1
      have := buildLoop_calm hx
      simp only [List.length_append, List.length_nil] at this ⊢
      omega

theorem appendD_calm [Ord K] {m o m' o' : HMap} {calm : Nat} {s s' : Heap K V} {d : List (K × V)}
    (h : m.appendD o calm s = .ok ((.drop, m', o', d), s')) : calm < d.length := by
  unfold HMap.appendD at h
  split at h
  · obtain ⟨h, _⟩ := run_pure.1 h; cases h
  split at h
  · obtain ⟨h, _⟩ := run_pure.1 h; cases h
  obtain ⟨l, s1, _, h⟩ := run_bind.1 h
  obtain ⟨r, s2, _, h⟩ := run_bind.1 h
  obtain ⟨⟨n1, n2, n3⟩, s3, hn, h⟩ := run_bind.1 h
  cases n1 with
  | done =>
    obtain ⟨_, _, _, h⟩ := run_bind.1 h
    obtain ⟨h, _⟩ := run_pure.1 h
    cases h
  | drop =>
    obtain ⟨h, _⟩ := run_pure.1 h
    simp only [Prod.mk.injEq, true_and] at h
    rw [← h.2.2]
    exact fromSortedD_calm hn
  | iter => obtain ⟨h, _⟩ := run_pure.1 h; cases h
  | mem => obtain ⟨h, _⟩ := run_pure.1 h; cases h

/-- Related ends of the two calls of `append`. -/
def AppendRel (x : Stop × HMap × HMap × List (K × V)) (y : Option Why × HMap × HMap × List (K × V)) : Prop :=
  x.1 = Stop.ofWhy y.1 ∧ x.2.1 = y.2.1 ∧ x.2.2.1 = y.2.2.1 ∧ x.2.2.2.Perm y.2.2.2

theorem fromSortedD_sim [Ord K] (m : HMap) (it : HMerge K V) (bnd calm : Nat) (s : Heap K V) :
    ∃ f, SameEnd (fun (x : Stop × HMap × List (K × V)) (y : Option Why × HMap × List (K × V)) => x.1 = Stop.ofWhy y.1 ∧ x.2.1 = y.2.1 ∧ x.2.2.Perm y.2.2)
      (m.fromSortedIterD it bnd calm s) (m.fromSortedIterU it bnd f s) := by
  unfold HMap.fromSortedIterD HMap.fromSortedIterU
  simp only [bind_run (m := m.ensureRootIsOwned)]
  cases m.ensureRootIsOwned s with
  | panic _ => exact ⟨0, rfl⟩
  | ub => exact ⟨0, trivial⟩
  | ok r =>
    obtain ⟨r, s1⟩ := r
    cases r with
    | none =>
      refine ⟨0, ?_⟩
      exact SameEnd.same fun a s => SameEnd.same fun b s => ⟨⟨rfl, rfl, .refl _⟩, rfl⟩
    | some m =>
      dsimp only
      simp only [bind_run (m := lastLeafEdge m.root.height m.root.node)]
      cases lastLeafEdge m.root.height m.root.node s1 with
      | panic _ => exact ⟨0, rfl⟩
      | ub => exact ⟨0, trivial⟩
      | ok e =>
        obtain ⟨e, s2⟩ := e
        dsimp only
        obtain ⟨f, hf⟩ := buildLoop_sim (bnd + 1) it m.root e.ref m.length calm [] s2
        refine ⟨f, SameEnd.bind hf fun a b s3 hab => ?_⟩
        rcases a with a | ⟨a1, ⟨⟨al, ar⟩, aroot, acur, alen, ac, ad⟩⟩ <;> rcases b with b | ⟨b1, ⟨⟨bl, br⟩, broot, bcur, blen, bf, bd⟩⟩ <;> simp only [LoopRel] at hab
        · trivial
        · obtain ⟨h1, h2, h3, h4, h5⟩ := hab
          dsimp only at h1 h2 h3 h4 h5
          subst h2 h3 h4
          rw [ended, ended, pure_bind', pure_bind']
          dsimp only
          rcases h5 with ⟨rfl, rfl⟩ | ⟨u, h5, rfl, rfl⟩
          · exact SameEnd.same fun a s => SameEnd.same fun b s => ⟨⟨h1, rfl, .refl _⟩, rfl⟩
          · unfold Peek.drop
            rw [hm_assoc, hm_assoc]
            refine SameEnd.same fun l s => ?_
            rw [h5]
            dsimp only
            rw [pure_bind', pure_bind']
            refine SameEnd.same fun r s => ⟨⟨h1, rfl, ?_⟩, rfl⟩
            dsimp only
            refine List.Perm.append_right _ ?_
            rw [List.append_assoc]
            exact .append_left _ (List.perm_append_comm)

theorem appendD_sim [Ord K] (m o : HMap) (calm : Nat) (s : Heap K V) : ∃ f, SameEnd AppendRel (m.appendD o calm s) (m.appendU o f s) := by
  unfold HMap.appendD HMap.appendU
  by_cases h1 : o.length = 0
  · rw [if_pos h1]
    refine ⟨0, ?_⟩
    rw [if_pos h1]
    exact ⟨⟨rfl, rfl, rfl, .refl _⟩, rfl⟩
  simp only [if_neg h1]
  by_cases h2 : m.length = 0
  · rw [if_pos h2]
    refine ⟨0, ?_⟩
    rw [if_pos h2]
    exact ⟨⟨rfl, rfl, rfl, .refl _⟩, rfl⟩
  simp only [if_neg h2]
  simp only [bind_run (m := m.intoIter)]
  cases m.intoIter s with
  | panic _ => exact ⟨0, rfl⟩
  | ub => exact ⟨0, trivial⟩
  | ok l =>
    obtain ⟨l, s1⟩ := l
    dsimp only
    simp only [bind_run (m := o.intoIter)]
    cases o.intoIter s1 with
    | panic _ => exact ⟨0, rfl⟩
    | ub => exact ⟨0, trivial⟩
    | ok r =>
      obtain ⟨r, s2⟩ := r
      dsimp only
      obtain ⟨f, hf⟩ := fromSortedD_sim HMap.new ⟨⟨l, m.root.height, none⟩, ⟨r, o.root.height, none⟩⟩ (m.length + o.length) calm s2
      refine ⟨f, SameEnd.bind hf fun a b s3 hab => ?_⟩
      obtain ⟨a1, a2, a3⟩ := a
      obtain ⟨b1, b2, b3⟩ := b
      obtain ⟨h3, h4, h5⟩ := hab
      dsimp only at h3 h4 h5
      subst h3 h4
      rcases b1 with _ | w
      · exact SameEnd.same fun a s => ⟨⟨rfl, rfl, rfl, h5⟩, rfl⟩
      · cases w <;> exact ⟨⟨rfl, rfl, rfl, h5⟩, rfl⟩

end Verif.Heap
