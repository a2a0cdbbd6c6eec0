import Verif.Misc.HashProofs
import Verif.Props.Vec
/-
`TryHashMap` (C48, C49).

Reading guide: `HMap` is the hash table with its entries in iteration order; where entries go, how the table grows, and when
it can reuse space is left open in `e : HEnv` (any `σ`, any functions that keep the entries).  `w` carries the allocator's
schedule and counts the requests whose failure would abort.
-/
namespace Verif.Props
open Verif Verif.Vec Verif.Misc

variable {K V Q σ : Type} [BEq K] [EquivBEq K] {e : HEnv K V σ}

/-! ### specification -/

/-- A finite map, as a function. -/
abbrev FMap (K V : Type) := K → Option V

/-- The map with `k` set to `v`, or removed. -/
def FMap.put (f : FMap K V) (k : K) (v : Option V) : FMap K V := fun q => if (k == q) = true then v else f q

/-- The operations. -/
inductive HOp (K V : Type) where
  | insert (k : K) (v : V)
  | get (q : K)
  | remove (q : K)
  | len
  | iter

/-- Their results. -/
inductive HOut (K V : Type) where
  | inserted (r : Res (Option V))
  | found (r : Option V)
  | removed (r : Option V)
  | len (n : Nat)
  | items (l : List (K × V))

/-- What a finite map with `n` keys does: result and next state.  `insert` may fail, and then nothing changes. -/
def HStep (f : FMap K V) (n : Nat) : HOp K V → HOut K V → FMap K V → Nat → Prop
  | .insert k v, .inserted (.ok old), f', n' => old = f k ∧ f' = f.put k (some v) ∧ n' = n + (if (f k).isSome then 0 else 1)
  | .insert _ _, .inserted (.error _), f', n' => f' = f ∧ n' = n
  | .get q, .found r, f', n' => r = f q ∧ f' = f ∧ n' = n
  | .remove q, .removed r, f', n' => r = f q ∧ f' = f.put q none ∧ n' + (if (f q).isSome then 1 else 0) = n
  | .len, .len k, f', n' => k = n ∧ f' = f ∧ n' = n
  | .iter, .items l, f', n' => l.length = n ∧ l.Pairwise (fun a b => (a.1 == b.1) = false) ∧
      (∀ q v, f q = some v ↔ ∃ k, (k, v) ∈ l ∧ (k == q) = true) ∧ f' = f ∧ n' = n
  | _, _, _, _ => False

/-- A history of a finite map. -/
inductive HHist : FMap K V → Nat → List (HOp K V) → List (HOut K V) → FMap K V → Nat → Prop
  | nil (f n) : HHist f n [] [] f n
  | cons {f n op out f' n' ops outs f'' n''} (h : HStep f n op out f' n') (t : HHist f' n' ops outs f'' n'') :
      HHist f n (op :: ops) (out :: outs) f'' n''

/-- Run one operation of `TryHashMap`. -/
def hashRun1 (e : HEnv K V σ) : HOp K V → HM K V σ (HOut K V)
  | .insert k v => do
    let r ← tryHashInsert e k v
    pure (.inserted r)
  | .get q => fun s => (.ok (.found (tryHashGet id q s.m)), s)
  | .remove q => do
    let r ← tryHashRemove e id q
    pure (.removed r)
  | .len => fun s => (.ok (.len (tryHashLen s.m)), s)
  | .iter => fun s => (.ok (.items (tryHashIter s.m)), s)

/-- Run a list of operations. -/
def hashRun (e : HEnv K V σ) : List (HOp K V) → HM K V σ (List (HOut K V))
  | [] => pure []
  | op :: ops => do
    let o ← hashRun1 e op
    let os ← hashRun e ops
    pure (o :: os)

/-! ### theorems -/

omit [EquivBEq K] in
theorem borrowEq_id : BorrowEq (id : K → K) := fun _ _ => rfl

/-- **C48** `insert(k, v)`: it never panics, aborts, or makes an aborting request.  `Ok(old)`: `old` is the previous value,
and afterwards `k` maps to `v` and everything else (seen through any borrowed form of the keys) is as before.  `Err`: the map
is exactly as before, the arguments are dropped, and memory was refused or the capacity limit exceeded. -/
theorem C48_insert (he : e.OK) {m : HMap K V σ} (hd : Distinct m.items) (k : K) (v : V) (w : HWorld K V) :
    ∃ r m' w', tryHashInsert e k v ⟨m, w⟩ = (.ok r, ⟨m', w'⟩) ∧ w'.aborting = w.aborting ∧ Distinct m'.items ∧
      (∀ er, r = .error er → m' = m ∧ w'.droppedK = w.droppedK ++ [k] ∧ w'.droppedV = w.droppedV ++ [v] ∧
        (w.alloc 0 = false ∨ e.maxItems < max (m.items.length + 4) (m.full + 1))) ∧
      (∀ old, r = .ok old → old = tryHashGet id k m ∧ tryHashLen m' = tryHashLen m + (if old.isSome then 0 else 1) ∧
        w'.droppedV = w.droppedV ∧
        (∀ {Q : Type} [BEq Q] [EquivBEq Q] {bor : K → Q}, BorrowEq bor → ∀ q,
          tryHashGet bor q m' = if (bor k == q) = true then some v else tryHashGet bor q m)) := by
  obtain ⟨r, m', a', dk, dv, h1, h2, h3, h4, h5, h6⟩ := tryHashInsert_spec he hd k v w
  refine ⟨r, m', _, h1, rfl, h2, ?_, ?_⟩
  · intro er hr
    obtain ⟨g1, -, g3, g4, g5⟩ := h3 er hr
    exact ⟨g1, g3, g4, g5⟩
  · intro old hr
    obtain ⟨g1, g2, g3, g4, -, g5⟩ := h4 old hr
    exact ⟨g1, g2, g4, g5⟩

/-- **C48** `remove(q)` returns the value and removes exactly that key; it allocates nothing. -/
theorem C48_remove [BEq Q] [EquivBEq Q] {bor : K → Q} (hb : BorrowEq bor) {m : HMap K V σ} (hd : Distinct m.items) (q : Q) (w : HWorld K V) :
    ∃ m' dk, tryHashRemove e bor q ⟨m, w⟩ = (.ok (tryHashGet bor q m), ⟨m', { w with droppedK := dk }⟩) ∧ Distinct m'.items ∧
      tryHashLen m' + (if (tryHashGet bor q m).isSome then 1 else 0) = tryHashLen m ∧
      ∀ p, tryHashGet bor p m' = if (q == p) = true then none else tryHashGet bor p m := by
  obtain ⟨r, m', dk, h1, h2, rfl, h4, h5⟩ := tryHashRemove_spec hb e hd q w
  exact ⟨m', dk, h1, h2, h4, h5⟩

/-- **C48** `get`, `iter` and `len` agree: `iter` yields every key once, `get` finds exactly what `iter` yields. -/
theorem C48_iter [BEq Q] [EquivBEq Q] {bor : K → Q} (hb : BorrowEq bor) {m : HMap K V σ} (hd : Distinct m.items) :
    (tryHashIter m).length = tryHashLen m ∧ (tryHashIter m).Pairwise (fun a b => (a.1 == b.1) = false) ∧
    ∀ q v, tryHashGet bor q m = some v ↔ ∃ k, (k, v) ∈ tryHashIter m ∧ (bor k == q) = true :=
  ⟨rfl, hd, fun _ _ => lookup_some hb hd⟩

theorem hashRun1_spec (he : e.OK) (op : HOp K V) {m : HMap K V σ} (hd : Distinct m.items) (w : HWorld K V) :
    ∃ out m' w', hashRun1 e op ⟨m, w⟩ = (.ok out, ⟨m', w'⟩) ∧ w'.aborting = w.aborting ∧ Distinct m'.items ∧
      HStep (fun q => tryHashGet id q m) (tryHashLen m) op out (fun q => tryHashGet id q m') (tryHashLen m') := by
  cases op with
  | get q => exact ⟨_, m, w, rfl, rfl, hd, rfl, rfl, rfl⟩
  | len => exact ⟨_, m, w, rfl, rfl, hd, rfl, rfl, rfl⟩
  | iter => exact ⟨_, m, w, rfl, rfl, hd, rfl, hd, fun q v => (C48_iter borrowEq_id hd).2.2 q v, rfl, rfl⟩
  | remove q =>
    obtain ⟨m', dk, h1, h2, h3, h4⟩ := C48_remove (e := e) borrowEq_id hd q w
    refine ⟨.removed _, m', { w with droppedK := dk }, ?_, rfl, h2, rfl, funext h4, h3⟩
    change (HM.bind _ _) _ = _
    simp only [HM.bind, h1]; rfl
  | insert k v =>
    obtain ⟨r, m', w', h1, h2, h3, h4, h5⟩ := C48_insert he hd k v w
    refine ⟨.inserted r, m', w', ?_, h2, h3, ?_⟩
    · change (HM.bind _ _) _ = _
      simp only [HM.bind, h1]; rfl
    · rcases r with er | old
      · obtain ⟨rfl, -⟩ := h4 er rfl
        exact ⟨rfl, rfl⟩
      · obtain ⟨rfl, g2, -, g3⟩ := h5 old rfl
        exact ⟨rfl, funext (g3 borrowEq_id), g2⟩

theorem hashRun_spec (he : e.OK) (ops : List (HOp K V)) {m : HMap K V σ} (hd : Distinct m.items) (w : HWorld K V) :
    ∃ outs m' w', hashRun e ops ⟨m, w⟩ = (.ok outs, ⟨m', w'⟩) ∧ w'.aborting = w.aborting ∧ Distinct m'.items ∧
      HHist (fun q => tryHashGet id q m) (tryHashLen m) ops outs (fun q => tryHashGet id q m') (tryHashLen m') := by
  induction ops generalizing m w with
  | nil => exact ⟨[], m, w, rfl, rfl, hd, .nil _ _⟩
  | cons op ops ih =>
    obtain ⟨out, m₁, w₁, h1, h2, h3, h4⟩ := hashRun1_spec he op hd w
    obtain ⟨outs, m₂, w₂, g1, g2, g3, g4⟩ := ih h3 w₁
    refine ⟨out :: outs, m₂, w₂, ?_, by rw [g2, h2], g3, .cons h4 g4⟩
    change (HM.bind _ (fun o => HM.bind _ _)) _ = _
    simp only [HM.bind, h1, g1]; rfl

/-- **C48** Every history of a `TryHashMap` starting empty, under every allocator, is a history of a finite map in which some
`insert`s may have failed without effect; nothing panics and no request is made whose failure would abort. -/
theorem C48_history (he : e.OK) (ops : List (HOp K V)) (a : Alloc) :
    ∃ outs m' w', hashRun e ops ⟨HMap.new e, ⟨a, 0, [], []⟩⟩ = (.ok outs, ⟨m', w'⟩) ∧ w'.aborting = 0 ∧ Distinct m'.items ∧
      HHist (fun _ => none) 0 ops outs (fun q => tryHashGet id q m') (tryHashLen m') :=
  hashRun_spec he ops (m := HMap.new e) .nil _

/-- **C48** `with_capacity(n)`: an empty map that takes `n` insertions without asking for memory, or `Err`. -/
theorem C48_with_capacity (he : e.OK) (n : Nat) (w : HWorld K V) :
    ∃ r a', tryHashWithCapacity e n w = (.ok r, { w with alloc := a' }) ∧
      (∀ m, r = .ok m → m.items = [] ∧ n ≤ m.growthLeft) ∧
      (∀ er, r = .error er → w.alloc 0 = false ∨ e.maxItems < max n 1) := by
  obtain ⟨r, m', a', h1, h2, h3, h4, h5, h6, h7⟩ := tryHashReserve_spec he n (HMap.new e) w
  simp only [tryHashWithCapacity, h1]
  rcases r with er | u
  · refine ⟨.error er, a', rfl, by simp, fun er' _ => ?_⟩
    have h := h6 ⟨er, rfl⟩
    have hx : e.maxItems < max ((HMap.new e).items.length + n) ((HMap.new e).full + 1) ↔ e.maxItems < max n 1 := by simp [HMap.new]
    rwa [hx] at h
  · refine ⟨.ok m', a', rfl, ?_, by simp⟩
    rintro m h
    obtain rfl : m' = m := by simpa using h
    exact ⟨by simpa [HMap.new] using h2, h3 rfl⟩

/-- Clone a list of pairs, key before value, until something fails. -/
def clonePairs (ck : Cloner K) (cv : Cloner V) : List (K × V) → Alloc → List (K × V) × Stop × Alloc
  | [], a => ([], .done, a)
  | (k, v) :: xs, a =>
    match ck k a with
    | (.error m, a) => ([], .panicked m, a)
    | (.ok (.error e), a) => ([], .failed e, a)
    | (.ok (.ok k'), a) =>
      match cv v a with
      | (.error m, a) => ([], .panicked m, a)
      | (.ok (.error e), a) => ([], .failed e, a)
      | (.ok (.ok v'), a) => ((k', v') :: (clonePairs ck cv xs a).1, (clonePairs ck cv xs a).2)

theorem cloneLoop_spec (he : e.OK) (ck : Cloner K) (cv : Cloner V) (xs : List (K × V)) {m : HMap K V σ} (hd : Distinct m.items)
    (hg : xs.length ≤ m.growthLeft) (w : HWorld K V) {made stop a₂} (hc : clonePairs ck cv xs w.alloc = (made, stop, a₂)) :
    ∃ m' dk dv, cloneLoop e ck cv xs ⟨m, w⟩ = (stop.out, ⟨m', ⟨a₂, w.aborting, dk, dv⟩⟩) ∧ Distinct m'.items ∧
      (Distinct (m.items ++ made) → m'.items.Perm (m.items ++ made)) := by
  induction xs generalizing m w made stop a₂ with
  | nil =>
    simp only [clonePairs, Prod.mk.injEq] at hc
    obtain ⟨rfl, rfl, rfl⟩ := hc
    exact ⟨m, w.droppedK, w.droppedV, rfl, hd, fun _ => by simp⟩
  | cons x xs ih =>
    obtain ⟨k, v⟩ := x
    simp only [clonePairs] at hc
    simp only [List.length_cons] at hg
    change ∃ m' dk dv, (HM.bind _ _) _ = _ ∧ _
    simp only [HM.bind, hashCallClone]
    rcases hk : ck k w.alloc with ⟨rk, a⟩
    rw [hk] at hc
    rcases rk with msg | er | k'
    · simp only [Prod.mk.injEq] at hc
      obtain ⟨rfl, rfl, rfl⟩ := hc
      exact ⟨m, _, _, rfl, hd, fun _ => by simp⟩
    · simp only [Prod.mk.injEq] at hc
      obtain ⟨rfl, rfl, rfl⟩ := hc
      exact ⟨m, _, _, rfl, hd, fun _ => by simp⟩
    · simp only [] at hc ⊢
      rcases hv : cv v a with ⟨rv, a₁⟩
      rw [hv] at hc
      rcases rv with msg | er | v'
      · simp only [Prod.mk.injEq] at hc
        obtain ⟨rfl, rfl, rfl⟩ := hc
        exact ⟨m, _, _, rfl, hd, fun _ => by simp⟩
      · simp only [Prod.mk.injEq] at hc
        obtain ⟨rfl, rfl, rfl⟩ := hc
        exact ⟨m, _, _, rfl, hd, fun _ => by simp⟩
      · simp only [Prod.mk.injEq] at hc
        obtain ⟨rfl, hc2⟩ := hc
        obtain ⟨r, m₁, a', dk, dv, h1, h2, h3, h4, h5, h6⟩ := tryHashInsert_spec he hd k' v' { w with alloc := a₁ }
        obtain ⟨⟨old, rfl⟩, ha, h7⟩ := h5 (by omega)
        simp only at ha
        subst a'
        obtain ⟨g1, g2, g3, g4, g5, g6⟩ := h4 old rfl
        obtain ⟨m', dk', dv', p1, p2, p3⟩ := ih h2 (by omega) ⟨a₁, w.aborting, dk, dv ++ old.toList⟩ (made := (clonePairs ck cv xs a₁).1)
          (stop := stop) (a₂ := a₂) (by simp only; rw [← hc2])
        simp only [h1]
        refine ⟨m', dk', dv', p1, p2, ?_⟩
        intro hdis
        have hn : old = none := by
          rw [g1, lookup_none]
          intro y hy
          have := (distinct_mid.1 hdis).2 y (by simp [hy])
          simpa using this
        have hp := g5 hn
        have hperm : (m.items ++ (k', v') :: (clonePairs ck cv xs a₁).1).Perm (m₁.items ++ (clonePairs ck cv xs a₁).1) :=
          List.perm_middle.trans ((hp.symm.append_right _).trans (by simp))
        exact (p3 (distinct_perm hperm hdis)).trans hperm.symm

omit [BEq K] [EquivBEq K] in
theorem clonePairs_faithful {ck : Cloner K} {cv : Cloner V} (hk : Faithful ck) (hv : Faithful cv) (xs : List (K × V)) (a : Alloc) :
    (clonePairs ck cv xs a).2.1 = .done → (clonePairs ck cv xs a).1 = xs := by
  induction xs generalizing a with
  | nil => intro; rfl
  | cons x xs ih =>
    obtain ⟨k, v⟩ := x
    simp only [clonePairs]
    rcases h1 : ck k a with ⟨rk, a₁⟩
    rcases rk with msg | er | k' <;> simp only [] <;> try (intro h; cases h)
    rcases h2 : cv v a₁ with ⟨rv, a₂⟩
    rcases rv with msg | er | v' <;> simp only [] <;> try (intro h; cases h)
    intro h
    rw [ih a₂ h, hk _ _ _ _ h1, hv _ _ _ _ h2]

/-- **C49** `try_clone` of a hash map, whatever the cloners of keys and values do: one reservation for all entries; if it is
refused, `Err`.  Then keys and values are cloned in iteration order; the first failure is the result; no further memory is
requested except by the cloners themselves, and nothing can abort.  The source is not modified (it is only an input). -/
theorem C49_try_clone (he : e.OK) (ck : Cloner K) (cv : Cloner V) (m : HMap K V σ) (w : HWorld K V) {r w₁}
    (hr : tryHashWithCapacity e m.items.length w = (.ok r, w₁)) {made stop a₂} (hc : clonePairs ck cv m.items w₁.alloc = (made, stop, a₂)) :
    w₁.aborting = w.aborting ∧
    (∀ er, r = .error er → tryHashClone e ck cv m w = (.ok (.error er), w₁)) ∧
    (∀ m₁, r = .ok m₁ →
      (tryHashClone e ck cv m w).2.alloc = a₂ ∧ (tryHashClone e ck cv m w).2.aborting = w.aborting ∧
      (∀ er, stop = .failed er → (tryHashClone e ck cv m w).1 = .ok (.error er)) ∧
      (∀ msg, stop = .panicked msg → (tryHashClone e ck cv m w).1 = .panic msg) ∧
      (stop = .done → ∃ m', (tryHashClone e ck cv m w).1 = .ok (.ok m') ∧ Distinct m'.items)) := by
  obtain ⟨r', a', h1, h2, h3⟩ := C48_with_capacity he m.items.length w
  rw [hr] at h1
  simp only [Prod.mk.injEq, Exec.ok.injEq] at h1
  obtain ⟨rfl, rfl⟩ := h1
  refine ⟨rfl, ?_, ?_⟩
  · rintro er rfl
    simp [tryHashClone, hr]
  · rintro m₁ rfl
    obtain ⟨g1, g2⟩ := h2 m₁ rfl
    obtain ⟨m', dk, dv, p1, p2, p3⟩ := cloneLoop_spec he ck cv m.items (m := m₁) (by rw [g1]; exact .nil) g2 { w with alloc := a' } hc
    simp only [tryHashClone, hr, p1]
    cases stop <;> simp [Stop.out]
    exact p2

/-- **C49** With faithful cloners, `Ok` gives a map with exactly the entries of the source: the same number of them, and
the same value for every key. -/
theorem C49_faithful (he : e.OK) {ck : Cloner K} {cv : Cloner V} (hk : Faithful ck) (hv : Faithful cv) {m : HMap K V σ}
    (hd : Distinct m.items) {w w' : HWorld K V} {m' : HMap K V σ} (h : tryHashClone e ck cv m w = (.ok (.ok m'), w')) :
    (tryHashIter m').Perm (tryHashIter m) ∧ tryHashLen m' = tryHashLen m ∧
    (∀ {Q : Type} [BEq Q] [EquivBEq Q] {bor : K → Q}, BorrowEq bor → ∀ q, tryHashGet bor q m' = tryHashGet bor q m) ∧
    w'.aborting = w.aborting := by
  obtain ⟨r', a', h1, h2, h3⟩ := C48_with_capacity he m.items.length w
  simp only [tryHashClone, h1] at h
  rcases r' with er | m₁
  · simp at h
  · obtain ⟨g1, g2⟩ := h2 m₁ rfl
    rcases hc : clonePairs ck cv m.items a' with ⟨made, stop, a₂⟩
    obtain ⟨m₂, dk, dv, p1, p2, p3⟩ := cloneLoop_spec he ck cv m.items (m := m₁) (by rw [g1]; exact .nil) g2 { w with alloc := a' } hc
    simp only [p1] at h
    cases stop with
    | failed er => simp [Stop.out] at h
    | panicked msg => simp [Stop.out] at h
    | done =>
      simp only [Stop.out, Prod.mk.injEq, Exec.ok.injEq, Except.ok.injEq] at h
      obtain ⟨rfl, rfl⟩ := h
      have hm := clonePairs_faithful hk hv m.items a' (by rw [hc])
      rw [hc] at hm
      simp only at hm
      subst hm
      have hp : m₂.items.Perm m.items := by simpa [g1] using p3 (by rw [g1]; exact hd)
      exact ⟨hp, hp.length_eq, fun hb q => lookup_perm hb p2 hp q, rfl⟩

/-! ### concrete cases -/

/-- A table that grows to twice the size and appends new entries in front, with bucket reuse. -/
def demoHash : HEnv Nat String Nat :=
  { maxItems := 2 ^ 40, capFor := fun n => 2 * n, fresh := 0, rehash := fun s l _ => (s + 1, l.reverse),
    place := fun s l x => (s, x :: l, s % 2 == 0), erase := fun s _ _ => (s + 1, s % 2 == 0),
    errVec := ⟨2 ^ 64 - 1, 1024, fun c r => max (2 * c) r, fun _ r => r, fun _ => false, true⟩ }

theorem demoHash_ok : demoHash.OK where
  capFor n := by simp [demoHash]; omega
  rehash s l c := l.reverse_perm
  place s l x := .refl _
  errGrow := ⟨fun _ _ => Nat.le_max_right _ _, fun _ _ => Nat.le_refl _⟩
  errSize := rfl
  errWord := by decide

example : (match (hashRun demoHash [.insert 1 "a", .insert 2 "b", .insert 1 "c", .get 1, .remove 2, .len] ⟨HMap.new demoHash, ⟨fun _ => true, 0, [], []⟩⟩).1 with
    | .ok [_, _, .inserted (.ok (some "a")), .found (some "c"), .removed (some "b"), .len 1] => true | _ => false) = true := by decide +kernel

example := C48_history demoHash_ok [.insert 1 "a", .insert 2 "b", .remove 1] (fun n => n == 0)

/-- With no memory `insert` fails and the arguments are dropped. -/
example : (let r := tryHashInsert demoHash 1 "a" ⟨HMap.new demoHash, ⟨fun _ => false, 0, [], []⟩⟩
    (r.1 matches .ok (.error .capacityOverflow), r.2.m.items, r.2.w.droppedK, r.2.w.aborting)) = (true, [], [1], 0) := by decide +kernel

/-- A cloner of strings that never fails. -/
def cloneString : Cloner String := fun x a => (.ok (.ok x), a)
theorem cloneString_faithful : Faithful cloneString := by
  intro x a c a' h; simp [cloneString] at h; exact h.1.symm

def demoTable : HMap Nat String Nat := ⟨[(1, "a"), (2, "b"), (7, "c")], 3, 6, 0⟩
theorem demoTable_distinct : Distinct demoTable.items := by simp [Distinct, demoTable]

/-- The hypotheses of `C49_faithful` are met: this clone succeeds. -/
example : ∃ m' w', tryHashClone demoHash failAt5 cloneString demoTable ⟨fun _ => true, 0, [], []⟩ = (.ok (.ok m'), w') ∧
    (tryHashIter m').Perm (tryHashIter demoTable) := by
  have h : (match (tryHashClone demoHash failAt5 cloneString demoTable ⟨fun _ => true, 0, [], []⟩).1 with
    | .ok (.ok _) => true | _ => false) = true := by decide +kernel
  rcases hr : tryHashClone demoHash failAt5 cloneString demoTable ⟨fun _ => true, 0, [], []⟩ with ⟨r, w'⟩
  rw [hr] at h
  rcases r with (er | m') | _ | _ <;> simp at h
  exact ⟨m', w', rfl, (C49_faithful demoHash_ok failAt5_faithful cloneString_faithful demoTable_distinct hr).1⟩

example := (C49_try_clone demoHash_ok failAt5 cloneString ⟨[(1, "a"), (5, "b"), (7, "c")], 3, 6, 0⟩ ⟨fun _ => true, 0, [], []⟩ rfl rfl).2.2 _ rfl

end Verif.Props
