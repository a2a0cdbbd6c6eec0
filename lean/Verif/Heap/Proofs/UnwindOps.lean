import Verif.Heap.UnwindOps
import Verif.SpecCut
import Verif.Heap.Proofs.UnwindSplit
/-
Calls that are unwound by a panicking comparison, in memory.
-/
namespace Verif.Heap
open Verif
open Verif.BTree (Map CAPACITY)
open Verif.Spec (Bound End MutAct Op Out)

variable {K V Q α β ρ σ τ : Type} {E : String → Prop}

/-! ### code that only reads -/

/-- Code that does not change the memory. -/
def Reads (m : HM K V α) : Prop := ∀ s x s', m s = .ok (x, s') → s' = s

theorem Reads.ret (x : α) : Reads (pure x : HM K V α) := fun _ _ _ h => ((run_pure.1 h).2).symm

theorem Reads.seq {m : HM K V α} {f : α → HM K V β} (h : Reads m) (hf : ∀ x, Reads (f x)) : Reads (m >>= f) := by
  intro s x s' e
  obtain ⟨a, s1, h1, h2⟩ := run_bind.1 e
  rw [hf a _ _ _ h2, h _ _ _ h1]

theorem Reads.lift (x : Exec α) : Reads (HM.lift x : HM K V α) := by
  intro s y s' e
  cases x with
  | ok a => exact ((run_pure (K := K) (V := V)).1 e).2.symm
  | ub => cases e
  | panic m => cases e

theorem Reads.node (a : Addr) : Reads (getNode a : HM K V (Node K V)) := by
  intro s x s' e
  unfold getNode at e
  split at e
  · cases e
  · split at e
    · simp only [Exec.ok.injEq, Prod.mk.injEq] at e; exact e.2.symm
    · cases e

theorem Reads.len (a : Addr) : Reads (lenOf a : HM K V Nat) := by
  unfold lenOf
  split
  · exact Reads.ret _
  · exact Reads.seq (Reads.node a) fun _ => Reads.ret _

theorem Reads.newEdge (r : NRef) (i : Nat) : Reads (newEdge r i : HM K V HRef) :=
  Reads.seq (Reads.len _) fun _ => Reads.seq (Reads.lift _) fun _ => Reads.ret _

theorem Reads.descend (h : HRef) : Reads (descend h : HM K V NRef) :=
  Reads.seq (Reads.lift _) fun _ => Reads.seq (Reads.node _) fun _ => Reads.seq (Reads.lift _) fun _ => Reads.ret _

theorem Reads.kvOf (h : HRef) : Reads (kvOf h : HM K V (K × V)) :=
  Reads.seq (Reads.node _) fun _ => Reads.lift _

/-- `mU` is `m`, which only reads, cut short when the next comparison panics; `m` makes at most `n` comparisons. -/
def Cuts (n fuel : Nat) (mU : HM K V (Option (α × Nat))) (m : HM K V α) : Prop := ∀ s,
  match mU s with
  | .ok (some (x, f), s') => s' = s ∧ m s = .ok (x, s) ∧ fuel ≤ f + n
  | .ok (none, s') => s' = s ∧ fuel < n
  | .panic e => m s = .panic e
  | .ub => m s = .ub

theorem Cuts.ret {n fuel : Nat} (x : α) : Cuts n fuel (pure (some (x, fuel)) : HM K V _) (pure x) :=
  fun _ => ⟨rfl, rfl, by omega⟩

theorem Cuts.panic {n fuel : Nat} (msg : String) : Cuts n fuel (HM.panic msg : HM K V (Option (α × Nat))) (HM.panic msg) := fun _ => rfl

theorem Cuts.mono {n n' fuel : Nat} {mU : HM K V (Option (α × Nat))} {m : HM K V α} (h : Cuts n fuel mU m) (hn : n ≤ n') : Cuts n' fuel mU m := by
  intro s
  have := h s
  split at this
  · exact ⟨this.1, this.2.1, by omega⟩
  · exact ⟨this.1, by omega⟩
  · exact this
  · exact this

theorem bind_run {m : HM K V α} {f : α → HM K V β} {s : Heap K V} : (m >>= f) s = (match m s with
    | .ok (a, s') => f a s'
    | .panic e => .panic e
    | .ub => .ub) := by
  show HM.bind m f s = _
  unfold HM.bind
  cases m s <;> rfl

theorem Cuts.read {n fuel : Nat} {r : HM K V β} {kU : β → HM K V (Option (α × Nat))} {k : β → HM K V α} (hr : Reads r) (h : ∀ y, Cuts n fuel (kU y) (k y)) :
    Cuts n fuel (r >>= kU) (r >>= k) := by
  intro s
  rw [bind_run, bind_run]
  cases e : r s with
  | ok x =>
    obtain ⟨y, s'⟩ := x
    have := hr _ _ _ e
    subst this
    exact h y s'
  | panic m => rfl
  | ub => rfl

theorem Cuts.seq {n n' fuel : Nat} {mU : HM K V (Option (β × Nat))} {m : HM K V β} {kU : Option (β × Nat) → HM K V (Option (α × Nat))} {k : β → HM K V α}
    (h : Cuts n fuel mU m) (h0 : kU none = pure none) (h1 : ∀ x f, Cuts n' f (kU (some (x, f))) (k x)) : Cuts (n + n') fuel (mU >>= kU) (m >>= k) := by
  intro s
  rw [bind_run, bind_run]
  have hs := h s
  cases e : mU s with
  | ok x =>
    obtain ⟨y, s'⟩ := x
    rw [e] at hs
    cases y with
    | none =>
      dsimp only at hs ⊢
      rw [h0]
      exact ⟨hs.1, by omega⟩
    | some y =>
      obtain ⟨x, f⟩ := y
      dsimp only at hs ⊢
      obtain ⟨rfl, e1, e2⟩ := hs
      rw [e1]
      dsimp only
      have := h1 x f s'
      split at this
      · rename_i hk; rw [hk]; exact ⟨this.1, this.2.1, by omega⟩
      · rename_i hk; rw [hk]; exact ⟨this.1, by omega⟩
      · rename_i hk; rw [hk]; exact this
      · rename_i hk; rw [hk]; exact this
  | panic m => rw [e] at hs; dsimp only at hs ⊢; rw [hs]
  | ub => rw [e] at hs; dsimp only at hs ⊢; rw [hs]

/-! ### search -/

theorem peek_cap {x : Slots α} {i : Nat} (h : ¬ i < CAPACITY) : x.peek CAPACITY i = .ub := by
  unfold Slots.peek
  rw [if_neg h]

theorem searchKeysU_cuts [Ord Q] (bor : K → Q) (q : Q) (a : Addr) : ∀ (n i fuel : Nat),
    Cuts (CAPACITY - i) fuel (searchKeysU bor q a i n fuel : HM K V _) (searchKeys bor q a i n)
  | 0, i, fuel => Cuts.ret _
  | n + 1, i, fuel => by
    unfold searchKeysU searchKeys
    refine Cuts.read (Reads.node a) fun nd => ?_
    by_cases hi : i < CAPACITY
    · refine Cuts.read (Reads.lift _) fun k => ?_
      cases fuel with
      | zero => exact fun s => ⟨rfl, by omega⟩
      | succ fuel =>
        dsimp only
        cases compare q (bor k) with
        | gt =>
          dsimp only
          intro s
          have := searchKeysU_cuts bor q a n (i + 1) fuel s
          split at this
          · exact ⟨this.1, this.2.1, by omega⟩
          · exact ⟨this.1, by omega⟩
          · exact this
          · exact this
        | eq => exact fun s => ⟨rfl, rfl, by omega⟩
        | lt => exact fun s => ⟨rfl, rfl, by omega⟩
    · rw [peek_cap hi]
      exact fun s => rfl

theorem searchLinearU_cuts [Ord Q] (bor : K → Q) (q : Q) (a : Addr) (fuel : Nat) :
    Cuts 11 fuel (searchLinearU bor q a fuel : HM K V _) (searchLinear bor q a) :=
  Cuts.read (Reads.len a) fun n => searchKeysU_cuts bor q a n 0 fuel

theorem searchTreeU_cuts [Ord Q] (bor : K → Q) (q : Q) : ∀ (h : Nat) (a : Addr) (fuel : Nat),
    Cuts (11 * (h + 1)) fuel (searchTreeU bor q h a fuel : HM K V _) (searchTree bor q h a)
  | 0, a, fuel => by
    unfold searchTreeU searchTree
    exact Cuts.seq (n' := 0) (searchLinearU_cuts bor q a fuel) rfl fun x f => Cuts.ret _
  | h + 1, a, fuel => by
    unfold searchTreeU searchTree
    refine Cuts.mono (n := 11 + 11 * (h + 1)) (n' := 11 * (h + 1 + 1)) (Cuts.seq (searchLinearU_cuts bor q a fuel) rfl fun x f => ?_) (by omega)
    obtain ⟨i, b⟩ := x
    dsimp only
    cases b with
    | true => exact Cuts.ret _
    | false => exact Cuts.read (Reads.descend _) fun c => searchTreeU_cuts bor q h c.node f

theorem searchU_cuts [Ord Q] (m : HMap) (bor : K → Q) (q : Q) (fuel : Nat) :
    Cuts (11 * (m.root.height + 1)) fuel (m.searchU bor q fuel : HM K V _) (m.search bor q) := searchTreeU_cuts _ _ _ _ _

theorem getKeyValueU_cuts [Ord Q] (m : HMap) (bor : K → Q) (q : Q) (fuel : Nat) :
    Cuts (11 * (m.root.height + 1)) fuel (m.getKeyValueU bor q fuel : HM K V _) (m.getKeyValue bor q) := by
  unfold HMap.getKeyValueU HMap.getKeyValue
  refine Cuts.seq (n' := 0) (searchU_cuts m bor q fuel) rfl fun x f => ?_
  cases x with
  | found h => exact Cuts.read (Reads.kvOf h) fun kv => Cuts.ret _
  | goDown h => exact Cuts.ret _

/-! ### range -/

theorem rangeCheckU_cuts [Ord Q] (s e : Bound Q) (fuel : Nat) :
    Cuts 2 fuel (HM.lift (rangeCheckU s e fuel) : HM K V _) (HM.lift (BTree.rangeCheck s e)) := by
  intro w
  unfold rangeCheckU BTree.rangeCheck
  cases s <;> cases e <;> dsimp only
  all_goals
    first
    | (rename_i a b; cases compare a b <;> rcases fuel with _ | _ | fuel <;> simp [HM.lift])
    | simp [HM.lift]

theorem minEdgeU_cuts [Ord Q] (bor : K → Q) (found : Bool) (s : Bound Q) (a : Addr) (fuel : Nat) :
    Cuts 11 fuel (minEdgeU bor found s a fuel : HM K V _) (minEdge bor found s a) := by
  unfold minEdgeU minEdge
  cases found <;> cases s
  · exact searchLinearU_cuts _ _ _ _
  · exact Cuts.seq (n' := 0) (searchLinearU_cuts _ _ _ _) rfl fun x f => Cuts.ret _
  · exact Cuts.ret _
  · exact Cuts.read (Reads.len a) fun n => Cuts.ret _
  · exact Cuts.ret _
  · exact Cuts.ret _

theorem maxEdgeU_cuts [Ord Q] (bor : K → Q) (found : Bool) (s : Bound Q) (a : Addr) (fuel : Nat) :
    Cuts 11 fuel (maxEdgeU bor found s a fuel : HM K V _) (maxEdge bor found s a) := by
  unfold maxEdgeU maxEdge
  cases found <;> cases s
  · exact Cuts.seq (n' := 0) (searchLinearU_cuts _ _ _ _) rfl fun x f => Cuts.ret _
  · exact searchLinearU_cuts _ _ _ _
  · exact Cuts.read (Reads.len a) fun n => Cuts.ret _
  · exact Cuts.ret _
  · exact Cuts.read (Reads.len a) fun n => Cuts.ret _
  · exact Cuts.read (Reads.len a) fun n => Cuts.ret _

theorem rangeLoopU_cuts [Ord Q] (bor : K → Q) (s e : Bound Q) : ∀ (h : Nat) (amin amax : Addr) (mf xf dv : Bool) (fuel : Nat),
    Cuts (22 * (h + 1)) fuel (rangeLoopU bor s e h amin amax mf xf dv fuel : HM K V _) (rangeLoop bor s e h amin amax mf xf dv)
  | 0, amin, amax, mf, xf, dv, fuel => by
    unfold rangeLoopU rangeLoop
    refine Cuts.seq (n := 11) (n' := 11) (minEdgeU_cuts bor mf s amin fuel) rfl fun lo f => ?_
    refine Cuts.seq (n := 11) (n' := 0) (maxEdgeU_cuts bor xf e amax f) rfl fun hi f => ?_
    dsimp only
    split
    · exact Cuts.panic _
    · exact Cuts.read (Reads.newEdge _ _) fun _ => Cuts.read (Reads.newEdge _ _) fun _ => Cuts.ret _
  | h + 1, amin, amax, mf, xf, dv, fuel => by
    unfold rangeLoopU rangeLoop
    refine Cuts.mono (n := 11 + (11 + 22 * (h + 1))) (n' := 22 * (h + 1 + 1)) (Cuts.seq (minEdgeU_cuts bor mf s amin fuel) rfl fun lo f => ?_) (by omega)
    refine Cuts.seq (n := 11) (n' := 22 * (h + 1)) (maxEdgeU_cuts bor xf e amax f) rfl fun hi f => ?_
    dsimp only
    split
    · exact Cuts.panic _
    · exact Cuts.read (Reads.newEdge _ _) fun _ => Cuts.read (Reads.newEdge _ _) fun _ => Cuts.read (Reads.descend _) fun _ =>
        Cuts.read (Reads.descend _) fun _ => rangeLoopU_cuts bor s e h _ _ _ _ _ _

theorem rangeU_cuts [Ord Q] (m : HMap) (bor : K → Q) (s e : Bound Q) (fuel : Nat) :
    Cuts (22 * (m.root.height + 1) + 2) fuel (m.rangeU bor s e fuel : HM K V _) (m.range bor s e) := by
  unfold HMap.rangeU HMap.range
  exact Cuts.mono (n := 2 + 22 * (m.root.height + 1)) (n' := 22 * (m.root.height + 1) + 2) (Cuts.seq (rangeCheckU_cuts s e fuel) rfl fun x f => rangeLoopU_cuts bor s e _ _ _ _ _ _ f) (by omega)

/-! ### calls on a map -/

/-- `r` is what a call that was perhaps unwound came to, `x` what the undisturbed call came to: the same, or else `P` holds of what is left. -/
def Judge (g : σ → ρ) (r : Exec ((Option σ × HMap) × Heap K V)) (x : Exec ((ρ × HMap) × Heap K V)) (P : HMap → Heap K V → Prop) : Prop :=
  match r with
  | .ok ((some y, m'), s') => x = .ok ((g y, m'), s')
  | .ok ((none, m'), s') => P m' s'
  | .panic e => x = .panic e
  | .ub => x = .ub

theorem Judge.mono {g : σ → ρ} {r : Exec ((Option σ × HMap) × Heap K V)} {x : Exec ((ρ × HMap) × Heap K V)} {P P' : HMap → Heap K V → Prop}
    (h : Judge g r x P) (hP : ∀ m s, P m s → P' m s) : Judge g r x P' := by
  match r, h with
  | .ok ((some y, m'), s'), h => exact h
  | .ok ((none, m'), s'), h => exact hP _ _ h
  | .panic e, h => exact h
  | .ub, h => exact h

/-- The call `fU` is the call `f` on the map `m`, cut short when the next comparison panics: then nothing has changed but that the map may own a root node.  `f` makes at
most `n` comparisons. -/
def CutCall (n fuel : Nat) (m : HMap) (g : σ → ρ) (fU : HM K V (Option σ × HMap)) (f : HM K V (ρ × HMap)) : Prop := ∀ s,
  Judge g (fU s) (f s) fun m' s' => fuel < n ∧ (m' = m ∧ s' = s ∨ m.ensureRootIsOwned s = .ok (some m', s'))

/-- The same, when nothing at all has changed. -/
def CutHere (n fuel : Nat) (m : HMap) (g : σ → ρ) (fU : HM K V (Option σ × HMap)) (f : HM K V (ρ × HMap)) : Prop := ∀ s,
  Judge g (fU s) (f s) fun m' s' => fuel < n ∧ m' = m ∧ s' = s

/-- `fU` is `f`, with the same result put differently. -/
def Same (g : σ → ρ) (fU : HM K V (Option σ × HMap)) (f : HM K V (ρ × HMap)) : Prop := ∀ s, Judge g (fU s) (f s) fun _ _ => False

theorem Same.ret {g : σ → ρ} (x : σ) (m : HMap) : Same g (pure (some x, m) : HM K V _) (pure (g x, m)) := fun _ => rfl

theorem Same.panic {g : σ → ρ} (msg : String) : Same g (HM.panic msg : HM K V _) (HM.panic msg) := fun _ => rfl

theorem Same.seq {g : σ → ρ} {r : HM K V β} {kU : β → HM K V (Option σ × HMap)} {k : β → HM K V (ρ × HMap)} (h : ∀ y, Same g (kU y) (k y)) :
    Same g (r >>= kU) (r >>= k) := by
  intro s
  rw [bind_run, bind_run]
  cases r s with
  | ok x => exact h x.1 x.2
  | panic m => rfl
  | ub => rfl

theorem CutHere.call {n fuel : Nat} {m : HMap} {g : σ → ρ} {fU : HM K V (Option σ × HMap)} {f : HM K V (ρ × HMap)} (h : CutHere n fuel m g fU f) :
    CutCall n fuel m g fU f := fun s => (h s).mono fun _ _ hp => ⟨hp.1, .inl hp.2⟩

/-- A search, and then the rest. -/
theorem Cuts.here {n fuel : Nat} {m : HMap} {g : σ → ρ} {mU : HM K V (Option (α × Nat))} {r : HM K V α} {kU : Option (α × Nat) → HM K V (Option σ × HMap)}
    {k : α → HM K V (ρ × HMap)} (h : Cuts n fuel mU r) (h0 : kU none = pure (none, m)) (h1 : ∀ x f, Same g (kU (some (x, f))) (k x)) :
    CutHere n fuel m g (mU >>= kU) (r >>= k) := by
  intro s
  rw [bind_run, bind_run]
  have hs := h s
  cases e : mU s with
  | ok x =>
    obtain ⟨y, s'⟩ := x
    rw [e] at hs
    cases y with
    | none =>
      dsimp only at hs ⊢
      rw [h0]
      exact ⟨hs.2, rfl, hs.1⟩
    | some y =>
      obtain ⟨x, f⟩ := y
      dsimp only at hs ⊢
      obtain ⟨rfl, e1, e2⟩ := hs
      rw [e1]
      exact (h1 x f s').mono fun _ _ h => h.elim
  | panic m => rw [e] at hs; dsimp only at hs ⊢; rw [hs]; rfl
  | ub => rw [e] at hs; dsimp only at hs ⊢; rw [hs]; rfl

/-- A call, and then the rest. -/
theorem Judge.seq {g : σ → ρ} {g' : τ → α} {fU : HM K V (Option σ × HMap)} {f : HM K V (ρ × HMap)} {s : Heap K V} {P : HMap → Heap K V → Prop}
    {kU : Option σ × HMap → HM K V (Option τ × HMap)} {k : ρ × HMap → HM K V (α × HMap)} (h : Judge g (fU s) (f s) P) (h0 : ∀ m', kU (none, m') = pure (none, m'))
    (h1 : ∀ x m', Same g' (kU (some x, m')) (k (g x, m'))) : Judge g' ((fU >>= kU) s) ((f >>= k) s) P := by
  rw [bind_run, bind_run]
  match fU s, h with
  | .ok ((some y, m'), s'), h =>
    have h : f s = _ := h
    rw [h]
    exact (h1 y m' s').mono fun _ _ h => h.elim
  | .ok ((none, m'), s'), h =>
    dsimp only
    rw [h0]
    exact h
  | .panic e, h =>
    have h : f s = _ := h
    rw [h]
    rfl
  | .ub, h =>
    have h : f s = _ := h
    rw [h]
    rfl

theorem hm_assoc (a : HM K V α) (b : α → HM K V β) (c : β → HM K V τ) : (a >>= b) >>= c = a >>= fun x => b x >>= c := by
  funext s
  rw [bind_run, bind_run, bind_run]
  cases a s with
  | ok x => dsimp only; rw [bind_run]
  | panic m => rfl
  | ub => rfl

theorem newLeaf_height {s s' : Heap K V} {r : NRef} (h : (newLeaf : HM K V _) s = .ok (some r, s')) : r.height = 0 := by
  obtain ⟨a, s1, _, h⟩ := run_bind.1 h
  obtain ⟨h, _⟩ := run_pure.1 h
  cases a with
  | none => cases h
  | some a => cases h; rfl

theorem ensureRoot_height {m m' : HMap} {s s' : Heap K V} (e : m.ensureRootIsOwned s = .ok (some m', s')) : m'.root.height ≤ m.root.height := by
  unfold HMap.ensureRootIsOwned at e
  split at e
  · obtain ⟨r, s1, h1, e⟩ := run_bind.1 e
    obtain ⟨e, _⟩ := run_pure.1 e
    cases r with
    | none => cases e
    | some r =>
      cases e
      rw [show NRef.height _ = _ from newLeaf_height h1]
      exact Nat.zero_le _
  · obtain ⟨e, _⟩ := run_pure.1 e
    cases e
    exact Nat.le_refl _

/-- `ensure_root_is_owned`, then a search, then the rest. -/
theorem CutCall.owned {fuel : Nat} {m : HMap} {g : σ → ρ} {kU : Option HMap → HM K V (Option σ × HMap)} {k : Option HMap → HM K V (ρ × HMap)}
    (h0 : Same g (kU none) (k none)) (h1 : ∀ m', CutHere (11 * (m'.root.height + 1)) fuel m' g (kU (some m')) (k (some m'))) :
    CutCall (11 * (m.root.height + 1)) fuel m g (m.ensureRootIsOwned >>= kU) (m.ensureRootIsOwned >>= k) := by
  intro s
  rw [bind_run, bind_run]
  cases e : m.ensureRootIsOwned s with
  | panic m => rfl
  | ub => rfl
  | ok x =>
    obtain ⟨y, s'⟩ := x
    cases y with
    | none => exact (h0 s').mono fun _ _ h => h.elim
    | some m' =>
      refine (h1 m' s').mono fun m2 s2 h => ?_
      obtain ⟨e1, rfl, rfl⟩ := h
      exact ⟨Nat.lt_of_lt_of_le e1 (Nat.mul_le_mul_left _ (by have := ensureRoot_height e; omega)), .inr rfl⟩

theorem removeEntryU_cut [Ord Q] (m : HMap) (bor : K → Q) (q : Q) (fuel : Nat) :
    CutHere (11 * (m.root.height + 1)) fuel m (fun x : Option (K × V) × Nat => x.1) (m.removeEntryU bor q fuel) (m.removeEntry bor q) := by
  unfold HMap.removeEntryU HMap.removeEntry
  refine Cuts.here (searchU_cuts m bor q fuel) rfl fun x f => ?_
  cases x with
  | found h => exact Same.seq fun y => Same.ret (g := fun x : Option (K × V) × Nat => x.1) (some y.1, f) y.2
  | goDown h => exact Same.ret (g := fun x : Option (K × V) × Nat => x.1) (none, f) m

theorem tryEntryU_cut [Ord K] (m : HMap) (k : K) (fuel : Nat) :
    CutCall (11 * (m.root.height + 1)) fuel m (fun x : Option (HEntry K) × Nat => x.1) (m.tryEntryU k fuel : HM K V _) (m.tryEntry k) := by
  unfold HMap.tryEntryU HMap.tryEntry
  refine CutCall.owned (Same.ret (g := fun x : Option (HEntry K) × Nat => x.1) (none, fuel) m) fun m' => ?_
  refine Cuts.here (searchU_cuts m' id k fuel) rfl fun x f => ?_
  cases x with
  | found h => exact Same.ret (g := fun x : Option (HEntry K) × Nat => x.1) (some (.occupied h), f) m'
  | goDown h => exact Same.ret (g := fun x : Option (HEntry K) × Nat => x.1) (some (.vacant k h), f) m'

theorem tryInsertU_cut [Ord K] (m : HMap) (k : K) (v : V) (fuel : Nat) :
    CutCall (11 * (m.root.height + 1)) fuel m (fun x : Option (Option V) × Nat => x.1) (m.tryInsertU k v fuel) (m.tryInsert k v) := by
  unfold HMap.tryInsertU HMap.tryInsert
  intro s
  refine (tryEntryU_cut m k fuel s).seq (fun _ => rfl) fun x m' => ?_
  obtain ⟨x, f⟩ := x
  match x with
  | none => exact Same.ret (g := fun x : Option (Option V) × Nat => x.1) (none, f) m'
  | some (.occupied h) => exact Same.seq fun y => Same.ret (g := fun x : Option (Option V) × Nat => x.1) (some (some y), f) m'
  | some (.vacant k h) => exact Same.seq fun y => Same.ret (g := fun x : Option (Option V) × Nat => x.1) (y.1.map fun _ => none, f) y.2

theorem replaceKeyU_cut [Ord K] (m : HMap) (k : K) (v : V) (fuel : Nat) :
    CutCall (11 * (m.root.height + 1)) fuel m (fun x : Option (Option K) × Nat => x.1) (m.replaceKeyU k v fuel) (m.replaceKey k v) := by
  unfold HMap.replaceKeyU HMap.replaceKey
  refine CutCall.owned (Same.ret (g := fun x : Option (Option K) × Nat => x.1) (none, fuel) m) fun m' => ?_
  refine Cuts.here (searchU_cuts m' id k fuel) rfl fun x f => ?_
  cases x with
  | found h => exact Same.seq fun y => Same.ret (g := fun x : Option (Option K) × Nat => x.1) (some (some y), f) m'
  | goDown h =>
    refine Same.seq fun y => ?_
    obtain ⟨y, m2⟩ := y
    cases y with
    | none => exact Same.ret (g := fun x : Option (Option K) × Nat => x.1) (none, f) m2
    | some y => exact Same.ret (g := fun x : Option (Option K) × Nat => x.1) (some none, f) m2

theorem withEntryU_cut [Ord K] (m : HMap) (k : K) (fuel : Nat) (rest : Option (HEntry K) × HMap → HM K V (Out K V × HMap)) :
    CutCall (11 * (m.root.height + 1)) fuel m id (m.withEntryU k fuel rest) (m.tryEntry k >>= rest) := by
  unfold HMap.withEntryU
  intro s
  refine (tryEntryU_cut m k fuel s).seq (fun _ => rfl) fun x m' s => ?_
  dsimp only
  rw [bind_run]
  cases rest (x.1, m') s <;> rfl

/-! ### extend -/

/-- What `extend` leaves when it was unwound: the pairs before some point are in. -/
def ExtendCut [Ord K] (items : List (K × V)) (m : HMap) (s : Heap K V) (m' : HMap) (s' : Heap K V) : Prop :=
  ∃ n m1 s1, n < items.length ∧ m.extend (items.take n) s = .ok (m1, s1) ∧ (m' = m1 ∧ s' = s1 ∨ m1.ensureRootIsOwned s1 = .ok (some m', s'))

theorem extendC_cut [Ord K] : ∀ (items : List (K × V)) (m : HMap) (fuel : Nat) (s : Heap K V),
    Judge (fun _ : Nat => ()) (m.extendC items fuel s) ((m.extend items >>= fun m => pure ((), m)) s) (ExtendCut items m s)
  | [], m, fuel, s => rfl
  | (k, v) :: rest, m, fuel, s => by
    unfold HMap.extendC HMap.extend
    rw [hm_assoc, bind_run, bind_run]
    have h := tryInsertU_cut m k v fuel s
    match he : m.tryInsertU k v fuel s, h with
    | .ok ((some (x, f), m1), s1), h =>
      have h : m.tryInsert k v s = _ := h
      rw [h]
      dsimp only
      cases x with
      | none => rfl
      | some x =>
        refine (extendC_cut rest m1 f s1).mono fun m' s' hc => ?_
        obtain ⟨n, m2, s2, hn, h2, h3⟩ := hc
        refine ⟨n + 1, m2, s2, by simpa using hn, ?_, h3⟩
        rw [List.take_succ_cons]
        unfold HMap.extend
        rw [bind_run, h]
        exact h2
    | .ok ((none, m1), s1), h => exact ⟨0, m, s, by simp, rfl, h.2⟩
    | .panic e, h =>
      have h : m.tryInsert k v s = _ := h
      rw [h]
      rfl
    | .ub, h =>
      have h : m.tryInsert k v s = _ := h
      rw [h]
      rfl

theorem tryInsertU_left [Ord K] {m m' : HMap} {k : K} {v : V} {fuel f : Nat} {s s' : Heap K V} {r : Option (Option V)}
    (h : m.tryInsertU k v fuel s = .ok ((some (r, f), m'), s')) : fuel ≤ f + 11 * (m.root.height + 1) := by
  unfold HMap.tryInsertU HMap.tryEntryU at h
  obtain ⟨⟨y, m1⟩, s1, h1, h⟩ := run_bind.1 h
  have key : ∀ {y : Option (Option (HEntry K) × Nat)} {m1 s1}, (m.tryEntryU k fuel : HM K V _) s = .ok ((y, m1), s1) → ∀ x f, y = some (x, f) → fuel ≤ f + 11 * (m.root.height + 1) := by
    intro y m1 s1 h x f hy
    subst hy
    unfold HMap.tryEntryU at h
    obtain ⟨r, s2, h2, h⟩ := run_bind.1 h
    cases r with
    | none =>
      obtain ⟨h, _⟩ := run_pure.1 h
      cases h
      omega
    | some m2 =>
      obtain ⟨x1, s3, h3, h⟩ := run_bind.1 h
      have hc := searchU_cuts m2 id k fuel s2
      rw [h3] at hc
      have hh : 11 * (m2.root.height + 1) ≤ 11 * (m.root.height + 1) := Nat.mul_le_mul_left _ (by have := ensureRoot_height h2; omega)
      match x1, h, hc with
      | none, h, _ => obtain ⟨h, _⟩ := run_pure.1 h; cases h
      | some (.found hd, f1), h, hc =>
        obtain ⟨h, _⟩ := run_pure.1 h
        cases h
        have := hc.2.2
        omega
      | some (.goDown hd, f1), h, hc =>
        obtain ⟨h, _⟩ := run_pure.1 h
        cases h
        have := hc.2.2
        omega
  match y, h with
  | none, h => obtain ⟨h, _⟩ := run_pure.1 h; cases h
  | some (none, f1), h =>
    obtain ⟨h, _⟩ := run_pure.1 h
    cases h
    exact key h1 _ _ rfl
  | some (some (.occupied hd), f1), h =>
    obtain ⟨_, _, _, h⟩ := run_bind.1 h
    obtain ⟨h, _⟩ := run_pure.1 h
    cases h
    exact key h1 _ _ rfl
  | some (some (.vacant k hd), f1), h =>
    obtain ⟨_, _, _, h⟩ := run_bind.1 h
    obtain ⟨h, _⟩ := run_pure.1 h
    cases h
    exact key h1 _ _ rfl

/-- With enough comparisons `extend` is not unwound. -/
theorem extendC_enough [Ord K] : ∀ (items : List (K × V)) (m : HMap) (s : Heap K V), ∃ N, ∀ fuel, N ≤ fuel → ∀ m' s', m.extendC items fuel s ≠ .ok ((none, m'), s')
  | [], m, s => ⟨0, fun fuel _ m' s' h => by obtain ⟨h, _⟩ := run_pure.1 h; cases h⟩
  | (k, v) :: rest, m, s => by
    have hN : ∃ N, ∀ r m1 s1, m.tryInsert k v s = .ok ((some r, m1), s1) → ∀ fuel, N ≤ fuel → ∀ m' s', m1.extendC rest fuel s1 ≠ .ok ((none, m'), s') := by
      by_cases h : ∃ r m1 s1, m.tryInsert k v s = .ok ((some r, m1), s1)
      · obtain ⟨r, m1, s1, h⟩ := h
        obtain ⟨N, hN⟩ := extendC_enough rest m1 s1
        refine ⟨N, fun r' m1' s1' h' => ?_⟩
        rw [h] at h'
        cases h'
        exact hN
      · exact ⟨0, fun r m1 s1 h' => absurd ⟨r, m1, s1, h'⟩ h⟩
    obtain ⟨N, hN⟩ := hN
    refine ⟨N + 11 * (m.root.height + 1), fun fuel hf m' s' h => ?_⟩
    unfold HMap.extendC at h
    obtain ⟨⟨y, m1⟩, s1, h1, h⟩ := run_bind.1 h
    have hc := tryInsertU_cut m k v fuel s
    rw [h1] at hc
    match y, h1, h, hc with
    | none, h1, h, hc => have := hc.1; omega
    | some (none, f), h1, h, hc => cases h
    | some (some r, f), h1, h, hc =>
      have := tryInsertU_left h1
      exact hN r m1 s1 hc f (by omega) m' s' h

/-! ### the calls of a program -/

/-- The maps after a call that was unwound: those before it, after the part of it that was done, but one of them may own a root node. -/
def OpCut [Ord K] [Ord Q] (bor : K → Q) (op : Op K V Q) (p : List HMap) (s : Heap K V) (p' : List HMap) (s' : Heap K V) : Prop :=
  ∃ n p1 s1, (match op.upTo n with
    | some op => Op.hrun bor p op s = .ok ((.done, p1), s1)
    | none => p1 = p ∧ s1 = s) ∧
    (p' = p1 ∧ s' = s1 ∨ ∃ i m m', p1[i]? = some m ∧ m.ensureRootIsOwned s1 = .ok (some m', s') ∧ p' = p1.set i m')

/-- What a call that was perhaps unwound came to. -/
def OpJudge [Ord K] [Ord Q] (bor : K → Q) (op : Op K V Q) (fuel : Nat) (p : List HMap) (s : Heap K V) (r : Exec ((Option (Out K V) × List HMap) × Heap K V)) : Prop :=
  match r with
  | .ok ((some o, p'), s') => Op.hrun bor p op s = .ok ((o, p'), s')
  | .ok ((none, p'), s') => OpCut bor op p s p' s' ∧ ((∃ i items, op = .extend i items) ∨ ∃ m ∈ p, fuel < 22 * (m.root.height + 1) + 2)
  | .panic e => Op.hrun bor p op s = .panic e
  | .ub => Op.hrun bor p op s = .ub

theorem set_same {l : List α} {i : Nat} {x : α} (h : l[i]? = some x) : l.set i x = l := by
  obtain ⟨hi, rfl⟩ := List.getElem?_eq_some_iff.1 h
  exact List.set_getElem_self hi

theorem onHMapU_judge [Ord K] [Ord Q] {bor : K → Q} {op : Op K V Q} {fuel i : Nat} {p : List HMap} {s : Heap K V} {fU : HMap → HM K V (Option (Out K V) × HMap)}
    {f : HMap → HM K V (Out K V × HMap)} (hop : Op.hrun bor p op = onHMap p i f) (hu : ∀ n, op.upTo n = none)
    (h : ∀ m, CutCall (22 * (m.root.height + 1) + 2) fuel m id (fU m) (f m)) : OpJudge bor op fuel p s (onHMapU p i fU s) := by
  unfold onHMapU
  cases hi : p[i]? with
  | none =>
    show Op.hrun bor p op s = _
    rw [hop]
    unfold onHMap
    rw [hi]
    rfl
  | some m =>
    have hr : Op.hrun bor p op s = (f m >>= fun r => pure (r.1, p.set i r.2)) s := by
      rw [hop]
      unfold onHMap
      rw [hi]
    unfold OpJudge
    rw [hr]
    dsimp only
    rw [bind_run, bind_run]
    have hj := h m s
    match fU m s, hj with
    | .ok ((some o, m'), s'), hj =>
      have hj : f m s = _ := hj
      rw [hj]
      rfl
    | .ok ((none, m'), s'), hj =>
      refine ⟨⟨0, p, s, ?_, ?_⟩, .inr ⟨m, List.mem_of_getElem? hi, hj.1⟩⟩
      · rw [hu 0]; exact ⟨rfl, rfl⟩
      · rcases hj.2 with ⟨rfl, rfl⟩ | h2
        · exact .inl ⟨set_same hi, rfl⟩
        · exact .inr ⟨i, m, m', hi, h2, rfl⟩
    | .panic e, hj =>
      have hj : f m s = _ := hj
      rw [hj]
    | .ub, hj =>
      have hj : f m s = _ := hj
      rw [hj]

theorem CutCall.fuel {n n' fuel : Nat} {m : HMap} {g : σ → ρ} {fU : HM K V (Option σ × HMap)} {f : HM K V (ρ × HMap)} (h : CutCall n fuel m g fU f) (hn : n ≤ n') :
    CutCall n' fuel m g fU f := fun s => (h s).mono fun _ _ hp => ⟨by omega, hp.2⟩

/-- A search that gives the answer. -/
theorem read_cut {n n' fuel : Nat} {m : HMap} {mU : HM K V (Option (α × Nat))} {r : HM K V α} (g : α → Out K V) (h : Cuts n fuel mU r) (hn : n ≤ n') :
    CutCall n' fuel m id (mU >>= fun x => pure (x.map fun y => g y.1, m)) (r >>= fun x => pure (g x, m)) :=
  CutCall.fuel (Cuts.here (g := id) h rfl fun x _ => Same.ret (g := id) (g x) m).call hn

/-- The same if bad bounds are caught. -/
theorem catch_cut {n fuel : Nat} {m : HMap} {g : σ → ρ} {mU : HM K V (Option (α × Nat))} {r : HM K V α} {kU : Option (Option (α × Nat)) → HM K V (Option σ × HMap)}
    {k : Option α → HM K V (ρ × HMap)} (h : Cuts n fuel mU r) (h0 : kU (some none) = pure (none, m)) (h1 : Same g (kU none) (k none))
    (h2 : ∀ x f, Same g (kU (some (some (x, f)))) (k (some x))) : CutHere n fuel m g (catchRead mU >>= kU) (catchRead r >>= k) := by
  intro s
  rw [bind_run, bind_run]
  unfold catchRead
  have hs := h s
  match mU s, hs with
  | .ok (some (x, f), s'), hs =>
    obtain ⟨rfl, e1, e2⟩ := hs
    rw [e1]
    exact (h2 x f s').mono fun _ _ h => h.elim
  | .ok (none, s'), hs =>
    dsimp only at hs ⊢
    rw [h0]
    exact ⟨hs.2, rfl, hs.1⟩
  | .panic e, hs =>
    dsimp only at hs
    rw [hs]
    exact (h1 s).mono fun _ _ h => h.elim
  | .ub, hs =>
    dsimp only at hs
    rw [hs]
    rfl

theorem bind_congr {m : HM K V α} {f g : α → HM K V β} (h : ∀ x, f x = g x) : m >>= f = m >>= g := by
  rw [show f = g from funext h]

theorem entry_judge [Ord K] [Ord Q] {bor : K → Q} {op : Op K V Q} {fuel i : Nat} {p : List HMap} {s : Heap K V} {k : K}
    {f : HMap → HM K V (Out K V × HMap)} (rest : Option (HEntry K) × HMap → HM K V (Out K V × HMap)) (hop : Op.hrun bor p op = onHMap p i f) (hu : ∀ n, op.upTo n = none)
    (hc : Op.hcut bor p op fuel = onHMapU p i fun m => m.withEntryU k fuel rest) (hf : ∀ m : HMap, f m = m.tryEntry k >>= rest) :
    OpJudge bor op fuel p s (Op.hcut bor p op fuel s) := by
  rw [hc]
  refine onHMapU_judge hop hu fun m => CutCall.fuel ?_ (n := 11 * (m.root.height + 1)) (by omega)
  rw [hf m]
  exact withEntryU_cut m k fuel rest

theorem other_judge [Ord K] [Ord Q] {bor : K → Q} {op : Op K V Q} {fuel : Nat} {p : List HMap} {s : Heap K V} :
    OpJudge bor op fuel p s ((Op.hrun bor p op >>= fun r => pure (some r.1, r.2)) s) := by
  rw [bind_run]
  unfold OpJudge
  cases Op.hrun bor p op s <;> rfl

theorem hcut_judge [Ord K] [Ord Q] (bor : K → Q) (p : List HMap) (op : Op K V Q) (fuel : Nat) (s : Heap K V) :
    OpJudge bor op fuel p s (Op.hcut bor p op fuel s) := by
  cases op with
  | insert i k v =>
    refine onHMapU_judge (i := i) rfl (fun _ => rfl) fun m => CutCall.fuel (fun s => ?_) (n := 11 * (m.root.height + 1)) (by omega)
    refine (tryInsertU_cut m k v fuel s).seq (fun _ => rfl) fun x m' => ?_
    obtain ⟨x, f⟩ := x
    cases x with
    | none => exact Same.ret (g := id) _ _
    | some x => exact Same.ret (g := id) _ _
  | replace i k v =>
    refine onHMapU_judge (i := i) rfl (fun _ => rfl) fun m => CutCall.fuel (fun s => ?_) (n := 11 * (m.root.height + 1)) (by omega)
    refine (replaceKeyU_cut m k v fuel s).seq (fun _ => rfl) fun x m' => ?_
    obtain ⟨x, f⟩ := x
    cases x with
    | none => exact Same.ret (g := id) _ _
    | some x => exact Same.ret (g := id) _ _
  | remove i q =>
    refine onHMapU_judge (i := i) rfl (fun _ => rfl) fun m => CutCall.fuel (fun s => ?_) (n := 11 * (m.root.height + 1)) (by omega)
    exact ((removeEntryU_cut m bor q fuel).call s).seq (fun _ => rfl) fun x m' => Same.ret (g := id) _ _
  | take i q =>
    refine onHMapU_judge (i := i) rfl (fun _ => rfl) fun m => CutCall.fuel (fun s => ?_) (n := 11 * (m.root.height + 1)) (by omega)
    exact ((removeEntryU_cut m bor q fuel).call s).seq (fun _ => rfl) fun x m' => Same.ret (g := id) _ _
  | get i q =>
    exact onHMapU_judge (i := i) rfl (fun _ => rfl) fun m => read_cut (fun r : Option (K × V) => .value (r.map (·.2))) (getKeyValueU_cuts m bor q fuel) (by omega)
  | getKeyValue i q =>
    exact onHMapU_judge (i := i) rfl (fun _ => rfl) fun m => read_cut (fun r : Option (K × V) => .pair r) (getKeyValueU_cuts m bor q fuel) (by omega)
  | containsKey i q =>
    exact onHMapU_judge (i := i) rfl (fun _ => rfl) fun m => read_cut (fun r : Option (K × V) => .flag r.isSome) (getKeyValueU_cuts m bor q fuel) (by omega)
  | update i q f =>
    refine onHMapU_judge (i := i) rfl (fun _ => rfl) fun m => CutCall.fuel ?_ (n := 11 * (m.root.height + 1)) (by omega)
    unfold HMap.updateValU HMap.updateVal
    rw [hm_assoc, hm_assoc]
    refine (Cuts.here (searchU_cuts m bor q fuel) rfl fun x f => ?_).call
    cases x with
    | goDown h => exact Same.ret (g := id) _ _
    | found h =>
      dsimp only
      rw [hm_assoc, hm_assoc]
      exact Same.seq fun y => Same.ret (g := id) _ _
  | range i lo hi es =>
    refine onHMapU_judge (i := i) rfl (fun _ => rfl) fun m => ?_
    unfold HMap.rangeRunU HMap.rangeRun
    rw [hm_assoc, hm_assoc]
    refine (catch_cut (rangeU_cuts m bor lo hi fuel) rfl (Same.ret (g := id) _ _) fun x f => ?_).call
    dsimp only
    rw [hm_assoc, hm_assoc]
    exact Same.seq fun y => Same.ret (g := id) _ _
  | rangeMut i lo hi acts =>
    refine onHMapU_judge (i := i) rfl (fun _ => rfl) fun m => ?_
    unfold HMap.rangeMutRunU HMap.rangeMutRun
    rw [hm_assoc, hm_assoc]
    refine (catch_cut (rangeU_cuts m bor lo hi fuel) rfl (Same.ret (g := id) _ _) fun x f => ?_).call
    dsimp only
    rw [hm_assoc, hm_assoc]
    exact Same.seq fun y => Same.ret (g := id) _ _
  | extend i items =>
    show OpJudge bor (.extend i items) fuel p s (onHMapU p i _ s)
    unfold onHMapU
    cases hi : p[i]? with
    | none =>
      show onHMap p i _ s = _
      unfold onHMap
      rw [hi]
      rfl
    | some m =>
      have hrun : ∀ items, Op.hrun bor p (.extend i items) s = ((m.extend items >>= fun m => pure ((), m)) >>= fun r => pure (.done, p.set i r.2)) s := by
        intro items
        show onHMap p i _ s = _
        unfold onHMap
        rw [hi]
        dsimp only
        rw [hm_assoc, hm_assoc]
        rfl
      unfold OpJudge
      rw [hrun items]
      dsimp only
      rw [hm_assoc, bind_run, bind_run]
      have hj := extendC_cut items m fuel s
      match m.extendC items fuel s, hj with
      | .ok ((some o, m'), s'), hj =>
        have hj : (m.extend items >>= fun m => pure ((), m)) s = _ := hj
        rw [hj]
        rfl
      | .ok ((none, m'), s'), hj =>
        obtain ⟨n, m1, s1, _, h1, h2⟩ := hj
        refine ⟨⟨n, p.set i m1, s1, ?_, ?_⟩, .inl ⟨i, items, rfl⟩⟩
        · dsimp only [Op.upTo]
          rw [hrun, hm_assoc, bind_run, h1]
          rfl
        · rcases h2 with ⟨rfl, rfl⟩ | h2
          · exact .inl ⟨rfl, rfl⟩
          · refine .inr ⟨i, m1, m', ?_, h2, ?_⟩
            · rw [List.getElem?_set_self (List.getElem?_eq_some_iff.1 hi).1]
            · rw [List.set_set]
      | .panic e, hj =>
        have hj : (m.extend items >>= fun m => pure ((), m)) s = _ := hj
        rw [hj]
      | .ub, hj =>
        have hj : (m.extend items >>= fun m => pure ((), m)) s = _ := hj
        rw [hj]
  | entryOrInsert i k v f =>
      refine entry_judge (thenOrInsert v f) rfl (fun _ => rfl) rfl fun m => ?_
      unfold HMap.entryOrInsert
      refine bind_congr fun x => ?_
      obtain ⟨x, m⟩ := x
      cases x <;> rfl
  | entryOrInsertWith i k v f =>
      refine entry_judge (thenOrInsertWith v f) rfl (fun _ => rfl) rfl fun m => ?_
      unfold HMap.entryOrInsertWith
      refine bind_congr fun x => ?_
      obtain ⟨x, m⟩ := x
      cases x <;> rfl
  | entryRemove i k =>
      refine entry_judge thenRemove rfl (fun _ => rfl) rfl fun m => ?_
      unfold HMap.entryRemove
      refine bind_congr fun x => ?_
      obtain ⟨x, m⟩ := x
      rcases x with _ | ⟨_ | _⟩ <;> rfl
  | entryModify i k f =>
      refine entry_judge (thenModify f) rfl (fun _ => rfl) rfl fun m => ?_
      unfold HMap.entryModify
      refine bind_congr fun x => ?_
      obtain ⟨x, m⟩ := x
      cases x <;> rfl
  | entryKey i k =>
      refine entry_judge thenKey rfl (fun _ => rfl) rfl fun m => ?_
      unfold HMap.entryKeyOf
      refine bind_congr fun x => ?_
      obtain ⟨x, m⟩ := x
      cases x <;> rfl
  | entryInsert i k v =>
      refine entry_judge (thenInsert v) rfl (fun _ => rfl) rfl fun m => ?_
      unfold HMap.entryInsert
      refine bind_congr fun x => ?_
      obtain ⟨x, m⟩ := x
      rcases x with _ | ⟨_ | _⟩ <;> rfl
  | _ => exact other_judge

end Verif.Heap
