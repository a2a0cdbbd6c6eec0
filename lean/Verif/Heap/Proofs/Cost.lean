import Verif.Heap.AnyOrd
import Verif.Heap.Proofs.UnwindOps
/-
How much of the sequence of comparisons the calls of Verif/Heap/AnyOrd.lean look at.
-/
namespace Verif.Heap
open Verif
open Verif.BTree (CAPACITY)
open Verif.Spec (Bound End MutAct Op Out Source ViewAct Seen)

variable {K V Q ρ σ α : Type}

/-- The comparisons from number `k` on. -/
def Cmps.drop (c : Cmps Q) (k : Nat) : Cmps Q := fun n => c (n + k)

theorem Cmps.drop_zero (c : Cmps Q) : c.drop 0 = c := rfl
theorem Cmps.drop_drop (c : Cmps Q) (k l : Nat) : (c.drop k).drop l = c.drop (k + l) := by
  funext n; simp only [Cmps.drop]; congr 1; omega
theorem Cmps.rest_eq (c : Cmps Q) : c.rest = c.drop 1 := rfl

/-- The first `n` comparisons are the same. -/
def Cmps.Agree (n : Nat) (c c' : Cmps Q) : Prop := ∀ k, k < n → c k = c' k

theorem Cmps.Agree.mono {n n' : Nat} {c c' : Cmps Q} (h : Cmps.Agree n c c') (hn : n' ≤ n) : Cmps.Agree n' c c' := fun k hk => h k (by omega)
theorem Cmps.Agree.drop {n k : Nat} {c c' : Cmps Q} (h : Cmps.Agree n c c') : Cmps.Agree (n - k) (c.drop k) (c'.drop k) := fun j hj => h (j + k) (by omega)

/-- What is left of the sequence shows up in the results of kind `G` only. -/
inductive Alike (G : (Cmps Q → ρ) → Prop) (n : Nat) (c c' : Cmps Q) : Exec (ρ × Heap K V) → Exec (ρ × Heap K V) → Prop
  | ok (g : Cmps Q → ρ) (k : Nat) (s : Heap K V) (hg : G g) (hk : k ≤ n) : Alike G n c c' (.ok (g (c.drop k), s)) (.ok (g (c'.drop k), s))
  | panic (msg : String) : Alike G n c c' (.panic msg) (.panic msg)
  | ub : Alike G n c c' .ub .ub

/-- `f` looks at no more than the first `n` comparisons. -/
def Uses (G : (Cmps Q → ρ) → Prop) (n : Nat) (f : Cmps Q → HM K V ρ) : Prop :=
  ∀ c c' s, Cmps.Agree n c c' → Alike G n c c' (f c s) (f c' s)

/-- Results that do not contain the rest of the sequence. -/
def GConst (g : Cmps Q → ρ) : Prop := ∃ v, g = fun _ => v

/-- Results `Option (α × Cmps Q)`. -/
def GOpt (g : Cmps Q → Option (α × Cmps Q)) : Prop := g = (fun _ => none) ∨ ∃ a, g = fun c => some (a, c)

/-- Results `Option (α × Cmps Q) × β`. -/
def GOptM (g : Cmps Q → Option (α × Cmps Q) × σ) : Prop := (∃ m, g = fun _ => (none, m)) ∨ ∃ a m, g = fun c => (some (a, c), m)

theorem Uses.mono {G : (Cmps Q → ρ) → Prop} {n n' : Nat} {f : Cmps Q → HM K V ρ} (h : Uses G n f) (hn : n ≤ n') : Uses G n' f := by
  intro c c' s ha
  have := h c c' s (ha.mono hn)
  generalize f c s = x, f c' s = y at this ⊢
  cases this with
  | ok g j s1 hg hj => exact .ok _ _ _ hg (by omega)
  | panic msg => exact .panic _
  | ub => exact .ub

theorem Uses.ret {G : (Cmps Q → ρ) → Prop} {g : Cmps Q → ρ} (hg : G g) : Uses G 0 (fun c => (pure (g c) : HM K V ρ)) :=
  fun _ _ s _ => .ok g 0 s hg (Nat.le_refl _)

theorem Uses.const (m : HM K V ρ) : Uses (Q := Q) GConst 0 (fun _ => m) := by
  intro c c' s _
  show Alike GConst 0 c c' (m s) (m s)
  generalize m s = x
  cases x with
  | ok r => exact .ok (fun _ => r.1) 0 r.2 ⟨r.1, rfl⟩ (Nat.le_refl _)
  | panic msg => exact .panic _
  | ub => exact .ub

theorem Uses.stop {G : (Cmps Q → ρ) → Prop} (msg : String) : Uses G 0 (fun _ => (HM.panic msg : HM K V ρ)) := fun _ _ _ _ => .panic _

theorem Uses.preOf {G : (Cmps Q → ρ) → Prop} {n : Nat} {m : HM K V σ} {f : σ → Cmps Q → HM K V ρ} (h : ∀ x, (∃ s s', m s = .ok (x, s')) → Uses G n (f x)) :
    Uses G n (fun c => m >>= fun x => f x c) := by
  intro c c' s ha
  show Alike G n c c' (HM.bind m (fun x => f x c) s) (HM.bind m (fun x => f x c') s)
  unfold HM.bind
  cases hx : m s with
  | ok r => exact h r.1 ⟨s, r.2, hx⟩ c c' r.2 ha
  | panic msg => exact .panic _
  | ub => exact .ub

theorem Uses.pre {G : (Cmps Q → ρ) → Prop} {n : Nat} {m : HM K V σ} {f : σ → Cmps Q → HM K V ρ} (h : ∀ x, Uses G n (f x)) :
    Uses G n (fun c => m >>= fun x => f x c) := Uses.preOf fun x _ => h x

theorem Uses.seq {G : (Cmps Q → σ) → Prop} {G' : (Cmps Q → ρ) → Prop} {n n' : Nat} {f : Cmps Q → HM K V σ} {k : σ → HM K V ρ} (h : Uses G n f)
    (hk : ∀ g, G g → Uses G' n' (fun c => k (g c))) : Uses G' (n + n') (fun c => f c >>= k) := by
  intro c c' s ha
  have := h c c' s (ha.mono (by omega))
  show Alike G' _ c c' (HM.bind (f c) k s) (HM.bind (f c') k s)
  unfold HM.bind
  generalize f c s = x, f c' s = y at this ⊢
  cases this with
  | ok g j s1 hg hj =>
    have := hk g hg (c.drop j) (c'.drop j) s1 (ha.drop.mono (by omega))
    dsimp only at this ⊢
    generalize k (g (c.drop j)) s1 = x, k (g (c'.drop j)) s1 = y at this ⊢
    cases this with
    | ok g' j' s2 hg' hj' =>
      rw [Cmps.drop_drop, Cmps.drop_drop]
      exact .ok _ _ _ hg' (by omega)
    | panic msg => exact .panic _
    | ub => exact .ub
  | panic msg => exact .panic _
  | ub => exact .ub

/-- One comparison. -/
theorem Uses.ask {G : (Cmps Q → ρ) → Prop} {n : Nat} (a b : Q) {F : Option Ordering → Cmps Q → HM K V ρ} (h : ∀ o, Uses G n (F o)) :
    Uses G (n + 1) (fun c => F (c 0 a b) c.rest) := by
  intro c c' s ha
  have h0 : c 0 = c' 0 := ha 0 (by omega)
  have := h (c 0 a b) c.rest c'.rest s (ha.drop (k := 1))
  dsimp only
  rw [← h0]
  generalize F (c 0 a b) c.rest s = x, F (c 0 a b) c'.rest s = y at this ⊢
  cases this with
  | ok g j s1 hg hj =>
    rw [Cmps.rest_eq, Cmps.rest_eq, Cmps.drop_drop, Cmps.drop_drop]
    exact .ok _ _ _ hg (by omega)
  | panic msg => exact .panic _
  | ub => exact .ub

theorem Uses.kind {G G' : (Cmps Q → ρ) → Prop} {n : Nat} {f : Cmps Q → HM K V ρ} (h : Uses G n f) (hG : ∀ g, G g → G' g) : Uses G' n f := by
  intro c c' s ha
  have := h c c' s ha
  generalize f c s = x, f c' s = y at this ⊢
  cases this with
  | ok g j s1 hg hj => exact .ok _ _ _ (hG _ hg) hj
  | panic msg => exact .panic _
  | ub => exact .ub

theorem Uses.same {n : Nat} {f : Cmps Q → HM K V ρ} (h : Uses GConst n f) {c c' : Cmps Q} (ha : Cmps.Agree n c c') : f c = f c' := by
  funext s
  have := h c c' s ha
  generalize f c s = x, f c' s = y at this ⊢
  cases this with
  | ok g j s1 hg hj =>
    obtain ⟨v, rfl⟩ := hg
    rfl
  | panic msg => rfl
  | ub => rfl

theorem Uses.catch {G : (Cmps Q → ρ) → Prop} {n : Nat} {f : Cmps Q → HM K V ρ} (h : Uses G n f) :
    Uses (fun g => g = (fun _ => none) ∨ ∃ g', G g' ∧ g = fun c => some (g' c)) n (fun c => catchRead (f c)) := by
  intro c c' s ha
  have := h c c' s ha
  unfold catchRead
  dsimp only
  generalize f c s = x, f c' s = y at this ⊢
  cases this with
  | ok g j s1 hg hj => exact .ok (fun c => some (g c)) j s1 (.inr ⟨g, hg, rfl⟩) hj
  | panic msg => exact .ok (fun _ => none) 0 s (.inl rfl) (Nat.zero_le _)
  | ub => exact .ub

theorem searchKeysO_uses (bor : K → Q) (q : Q) (a : Addr) : ∀ (n i : Nat), Uses GOpt (11 - i) (fun c => (searchKeysO bor q a i n c : HM K V _))
  | 0, i => (Uses.ret (g := fun c => some ((i, false), c)) (.inr ⟨_, rfl⟩)).mono (by omega)
  | n + 1, i => by
    unfold searchKeysO
    refine Uses.pre fun nd => ?_
    by_cases hi : i < 11
    · refine Uses.pre fun k => ?_
      refine Uses.mono (n := (11 - (i + 1)) + 1) (Uses.ask q (bor k) (F := fun o c => match o with
        | none => pure none
        | some .gt => searchKeysO bor q a (i + 1) n c
        | some .eq => pure (some ((i, true), c))
        | some .lt => pure (some ((i, false), c))) fun o => ?_) (by omega)
      match o with
      | none => exact (Uses.ret (g := fun _ => none) (.inl rfl)).mono (by omega)
      | some .gt => exact searchKeysO_uses bor q a n (i + 1)
      | some .eq => exact (Uses.ret (g := fun c => some ((i, true), c)) (.inr ⟨_, rfl⟩)).mono (by omega)
      | some .lt => exact (Uses.ret (g := fun c => some ((i, false), c)) (.inr ⟨_, rfl⟩)).mono (by omega)
    · intro c c' s _
      rw [peek_cap hi]
      exact .ub

theorem searchLinearO_uses (bor : K → Q) (q : Q) (a : Addr) : Uses GOpt 11 (fun c => (searchLinearO bor q a c : HM K V _)) := by
  unfold searchLinearO
  exact Uses.pre fun n => searchKeysO_uses bor q a n 0

theorem searchTreeO_uses (bor : K → Q) (q : Q) : ∀ (h : Nat) (a : Addr), Uses GOpt (11 * (h + 1)) (fun c => (searchTreeO bor q h a c : HM K V _))
  | 0, a => by
    unfold searchTreeO
    refine Uses.seq (n := 11) (n' := 0) (searchLinearO_uses bor q a) fun g hg => ?_
    rcases hg with rfl | ⟨x, rfl⟩
    · exact Uses.ret (g := fun _ => none) (.inl rfl)
    · exact Uses.ret (g := fun c => some (if x.2 then Found.found ⟨0, a, x.1⟩ else Found.goDown ⟨0, a, x.1⟩, c)) (.inr ⟨_, rfl⟩)
  | h + 1, a => by
    unfold searchTreeO
    refine Uses.mono (n := 11 + 11 * (h + 1)) (Uses.seq (searchLinearO_uses bor q a) fun g hg => ?_) (by omega)
    rcases hg with rfl | ⟨⟨i, b⟩, rfl⟩
    · exact (Uses.ret (g := fun _ => none) (.inl rfl)).mono (by omega)
    · cases b with
      | true => exact (Uses.ret (g := fun c => some (Found.found ⟨h + 1, a, i⟩, c)) (.inr ⟨_, rfl⟩)).mono (by omega)
      | false => exact Uses.pre fun d => searchTreeO_uses bor q h d.node

theorem searchO_uses (m : HMap) (bor : K → Q) (q : Q) : Uses GOpt (11 * (m.root.height + 1)) (fun c => (m.searchO bor q c : HM K V _)) :=
  searchTreeO_uses _ _ _ _

theorem getKeyValueO_uses (m : HMap) (bor : K → Q) (q : Q) : Uses GConst (11 * (m.root.height + 1)) (fun c => (m.getKeyValueO bor q c : HM K V _)) := by
  unfold HMap.getKeyValueO
  refine Uses.seq (n' := 0) (searchO_uses m bor q) fun g hg => ?_
  rcases hg with rfl | ⟨x, rfl⟩
  · exact Uses.const _
  · cases x <;> exact Uses.const _

theorem updateValO_uses (m : HMap) (bor : K → Q) (q : Q) (f : V → V) : Uses GConst (11 * (m.root.height + 1)) (fun c => (m.updateValO bor q f c : HM K V _)) := by
  unfold HMap.updateValO
  refine Uses.seq (n' := 0) (searchO_uses m bor q) fun g hg => ?_
  rcases hg with rfl | ⟨x, rfl⟩
  · exact Uses.const _
  · cases x <;> exact Uses.const _

theorem removeEntryO_uses (m : HMap) (bor : K → Q) (q : Q) : Uses GConst (11 * (m.root.height + 1)) (fun c => (m.removeEntryO bor q c : HM K V _)) := by
  unfold HMap.removeEntryO
  refine Uses.seq (n' := 0) (searchO_uses m bor q) fun g hg => ?_
  rcases hg with rfl | ⟨x, rfl⟩
  · exact Uses.const _
  · cases x <;> exact Uses.const _

theorem tryEntryO_uses (m : HMap) (k : K) : Uses GOptM (11 * (m.root.height + 1)) (fun c => (m.tryEntryO k c : HM K V _)) := by
  unfold HMap.tryEntryO
  refine Uses.preOf fun r hr => ?_
  cases r with
  | none => exact (Uses.ret (g := fun c => (some (none, c), m)) (.inr ⟨none, m, rfl⟩)).mono (by omega)
  | some m' =>
    obtain ⟨s, s', hr⟩ := hr
    have hh : 11 * (m'.root.height + 1) ≤ 11 * (m.root.height + 1) := Nat.mul_le_mul_left _ (by have := ensureRoot_height hr; omega)
    refine Uses.mono (n := 11 * (m'.root.height + 1) + 0) (Uses.seq (searchO_uses m' id k) fun g hg => ?_) hh
    rcases hg with rfl | ⟨x, rfl⟩
    · exact Uses.ret (g := fun _ => (none, m')) (.inl ⟨m', rfl⟩)
    · cases x with
      | found h => exact Uses.ret (g := fun c => (some (some (HEntry.occupied h), c), m')) (.inr ⟨_, m', rfl⟩)
      | goDown h => exact Uses.ret (g := fun c => (some (some (HEntry.vacant k h), c), m')) (.inr ⟨_, m', rfl⟩)

theorem tryInsertO_uses (m : HMap) (k : K) (v : V) : Uses GOptM (11 * (m.root.height + 1)) (fun c => (m.tryInsertO k v c : HM K V _)) := by
  unfold HMap.tryInsertO
  refine Uses.seq (n' := 0) (tryEntryO_uses m k) fun g hg => ?_
  rcases hg with ⟨m', rfl⟩ | ⟨e, m', rfl⟩
  · exact Uses.ret (g := fun _ => (none, m')) (.inl ⟨m', rfl⟩)
  · match e with
    | none => exact Uses.ret (g := fun c => (some (none, c), m')) (.inr ⟨_, m', rfl⟩)
    | some (.occupied h) => exact Uses.pre fun old => Uses.ret (g := fun c => (some (some (some old), c), m')) (.inr ⟨_, m', rfl⟩)
    | some (.vacant k h) => exact Uses.pre fun x => Uses.ret (g := fun c => (some (x.1.map fun _ => none, c), x.2)) (.inr ⟨_, x.2, rfl⟩)

theorem replaceKeyO_uses (m : HMap) (k : K) (v : V) : Uses GConst (11 * (m.root.height + 1)) (fun c => (m.replaceKeyO k v c : HM K V _)) := by
  unfold HMap.replaceKeyO
  refine Uses.preOf fun r hr => ?_
  cases r with
  | none => exact (Uses.const _).mono (Nat.zero_le _)
  | some m' =>
    obtain ⟨s, s', hr⟩ := hr
    have hh : 11 * (m'.root.height + 1) ≤ 11 * (m.root.height + 1) := Nat.mul_le_mul_left _ (by have := ensureRoot_height hr; omega)
    refine Uses.mono (n := 11 * (m'.root.height + 1) + 0) (Uses.seq (searchO_uses m' id k) fun g hg => ?_) hh
    rcases hg with rfl | ⟨x, rfl⟩
    · exact Uses.const _
    · cases x <;> exact Uses.const _

theorem withEntryO_uses (m : HMap) (k : K) (rest : Option (HEntry K) × HMap → HM K V (Out K V × HMap)) :
    Uses GConst (11 * (m.root.height + 1)) (fun c => (m.withEntryO k c rest : HM K V _)) := by
  unfold HMap.withEntryO
  refine Uses.seq (n' := 0) (tryEntryO_uses m k) fun g hg => ?_
  rcases hg with ⟨m', rfl⟩ | ⟨e, m', rfl⟩ <;> exact Uses.const _

/-! ### range -/

/-- Results `Option (Cmps Q)`. -/
def GRest (g : Cmps Q → Option (Cmps Q)) : Prop := g = (fun _ => none) ∨ g = fun c => some c

theorem rangeCheckO_uses (s e : Bound Q) : Uses GRest 2 (fun c => (HM.lift (rangeCheckO s e c) : HM K V _)) := by
  have one : ∀ (a b : Q), Uses GRest 1 (fun c => (HM.lift (match c 0 a b with
    | none => .ok none
    | some x => if x = .gt then .panic "range start is greater than range end in BTreeMap" else .ok (some c.rest)) : HM K V _)) := by
    intro a b
    refine Uses.ask (n := 0) a b (F := fun o c => HM.lift (match o with
      | none => .ok none
      | some x => if x = .gt then .panic "range start is greater than range end in BTreeMap" else .ok (some c))) fun o => ?_
    match o with
    | none => exact Uses.ret (g := fun _ => none) (.inl rfl)
    | some .gt => exact Uses.stop _
    | some .lt => exact Uses.ret (g := fun c => some c) (.inr rfl)
    | some .eq => exact Uses.ret (g := fun c => some c) (.inr rfl)
  have zero : Uses (Q := Q) GRest 2 (fun c => (HM.lift (.ok (some c)) : HM K V _)) := (Uses.ret (Q := Q) (g := fun c => some c) (.inr rfl)).mono (by omega)
  match s, e with
  | .excluded s, .excluded e =>
    refine Uses.ask (n := 1) s e (F := fun o c => HM.lift (match o with
      | none => .ok none
      | some x =>
        if x = .eq then .panic "range start and end are equal and excluded in BTreeMap"
        else match c 0 s e with
        | none => .ok none
        | some x => if x = .gt then .panic "range start is greater than range end in BTreeMap" else .ok (some c.rest))) fun o => ?_
    match o with
    | none => exact (Uses.ret (g := fun _ => none) (.inl rfl)).mono (by omega)
    | some .eq => exact (Uses.stop _).mono (by omega)
    | some .lt => exact one s e
    | some .gt => exact one s e
  | .included s, .included e => exact (one s e).mono (by omega)
  | .included s, .excluded e => exact (one s e).mono (by omega)
  | .excluded s, .included e => exact (one s e).mono (by omega)
  | .unbounded, .unbounded => exact zero
  | .unbounded, .included _ => exact zero
  | .unbounded, .excluded _ => exact zero
  | .included _, .unbounded => exact zero
  | .excluded _, .unbounded => exact zero

theorem minEdgeO_uses (bor : K → Q) (f : Bool) (s : Bound Q) (a : Addr) : Uses GOpt 11 (fun c => (minEdgeO bor f s a c : HM K V _)) := by
  match f, s with
  | false, .included q => exact searchLinearO_uses bor q a
  | false, .excluded q =>
    refine Uses.seq (n := 11) (n' := 0) (searchLinearO_uses bor q a) fun g hg => ?_
    rcases hg with rfl | ⟨r, rfl⟩
    · exact Uses.ret (g := fun _ => none) (.inl rfl)
    · exact Uses.ret (g := fun c => some (if r.2 then (r.1 + 1, true) else (r.1, false), c)) (.inr ⟨_, rfl⟩)
  | false, .unbounded => exact (Uses.ret (g := fun c => some ((0, false), c)) (.inr ⟨_, rfl⟩)).mono (by omega)
  | true, .unbounded => exact (Uses.ret (g := fun c => some ((0, true), c)) (.inr ⟨_, rfl⟩)).mono (by omega)
  | true, .included _ => exact (Uses.pre fun len => Uses.ret (g := fun c => some ((len, true), c)) (.inr ⟨_, rfl⟩)).mono (by omega)
  | true, .excluded _ => exact (Uses.ret (g := fun c => some ((0, true), c)) (.inr ⟨_, rfl⟩)).mono (by omega)

theorem maxEdgeO_uses (bor : K → Q) (f : Bool) (s : Bound Q) (a : Addr) : Uses GOpt 11 (fun c => (maxEdgeO bor f s a c : HM K V _)) := by
  match f, s with
  | false, .excluded q => exact searchLinearO_uses bor q a
  | false, .included q =>
    refine Uses.seq (n := 11) (n' := 0) (searchLinearO_uses bor q a) fun g hg => ?_
    rcases hg with rfl | ⟨r, rfl⟩
    · exact Uses.ret (g := fun _ => none) (.inl rfl)
    · exact Uses.ret (g := fun c => some (if r.2 then (r.1 + 1, true) else (r.1, false), c)) (.inr ⟨_, rfl⟩)
  | false, .unbounded => exact (Uses.pre fun len => Uses.ret (g := fun c => some ((len, false), c)) (.inr ⟨_, rfl⟩)).mono (by omega)
  | true, .unbounded => exact (Uses.pre fun len => Uses.ret (g := fun c => some ((len, true), c)) (.inr ⟨_, rfl⟩)).mono (by omega)
  | true, .excluded _ => exact (Uses.pre fun len => Uses.ret (g := fun c => some ((len, true), c)) (.inr ⟨_, rfl⟩)).mono (by omega)
  | true, .included _ => exact (Uses.ret (g := fun c => some ((0, true), c)) (.inr ⟨_, rfl⟩)).mono (by omega)

theorem rangeLoopO_uses (bor : K → Q) (s e : Bound Q) : ∀ (h : Nat) (amin amax : Addr) (mf xf dv : Bool),
    Uses GOpt (22 * (h + 1)) (fun c => (rangeLoopO bor s e h amin amax mf xf dv c : HM K V _))
  | 0, amin, amax, mf, xf, dv => by
    unfold rangeLoopO
    refine Uses.seq (n := 11) (n' := 11) (minEdgeO_uses bor mf s amin) fun g hg => ?_
    rcases hg with rfl | ⟨lo, rfl⟩
    · exact (Uses.ret (g := fun _ => none) (.inl rfl)).mono (by omega)
    refine Uses.seq (n := 11) (n' := 0) (maxEdgeO_uses bor xf e amax) fun g hg => ?_
    rcases hg with rfl | ⟨hi, rfl⟩
    · exact Uses.ret (g := fun _ => none) (.inl rfl)
    dsimp only
    split
    · exact Uses.stop _
    · exact Uses.pre fun f => Uses.pre fun b => Uses.ret (g := fun c => some ((⟨f, b⟩ : HRange), c)) (.inr ⟨_, rfl⟩)
  | h + 1, amin, amax, mf, xf, dv => by
    unfold rangeLoopO
    refine Uses.mono (n := 11 + (11 + 22 * (h + 1))) (Uses.seq (minEdgeO_uses bor mf s amin) fun g hg => ?_) (by omega)
    rcases hg with rfl | ⟨lo, rfl⟩
    · exact (Uses.ret (g := fun _ => none) (.inl rfl)).mono (by omega)
    refine Uses.seq (maxEdgeO_uses bor xf e amax) fun g hg => ?_
    rcases hg with rfl | ⟨hi, rfl⟩
    · exact (Uses.ret (g := fun _ => none) (.inl rfl)).mono (by omega)
    dsimp only
    split
    · exact (Uses.stop _).mono (by omega)
    · exact Uses.pre fun f => Uses.pre fun b => Uses.pre fun cmin => Uses.pre fun cmax => rangeLoopO_uses bor s e h cmin.node cmax.node lo.2 hi.2 _

theorem rangeO_uses (m : HMap) (bor : K → Q) (s e : Bound Q) : Uses GOpt (22 * (m.root.height + 1) + 2) (fun c => (m.rangeO bor s e c : HM K V _)) := by
  unfold HMap.rangeO
  refine Uses.mono (n := 2 + 22 * (m.root.height + 1)) (Uses.seq (rangeCheckO_uses s e) fun g hg => ?_) (by omega)
  rcases hg with rfl | rfl
  · exact (Uses.ret (g := fun _ => none) (.inl rfl)).mono (by omega)
  · exact rangeLoopO_uses bor s e _ _ _ _ _ _

theorem rangeRunO_uses (m : HMap) (bor : K → Q) (lo hi : Bound Q) (es : List End) :
    Uses GConst (22 * (m.root.height + 1) + 2) (fun c => (m.rangeRunO bor lo hi es c : HM K V _)) := by
  unfold HMap.rangeRunO
  refine Uses.seq (n' := 0) (Uses.catch (rangeO_uses m bor lo hi)) fun g hg => ?_
  rcases hg with rfl | ⟨g, rfl | ⟨r, rfl⟩, rfl⟩ <;> exact Uses.const _

theorem rangeMutRunO_uses (m : HMap) (bor : K → Q) (lo hi : Bound Q) (acts : List (MutAct V)) :
    Uses GConst (22 * (m.root.height + 1) + 2) (fun c => (m.rangeMutRunO bor lo hi acts c : HM K V _)) := by
  unfold HMap.rangeMutRunO
  refine Uses.seq (n' := 0) (Uses.catch (rangeO_uses m bor lo hi)) fun g hg => ?_
  rcases hg with rfl | ⟨g, rfl | ⟨r, rfl⟩, rfl⟩ <;> exact Uses.const _

/-! ### split_off -/

theorem splitLoopO_uses (bor : K → Q) (q : Q) : ∀ (h : Nat) (l r : Addr), Uses GConst (11 * (h + 1)) (fun c => (splitLoopO bor q h l r c : HM K V _))
  | 0, l, r => by
    unfold splitLoopO
    refine Uses.seq (n := 11) (n' := 0) (searchLinearO_uses bor q l) fun g hg => ?_
    rcases hg with rfl | ⟨x, rfl⟩ <;> exact Uses.const _
  | h + 1, l, r => by
    unfold splitLoopO
    refine Uses.mono (n := 11 + 11 * (h + 1)) (Uses.seq (searchLinearO_uses bor q l) fun g hg => ?_) (by omega)
    rcases hg with rfl | ⟨x, rfl⟩
    · exact (Uses.const _).mono (by omega)
    · exact Uses.pre fun e => Uses.pre fun _ => Uses.pre fun cl => Uses.pre fun f => Uses.pre fun cr => splitLoopO_uses bor q h cl.node cr.node

theorem splitOffO_uses (m : HMap) (bor : K → Q) (q : Q) : Uses GConst (11 * (m.root.height + 1)) (fun c => (m.splitOffO bor q c : HM K V _)) := by
  unfold HMap.splitOffO
  split
  · exact (Uses.const _).mono (by omega)
  · refine Uses.pre fun r => ?_
    cases r with
    | none => exact (Uses.const _).mono (by omega)
    | some r =>
      refine Uses.pre fun x => ?_
      split
      · refine Uses.seq (n' := 0) (splitLoopO_uses bor q _ _ _) fun g hg => ?_
        obtain ⟨v, rfl⟩ := hg
        exact Uses.const _
      · exact (Uses.const _).mono (by omega)

end Verif.Heap
