import Verif.Heap.Proofs.IterRun
import Verif.BTree.Proofs.NodeOps
/-
`range` in memory finds the two edges the level-1 model finds, and panics exactly when that does.
-/
namespace Verif.Heap
open Verif
open Verif.BTree (B MIN_LEN CAPACITY Tree Handle Map emptyLeaf Iter Range)
open Verif.Spec (Bound End MutAct)

variable {K V Q α β : Type} {E : String → Prop}

theorem searchFrom_le [Ord Q] {bor : K → Q} {q : Q} : ∀ {kvs : List (K × V)} {i : Nat},
    i ≤ (BTree.searchFrom bor q i kvs).1 ∧ (BTree.searchFrom bor q i kvs).1 ≤ i + kvs.length ∧
      ((BTree.searchFrom bor q i kvs).2 = true → (BTree.searchFrom bor q i kvs).1 < i + kvs.length)
  | [], i => by simp [BTree.searchFrom]
  | kv :: kvs, i => by
    simp only [BTree.searchFrom]
    have := searchFrom_le (bor := bor) (q := q) (kvs := kvs) (i := i + 1)
    split
    · simp only [List.length_cons]; refine ⟨by omega, by omega, fun h => ?_⟩
      have := this.2.2 h; omega
    · simp
    · simp

theorem minEdge_le [Ord Q] {bor : K → Q} {f : Bool} {s : Bound Q} {kvs : List (K × V)} : (BTree.minEdge bor f s kvs).1 ≤ kvs.length := by
  have h := fun q => searchFrom_le (bor := bor) (q := q) (kvs := kvs) (i := 0)
  unfold BTree.minEdge
  split
  · next q => have := h q; simp only [BTree.searchLinear]; omega
  · next q =>
    have := h q
    simp only [BTree.searchLinear]
    split
    · next h1 => rw [h1] at this; have := this.2.2 rfl; dsimp only at this ⊢; omega
    · next h1 => rw [h1] at this; dsimp only at this ⊢; omega
  · simp
  · simp
  · simp

theorem maxEdge_le [Ord Q] {bor : K → Q} {f : Bool} {s : Bound Q} {kvs : List (K × V)} : (BTree.maxEdge bor f s kvs).1 ≤ kvs.length := by
  have h := fun q => searchFrom_le (bor := bor) (q := q) (kvs := kvs) (i := 0)
  unfold BTree.maxEdge
  split
  · next q =>
    have := h q
    simp only [BTree.searchLinear]
    split
    · next h1 => rw [h1] at this; have := this.2.2 rfl; dsimp only at this ⊢; omega
    · next h1 => rw [h1] at this; dsimp only at this ⊢; omega
  · next q => have := h q; simp only [BTree.searchLinear]; omega
  · simp
  · simp
  · simp

theorem searchLinear_tree [Ord Q] {bor : K → Q} {q : Q} {l : Link} {h : Nat} {t : ATree K V} :
    Triple E (tree l h t) (searchLinear bor q t.addr) (fun r => fact (r = BTree.searchLinear bor q t.kvs) ∗ tree l h t) := by
  refine Triple.pre ?_ tree_cap
  refine Triple.getFact fun hc => ?_
  unfold tree
  refine Triple.callLast (P₀ := pts t.addr (ATree.node l h t)) (searchLinear_spec hc) fun r => ?_
  exact Ent.of_eq (sep_assoc ..)

theorem minEdge_tree [Ord Q] {bor : K → Q} {f : Bool} {s : Bound Q} {l : Link} {h : Nat} {t : ATree K V} :
    Triple E (tree l h t) (minEdge bor f s t.addr) (fun r => fact (r = BTree.minEdge bor f s t.kvs) ∗ tree l h t) := by
  unfold minEdge BTree.minEdge
  cases f <;> cases s with
  | included q =>
    first
    | exact searchLinear_tree
    | refine Triple.seq lenOf_tree fun r => Triple.getFact fun hr => ?_
      subst hr
      exact Triple.ofPure (Ent.putFact rfl (Ent.refl _))
  | excluded q =>
    first
    | exact Triple.ofPure (Ent.putFact rfl (Ent.refl _))
    | refine Triple.seq searchLinear_tree fun r => Triple.getFact fun hr => ?_
      refine Triple.ofPure (Ent.putFact ?_ (Ent.refl _))
      subst hr
      dsimp only
      rcases BTree.searchLinear bor q t.kvs with ⟨i, _ | _⟩ <;> rfl
  | unbounded => exact Triple.ofPure (Ent.putFact rfl (Ent.refl _))

theorem maxEdge_tree [Ord Q] {bor : K → Q} {f : Bool} {s : Bound Q} {l : Link} {h : Nat} {t : ATree K V} :
    Triple E (tree l h t) (maxEdge bor f s t.addr) (fun r => fact (r = BTree.maxEdge bor f s t.kvs) ∗ tree l h t) := by
  unfold maxEdge BTree.maxEdge
  cases f <;> cases s with
  | excluded q =>
    first
    | exact searchLinear_tree
    | refine Triple.seq lenOf_tree fun r => Triple.getFact fun hr => ?_
      subst hr
      exact Triple.ofPure (Ent.putFact rfl (Ent.refl _))
  | included q =>
    first
    | exact Triple.ofPure (Ent.putFact rfl (Ent.refl _))
    | refine Triple.seq searchLinear_tree fun r => Triple.getFact fun hr => ?_
      refine Triple.ofPure (Ent.putFact ?_ (Ent.refl _))
      subst hr
      dsimp only
      rcases BTree.searchLinear bor q t.kvs with ⟨i, _ | _⟩ <;> rfl
  | unbounded =>
    refine Triple.seq lenOf_tree fun r => Triple.getFact fun hr => ?_
    subst hr
    exact Triple.ofPure (Ent.putFact rfl (Ent.refl _))

theorem rangeLoop_spec [Ord Q] {bor : K → Q} {s e : Bound Q} {H : Nat} {l : Link} {t : ATree K V} : ∀ {h : Nat} {nmin nmax : ATree K V}
    {mf xf dv : Bool} {um ux : List Nat} {x : Exec Range}, BTree.rangeLoop bor s e h nmin.erase nmax.erase mf xf dv um ux = x → x ≠ .ub →
    t.at um.reverse = some nmin → t.at ux.reverse = some nmax → um.length + h = H → ux.length + h = H →
    Triple (fun _ => ∃ m, x = .panic m) (tree l H t) (rangeLoop bor s e h nmin.addr nmax.addr mf xf dv)
      (fun r => fact (∃ y, x = .ok y ∧ RangeAt H t y r) ∗ tree l H t)
  | 0, nmin, nmax, mf, xf, dv, um, ux, x, hx, hu, h1, h2, h3, h4 => by
    unfold rangeLoop
    refine Triple.seq (Triple.readPath h1 (by simp; omega) fun l' => minEdge_tree) fun lo => Triple.getFact fun hlo => ?_
    refine Triple.seq (Triple.readPath h2 (by simp; omega) fun l' => maxEdge_tree) fun hi => Triple.getFact fun hhi => ?_
    simp only [BTree.rangeLoop, ATree.erase_kvs] at hx
    rw [← hlo, ← hhi] at hx
    split at hx
    · next hc =>
      rw [if_pos hc]
      exact Triple.ofPanic ⟨_, hx.symm⟩
    · next hc =>
      rw [if_neg hc]
      refine Triple.seq (Triple.readPath h1 (by simp; omega) fun l' => newEdge_tree (by rw [hlo]; exact minEdge_le)) fun f => Triple.getFact fun hf => ?_
      refine Triple.seq (Triple.readPath h2 (by simp; omega) fun l' => newEdge_tree (by rw [hhi]; exact maxEdge_le)) fun b => Triple.getFact fun hb => ?_
      refine Triple.ofPure (Ent.putFact ⟨_, hx.symm, ?_⟩ (Ent.refl _))
      subst hf hb
      have e1 : H - um.length = 0 := by omega
      have e2 : H - ux.length = 0 := by omega
      exact ⟨⟨nmin, h1, by dsimp only; omega, by dsimp only; rw [e1]⟩, ⟨nmax, h2, by dsimp only; omega, by dsimp only; rw [e2]⟩⟩
  | h + 1, nmin, nmax, mf, xf, dv, um, ux, x, hx, hu, h1, h2, h3, h4 => by
    unfold rangeLoop
    refine Triple.seq (Triple.readPath h1 (by simp; omega) fun l' => minEdge_tree) fun lo => Triple.getFact fun hlo => ?_
    refine Triple.seq (Triple.readPath h2 (by simp; omega) fun l' => maxEdge_tree) fun hi => Triple.getFact fun hhi => ?_
    simp only [BTree.rangeLoop, ATree.erase_kvs] at hx
    rw [← hlo, ← hhi] at hx
    split at hx
    · next hc =>
      rw [if_pos hc]
      exact Triple.ofPanic ⟨_, hx.symm⟩
    · next hc =>
      rw [if_neg hc]
      cases g1 : getE nmin.erase.edges lo.1 with
      | ub => rw [g1] at hx; exact absurd hx.symm hu
      | panic m => simp [getE] at g1; split at g1 <;> simp at g1
      | ok c1 =>
      cases g2 : getE nmax.erase.edges hi.1 with
      | ub => rw [g1, g2] at hx; exact absurd hx.symm hu
      | panic m => simp [getE] at g2; split at g2 <;> simp at g2
      | ok c2 =>
      rw [g1, g2] at hx
      simp only [Exec.ok_bind] at hx
      rw [ATree.erase_edges] at g1 g2
      obtain ⟨X1, n1, Y1, i1, i2, rfl⟩ := getE_map_ok g1
      obtain ⟨X2, n2, Y2, j1, j2, rfl⟩ := getE_map_ok g2
      have k1 : nmin.edges[lo.1]? = some n1 := by rw [i1, ← i2]; simp
      have k2 : nmax.edges[hi.1]? = some n2 := by rw [j1, ← j2]; simp
      refine Triple.seq (Triple.readPath h1 (by simp; omega) fun l' => newEdge_tree (by rw [hlo]; exact minEdge_le)) fun f => Triple.getFact fun hf => ?_
      refine Triple.seq (Triple.readPath h2 (by simp; omega) fun l' => newEdge_tree (by rw [hhi]; exact maxEdge_le)) fun b => Triple.getFact fun hb => ?_
      subst hf hb
      refine Triple.seq (Triple.readPath (φ := fun r => r = ⟨h, n1.addr⟩) h1 (by simp; omega) fun l' => ?_) fun c1 => Triple.getFact fun hc1 => ?_
      · have e1 : H - um.reverse.length = h + 1 := by simp; omega
        rw [e1]; exact descend_tree k1
      refine Triple.seq (Triple.readPath (φ := fun r => r = ⟨h, n2.addr⟩) h2 (by simp; omega) fun l' => ?_) fun c2 => Triple.getFact fun hc2 => ?_
      · have e1 : H - ux.reverse.length = h + 1 := by simp; omega
        rw [e1]; exact descend_tree k2
      subst hc1 hc2
      refine rangeLoop_spec hx hu ?_ ?_ (by simp; omega) (by simp; omega)
      · simp only [List.reverse_cons]
        rw [ATree.at_append h1]
        simp [ATree.at, k1]
      · simp only [List.reverse_cons]
        rw [ATree.at_append h2]
        simp [ATree.at, k2]

theorem minEdge_shared [Ord Q] {bor : K → Q} {f : Bool} {s : Bound Q} :
    (minEdge bor f s SHARED : HM K V _) = pure (BTree.minEdge bor f s ([] : List (K × V))) := by
  cases f <;> cases s <;> rfl

theorem maxEdge_shared [Ord Q] {bor : K → Q} {f : Bool} {s : Bound Q} :
    (maxEdge bor f s SHARED : HM K V _) = pure (BTree.maxEdge bor f s ([] : List (K × V))) := by
  cases f <;> cases s <;> rfl

theorem rangeCheck_ub [Ord Q] {s e : Bound Q} : BTree.rangeCheck s e ≠ .ub := by
  unfold BTree.rangeCheck
  repeat' split
  all_goals simp

theorem range_own [Ord Q] {bor : K → Q} {s e : Bound Q} {hm : HMap} {M : Map K V} {ta : ATree K V} {x : Exec Range} (hx : M.range bor s e = x) (hu : x ≠ .ub) :
    Triple (fun _ => ∃ m, x = .panic m) (own hm M ta) (hm.range bor s e) (fun r => fact (∃ y, x = .ok y ∧ RangeAt M.height ta y r) ∗ own hm M ta) := by
  simp only [BTree.Map.range] at hx
  unfold HMap.range
  cases hc : BTree.rangeCheck s e with
  | ub => exact absurd hc rangeCheck_ub
  | panic m =>
    rw [hc] at hx
    exact Triple.ofPanic (α := HRange) (msg := m) ⟨m, hx.symm⟩
  | ok u =>
    rw [hc] at hx
    simp only [Exec.ok_bind] at hx
    refine Triple.bindLift (a := u) rfl ?_
    refine Triple.readOwn (fun hs h1 h2 h3 h4 => ?_) fun hs h1 h2 l => ?_
    · subst h1 h4
      rw [h2, h3] at hx
      rw [h2]
      unfold rangeLoop
      rw [minEdge_shared, maxEdge_shared]
      refine Triple.bindPure (Triple.bindPure ?_)
      simp only [BTree.rangeLoop, show (emptyLeaf : Tree K V).kvs = [] from rfl] at hx
      have e1 : (BTree.minEdge bor false s ([] : List (K × V))).1 = 0 := by
        have := minEdge_le (bor := bor) (f := false) (s := s) (kvs := ([] : List (K × V))); simpa using this
      have e2 : (BTree.maxEdge bor false e ([] : List (K × V))).1 = 0 := by
        have := maxEdge_le (bor := bor) (f := false) (s := e) (kvs := ([] : List (K × V))); simpa using this
      simp only [e1, e2, Bool.not_false, Nat.lt_irrefl, decide_false, Bool.and_false, Bool.false_eq_true, if_false] at hx ⊢
      show Triple _ emp (pure (⟨⟨0, SHARED, 0⟩, ⟨0, SHARED, 0⟩⟩ : HRange)) _
      exact Triple.ofPure (Ent.of_eq (fact_of ⟨_, hx.symm, HandleAt.nil (t := ⟨SHARED, [], []⟩), HandleAt.nil (t := ⟨SHARED, [], []⟩)⟩).symm)
    · subst h2
      rw [h1] at hx
      exact rangeLoop_spec (um := []) (ux := []) hx hu rfl rfl (by simp) (by simp)

end Verif.Heap
