import Verif.Heap.Debug
import Verif.Heap.Proofs.IntoIter
import Verif.Heap.Proofs.UnwindOps
import Verif.Heap.Proofs.Program
/-
`Debug` of an owning iterator lists what is left.  A borrowed walk over a memory does what the consuming iterator does on a memory from which something has been
taken: that is shown step by step; then what the consuming iterator does is known.
-/
namespace Verif.Heap
open Verif
open Verif.BTree (B MIN_LEN CAPACITY Map)
open Verif.Spec (End OwnAct OwnOut)

variable {K V α β γ δ : Type} {E : String → Prop}

/-- `n'` is the node `n`, of which some pairs may have been moved out. -/
structure NodeSub (n' n : Node K V) : Prop where
  lay : n'.lay = n.lay
  parent : n'.parent = n.parent
  pidx : n'.pidx = n.pidx
  len : n'.len = n.len
  edges : n'.edges = n.edges
  keys : ∀ i k, n'.keys i = some k → n.keys i = some k
  vals : ∀ i v, n'.vals i = some v → n.vals i = some v

/-- `s'` is the memory `s` with some nodes freed and some pairs moved out. -/
def Sub (s' s : Heap K V) : Prop := ∀ a n', s'.cells a = some n' → ∃ n, s.cells a = some n ∧ NodeSub n' n

theorem Sub.refl (s : Heap K V) : Sub s s := fun _ n h => ⟨n, h, rfl, rfl, rfl, rfl, rfl, fun _ _ h => h, fun _ _ h => h⟩

/-- Reading with `mR` in `s` does what `mC` does in what is left of it. -/
def Mimics (s : Heap K V) (R : α → β → Prop) (mC : HM K V α) (mR : HM K V β) : Prop :=
  ∀ s', Sub s' s → ∀ a s'', mC s' = .ok (a, s'') → Sub s'' s ∧ ∃ b, mR s = .ok (b, s) ∧ R a b

theorem Mimics.ret {s : Heap K V} {R : α → β → Prop} {a : α} {b : β} (h : R a b) : Mimics s R (pure a) (pure b) := by
  intro s' hs a' s'' e
  obtain ⟨rfl, rfl⟩ := run_pure.1 e
  exact ⟨hs, b, rfl, h⟩

theorem Mimics.seq {s : Heap K V} {R : α → β → Prop} {R' : γ → δ → Prop} {mC : HM K V α} {mR : HM K V β} {kC : α → HM K V γ} {kR : β → HM K V δ}
    (h : Mimics s R mC mR) (hk : ∀ a b, R a b → Mimics s R' (kC a) (kR b)) : Mimics s R' (mC >>= kC) (mR >>= kR) := by
  intro s' hs c s'' e
  obtain ⟨a, s1, e1, e2⟩ := run_bind.1 e
  obtain ⟨h1, b, h2, h3⟩ := h s' hs a s1 e1
  obtain ⟨h4, d, h5, h6⟩ := hk a b h3 s1 h1 c s'' e2
  exact ⟨h4, d, run_bind.2 ⟨b, s, h2, h5⟩, h6⟩

theorem Mimics.ub {s : Heap K V} {R : α → β → Prop} {mR : HM K V β} : Mimics s R (HM.ub : HM K V α) mR := by
  intro s' _ a s'' e
  cases e

theorem getNode_mimics (s : Heap K V) (a : Addr) : Mimics s NodeSub (getNode a : HM K V _) (getNode a) := by
  intro s' hs n' s'' e
  unfold getNode at e
  split at e
  · cases e
  · next ha =>
    cases hc : s'.cells a with
    | none => rw [hc] at e; cases e
    | some m =>
      rw [hc] at e
      simp only [Exec.ok.injEq, Prod.mk.injEq] at e
      obtain ⟨rfl, rfl⟩ := e
      obtain ⟨n, h1, h2⟩ := hs a m hc
      refine ⟨hs, n, ?_, h2⟩
      unfold getNode
      rw [if_neg ha, h1]

theorem lift_mimics {s : Heap K V} {x : Exec α} : Mimics s Eq (HM.lift x : HM K V α) (HM.lift x) := by
  intro s' hs a s'' e
  cases x with
  | ok x =>
    have e : (Exec.ok (x, s') : Exec (α × Heap K V)) = .ok (a, s'') := e
    simp only [Exec.ok.injEq, Prod.mk.injEq] at e
    obtain ⟨rfl, rfl⟩ := e
    exact ⟨hs, x, rfl, rfl⟩
  | ub => cases e
  | panic m => cases e

theorem lenOf_mimics (s : Heap K V) (a : Addr) : Mimics s Eq (lenOf a : HM K V Nat) (lenOf a) := by
  unfold lenOf
  split
  · exact Mimics.ret rfl
  · exact (getNode_mimics s a).seq fun n' n h => Mimics.ret h.len

theorem newEdge_mimics (s : Heap K V) (r : NRef) (i : Nat) : Mimics s Eq (newEdge r i : HM K V HRef) (newEdge r i) := by
  unfold newEdge
  refine (lenOf_mimics s _).seq fun a b h => ?_
  subst h
  exact lift_mimics.seq fun _ _ _ => Mimics.ret rfl

theorem descend_mimics (s : Heap K V) (h : HRef) : Mimics s Eq (descend h : HM K V NRef) (descend h) := by
  unfold descend
  refine lift_mimics.seq fun _ _ _ => (getNode_mimics s _).seq fun n' n hn => ?_
  have : n'.peekEdge h.idx = n.peekEdge h.idx := by unfold Node.peekEdge; rw [hn.lay, hn.edges]
  rw [this]
  exact lift_mimics.seq fun a b e => Mimics.ret (by rw [e])

theorem firstLeafEdge_mimics (s : Heap K V) : ∀ (h : Nat) (a : Addr), Mimics s Eq (firstLeafEdge h a : HM K V HRef) (firstLeafEdge h a)
  | 0, a => newEdge_mimics s _ _
  | h + 1, a => by
    unfold firstLeafEdge
    refine (newEdge_mimics s _ _).seq fun e e' h1 => ?_
    subst h1
    refine (descend_mimics s _).seq fun c c' h2 => ?_
    subst h2
    exact firstLeafEdge_mimics s h _

theorem ascend_mimics (s : Heap K V) (r : NRef) : Mimics s Eq (ascend r : HM K V (Option HRef)) (ascend r) := by
  unfold ascend
  split
  · exact Mimics.ret rfl
  · refine (getNode_mimics s _).seq fun n' n h => ?_
    rw [h.parent, h.pidx]
    cases n.parent with
    | none => exact Mimics.ret rfl
    | some p =>
      dsimp only
      cases n.pidx with
      | none => exact Mimics.ub
      | some i => exact Mimics.ret rfl

/-- Freeing a node is not visible to the reader. -/
theorem freeNode_sub {s s' s'' : Heap K V} {a : Addr} {lay : Layout} (hs : Sub s' s) (e : (freeNode a lay : HM K V Unit) s' = .ok ((), s'')) : Sub s'' s := by
  unfold freeNode at e
  split at e
  · cases e
  · split at e
    · cases e
    · split at e
      · simp only [Exec.ok.injEq, Prod.mk.injEq, true_and] at e
        subst e
        intro b n' hb
        dsimp only at hb
        split at hb
        · cases hb
        · exact hs b n' hb
      · cases e

theorem dealloc_mimics (s : Heap K V) (r : NRef) : Mimics s Eq (deallocateAndAscend r : HM K V (Option HRef)) (ascend r) := by
  intro s' hs p s'' e
  unfold deallocateAndAscend at e
  obtain ⟨_, s1, e1, e⟩ := run_bind.1 e
  obtain ⟨p', s2, e2, e⟩ := run_bind.1 e
  obtain ⟨_, s3, e3, e⟩ := run_bind.1 e
  obtain ⟨rfl, rfl⟩ := run_pure.1 e
  obtain ⟨h1, _⟩ := lift_mimics s' hs _ _ e1
  obtain ⟨h2, h3⟩ := ascend_mimics s r s1 h1 _ _ e2
  exact ⟨freeNode_sub h2 e3, h3⟩

/-- Moving a pair out, and the handle through which it can be read. -/
theorem readKv_mimics (s : Heap K V) (e : HRef) :
    Mimics s (fun kv h => h = e ∧ (kvOf h : HM K V _) s = .ok (kv, s)) (readKv e : HM K V (K × V)) (newKv e.ref e.idx) := by
  intro s' hs kv s'' h
  unfold readKv atNode at h
  split at h
  · cases h
  · next ha =>
    split at h
    · cases h
    · next n' hc =>
      obtain ⟨n, h1, h2⟩ := hs _ _ hc
      split at h
      · next b m hf =>
        simp only [Exec.ok.injEq, Prod.mk.injEq] at h
        obtain ⟨rfl, rfl⟩ := h
        obtain ⟨_, hq, hf⟩ := Exec.bind_eq_ok.1 hf
        have hlt : e.idx < n'.len := by
          unfold require at hq
          split at hq
          · next hd => simpa using hd
          · cases hq
        unfold Node.takeKv at hf
        obtain ⟨⟨k, keys⟩, k1, hf⟩ := Exec.bind_eq_ok.1 hf
        obtain ⟨⟨v, vals⟩, k2, hf⟩ := Exec.bind_eq_ok.1 hf
        simp only [Exec.ok.injEq, Prod.mk.injEq] at hf
        obtain ⟨rfl, rfl⟩ := hf
        have take_ok : ∀ {γ : Type} {x : Slots γ} {y : γ} {x' : Slots γ} {i : Nat}, x.take CAPACITY i = .ok (y, x') →
            i < CAPACITY ∧ x i = some y ∧ ∀ j z, x' j = some z → x j = some z := by
          intro γ x y x' i hx
          unfold Slots.take at hx
          split at hx
          · next hi =>
            split at hx
            · next hy =>
              simp only [Exec.ok.injEq, Prod.mk.injEq] at hx
              obtain ⟨rfl, rfl⟩ := hx
              refine ⟨hi, hy, fun j z hz => ?_⟩
              dsimp only at hz
              split at hz
              · cases hz
              · exact hz
            · cases hx
          · cases hx
        obtain ⟨k3, k4, k5⟩ := take_ok k1
        obtain ⟨_, k6, k7⟩ := take_ok k2
        refine ⟨?_, e, ?_, rfl, ?_⟩
        · intro b m hb
          dsimp only at hb
          split at hb
          · next hba =>
            subst hba
            obtain rfl := Option.some.inj hb
            exact ⟨n, h1, h2.lay, h2.parent, h2.pidx, h2.len, h2.edges, fun i x hx => h2.keys i x (k5 i x hx), fun i x hx => h2.vals i x (k7 i x hx)⟩
          · exact hs b m hb
        · unfold newKv lenOf
          rw [if_neg (show ¬ e.ref.node = SHARED from ha)]
          have hg : (getNode e.ref.node : HM K V _) s = .ok (n, s) := by
            unfold getNode
            rw [if_neg (show ¬ e.ref.node = SHARED from ha), show s.cells e.ref.node = some n from h1]
          refine run_bind.2 ⟨n.len, s, run_bind.2 ⟨n, s, hg, rfl⟩, run_bind.2 ⟨(), s, ?_, rfl⟩⟩
          unfold HM.req require
          rw [← h2.len, decide_eq_true hlt]
          rfl
        · unfold kvOf
          refine run_bind.2 ⟨n, s, ?_, ?_⟩
          · unfold getNode
            rw [if_neg ha, h1]
          · have : n.peekKv e.idx = .ok (k, v) := by
              unfold Node.peekKv Slots.peek
              simp only [k3, if_true, h2.keys _ _ k4, h2.vals _ _ k6]
              rfl
            rw [this]
            rfl
      · cases h
      · cases h

/-- A pair and the edge after it, and the handles the reader gets. -/
def SameItem (s : Heap K V) (x : (K × V) × HRef) (y : HRef × HRef) : Prop := x.2 = y.2 ∧ (kvOf y.1 : HM K V _) s = .ok (x.1, s)

/-- The loop goes on at the same edge, or has ended. -/
def SameStep (s : Heap K V) : HRef ⊕ ((K × V) × HRef) → HRef ⊕ (HRef × HRef) → Prop
  | .inl a, .inl b => a = b
  | .inr x, .inr y => SameItem s x y
  | _, _ => False

theorem nextStep_mimics (s : Heap K V) (e : HRef) : Mimics s (SameStep s) (intoNextStep e : HM K V _) (nextStep e) := by
  unfold intoNextStep nextStep
  refine (lenOf_mimics s _).seq fun len len' hl => ?_
  subst hl
  split
  · refine (readKv_mimics s e).seq fun kv h hk => ?_
    obtain ⟨rfl, hk⟩ := hk
    refine (newEdge_mimics s _ _).seq fun re re' h1 => ?_
    subst h1
    refine (descend_mimics s _).seq fun c c' h2 => ?_
    subst h2
    refine (firstLeafEdge_mimics s _ _).seq fun f f' h3 => ?_
    subst h3
    exact Mimics.ret ⟨rfl, hk⟩
  · refine (dealloc_mimics s _).seq fun p p' hp => ?_
    subst hp
    cases p with
    | none => exact Mimics.ub
    | some p => exact Mimics.ret rfl

theorem loop_mimics (s : Heap K V) : ∀ (n : Nat) (e : HRef), Mimics s (SameStep s) (loopN intoNextStep n e : HM K V _) (loopN nextStep n e)
  | 0, e => Mimics.ret rfl
  | n + 1, e => by
    unfold loopN
    refine (nextStep_mimics s e).seq fun x y h => ?_
    match x, y, h with
    | .inl a, .inl _, rfl => exact loop_mimics s n a
    | .inr x, .inr y, h => exact Mimics.ret h

theorem ended_mimics {s : Heap K V} {x : HRef ⊕ ((K × V) × HRef)} {y : HRef ⊕ (HRef × HRef)} (h : SameStep s x y) :
    Mimics s (SameItem s) (ended x : HM K V _) (ended y) := by
  match x, y, h with
  | .inl a, .inl _, rfl => exact Mimics.ub
  | .inr x, .inr y, h => exact Mimics.ret h

/-- `next` of the owning iterator, and of the borrowed one. -/
theorem next_mimics {s : Heap K V} {bnd : Nat} {it : HIntoIter} (hl : it.length ≠ 0) (hd : HRange.done ⟨it.front, it.back⟩ = false) :
    Mimics s (fun x y => y.1 = x.1 ∧ y.2 = ⟨x.2.front, x.2.back⟩ ∧ x.1 ≠ none) (it.next bnd : HM K V _) (HRange.step bnd .front ⟨it.front, it.back⟩) := by
  have key : Mimics s (fun x y => SameItem s x y)
      (do
        let len ← lenOf it.front.node
        if it.front.idx < len then do
          let kv ← readKv it.front
          let f ← newEdge it.front.ref (it.front.idx + 1)
          pure (kv, f)
        else do
          let p ← deallocateAndAscend it.front.ref
          match p with
          | none => HM.ub
          | some p => do
            let r ← loopN intoNextStep bnd p
            ended r : HM K V _) (nextUnchecked bnd it.front) := by
    unfold nextUnchecked
    refine (lenOf_mimics s _).seq fun len len' hl => ?_
    subst hl
    split
    · refine (readKv_mimics s _).seq fun kv h hk => ?_
      obtain ⟨rfl, hk⟩ := hk
      refine (newEdge_mimics s _ _).seq fun re re' h1 => ?_
      subst h1
      exact Mimics.ret ⟨rfl, hk⟩
    · refine (dealloc_mimics s _).seq fun p p' hp => ?_
      subst hp
      cases p with
      | none => exact Mimics.ub
      | some p => exact (loop_mimics s bnd p).seq fun x y h => ended_mimics h
  have e1 : (it.next bnd : HM K V _) = ((do
        let len ← lenOf it.front.node
        if it.front.idx < len then do
          let kv ← readKv it.front
          let f ← newEdge it.front.ref (it.front.idx + 1)
          pure (kv, f)
        else do
          let p ← deallocateAndAscend it.front.ref
          match p with
          | none => HM.ub
          | some p => do
            let r ← loopN intoNextStep bnd p
            ended r : HM K V _) >>= fun x => pure (some x.1, { it with front := x.2, length := it.length - 1 })) := by
    unfold HIntoIter.next
    rw [if_neg hl]
    dsimp only
    rw [hm_assoc]
    refine bind_congr fun len => ?_
    split
    · simp only [hm_assoc]
      rfl
    · simp only [hm_assoc]
      refine bind_congr fun p => ?_
      cases p with
      | none => rfl
      | some p =>
        dsimp only
        simp only [hm_assoc]
  unfold HRange.step HRange.stepH
  rw [if_neg (by simp [hd])]
  dsimp only
  simp only [hm_assoc]
  rw [e1]
  refine key.seq fun x y h => ?_
  obtain ⟨h1, h2⟩ := h
  intro s' hs r s'' e
  obtain ⟨rfl, rfl⟩ := run_pure.1 e
  refine ⟨hs, (some x.1, ⟨x.2, it.back⟩), ?_, rfl, rfl, by simp⟩
  refine run_bind.2 ⟨_, s, rfl, ?_⟩
  dsimp only
  refine run_bind.2 ⟨some x.1, s, run_bind.2 ⟨x.1, s, h2, rfl⟩, ?_⟩
  rw [h1]
  rfl

/-! ### when the walk ends -/

namespace PT

theorem list_nil_ends : ∀ {h : Nat} {p : PT K V}, p.Good h → p.list h = [] → p.first h = p.last h
  | 0, p, _, hl => by
    have : p.kvs = [] := hl
    simp [first, last, this]
  | h + 1, p, hg, hl => by
    obtain ⟨c, cs, hk, hn⟩ := hg.kids_cons
    unfold list at hl
    cases hkv : p.kvs with
    | cons kv r =>
      rw [hkv, hk] at hl
      rw [hkv] at hn
      match cs, hn with
      | c2 :: cs, _ => simp [BTree.inter] at hl
    | nil =>
      rw [hkv] at hn
      have : cs = [] := List.length_eq_zero_iff.1 hn
      subst this
      rw [hkv, hk] at hl
      have hc : c.list h = [] := by simpa [BTree.inter] using hl
      have := list_nil_ends (hg.2.2.2 c (by simp [hk])) hc
      simpa [first, last, hk] using this

/-- There is a node at `a`. -/
def has (a : Addr) : HProp K V := fun w => w.cells a ≠ none

theorem has_left {a : Addr} {P R : HProp K V} (h : Ent P (has a)) : Ent (P ∗ R) (has a) := by
  rintro w ⟨w₁, w₂, _, rfl, h1, _⟩ e
  exact h w₁ h1 (World.or_none_iff.1 e).1

theorem has_right {a : Addr} {P R : HProp K V} (h : Ent P (has a)) : Ent (R ∗ P) (has a) := by
  rintro w ⟨w₁, w₂, _, rfl, _, h2⟩ e
  exact h w₂ h2 (World.or_none_iff.1 e).2

theorem has_pts {a : Addr} {n : Node K V} : Ent (pts a n) (has a) := by
  rintro w ⟨_, rfl⟩ e
  simp at e

theorem has_ne {a b : Addr} {P R : HProp K V} {w : World K V} (h : Ent P (has a)) (h' : Ent R (has b)) (hw : (P ∗ R) w) : a ≠ b := by
  obtain ⟨w₁, w₂, hd, rfl, h1, h2⟩ := hw
  rintro rfl
  rcases hd.1 a with e | e
  · exact h w₁ h1 e
  · exact h' w₂ h2 e

/-- The memory holds the leaf where the front is. -/
theorem mem_first : ∀ {h : Nat} {l : Link} {p : PT K V}, p.Good h → Ent (p.mem l h) (has (p.first h).node)
  | 0, l, p, _ => by
    rw [mem_leaf]
    exact Ent.fact_left fun _ => has_pts
  | h + 1, l, p, hg => by
    obtain ⟨c, cs, hk, hn⟩ := hg.kids_cons
    obtain ⟨a, pre, kvs, kids, post⟩ := p
    dsimp only at hk hn
    subst hk
    rw [mem_cons]
    exact Ent.fact_left fun _ => has_right (has_left (mem_first (hg.2.2.2 c (by simp))))

/-- The memory holds the leaf where the back is. -/
theorem mem_last : ∀ {h : Nat} {l : Link} {p : PT K V}, p.Good h → Ent (p.mem l h) (has (p.last h).node)
  | 0, l, p, _ => by
    rw [mem_leaf]
    exact Ent.fact_left fun _ => has_pts
  | h + 1, l, p, hg => by
    obtain ⟨cs, c, hk, hn, _⟩ := hg.kids_snoc
    obtain ⟨a, pre, kvs, kids, post⟩ := p
    dsimp only at hk hn
    subst hk
    rw [mem_snoc, last_snoc]
    exact Ent.fact_left fun _ => has_right (has_right (mem_last (hg.2.2.2 c (by simp))))

/-- The two ends meet exactly when nothing is left. -/
theorem ends_meet : ∀ {h : Nat} {l : Link} {p : PT K V} {w : World K V}, p.Good h → p.mem l h w →
    ((p.first h).node = (p.last h).node ∧ (p.first h).idx = (p.last h).idx ↔ p.list h = [])
  | 0, l, p, w, _, _ => by
    show p.addr = p.addr ∧ p.pre.length = p.pre.length + p.kvs.length ↔ p.kvs = []
    rw [← List.length_eq_zero_iff]
    exact ⟨fun h => by have := h.2; omega, fun h => ⟨rfl, by omega⟩⟩
  | h + 1, l, p, w, hg, hw => by
    refine ⟨fun he => ?_, fun he => ?_⟩
    · obtain ⟨c, cs, hk, hn⟩ := hg.kids_cons
      obtain ⟨a, pre, kvs, kids, post⟩ := p
      dsimp only at hk hn
      subst hk
      rw [mem_cons] at hw
      replace hw := (fact_sep.1 hw).2
      obtain ⟨w₁, w₂, _, _, _, hw⟩ := hw
      rcases List.eq_nil_or_concat cs with rfl | ⟨ds, d, rfl⟩
      · have : kvs = [] := List.length_eq_zero_iff.1 hn.symm
        subst this
        obtain ⟨w₃, w₄, _, _, h3, _⟩ := hw
        have := (ends_meet (hg.2.2.2 c (by simp)) h3).1 he
        simp [list, BTree.inter, this]
      · exfalso
        rw [List.concat_eq_append] at hw hg he
        unfold sub at hw
        rw [linked_append, stars_append, ← sep_assoc, sep_comm (mem _ _ _), sep_assoc] at hw
        have e1 : last (h + 1) ⟨a, pre, kvs, c :: (ds ++ [d]), post⟩ = last h d := last_snoc (cs := c :: ds)
        rw [e1] at he
        obtain ⟨_, w₅, _, _, _, hw⟩ := hw
        exact has_ne (mem_first (hg.2.2.2 c (by simp))) (has_left (mem_last (hg.2.2.2 d (by simp)))) hw he.1
    · rw [list_nil_ends hg he]
      exact ⟨rfl, rfl⟩

end PT

/-- The borrowed range over what is left has ended exactly when nothing is left. -/
theorem consuming_done {H : Nat} {it : HIntoIter} {l : List (K × V)} {w : World K V} (hw : consuming H it l w) :
    HRange.done ⟨it.front, it.back⟩ = decide (l = []) := by
  obtain ⟨x, hw⟩ := hw
  match x, hw with
  | some (p, pi), hw =>
    obtain ⟨⟨hg, rfl, rfl⟩, hm⟩ := fact_sep.1 hw
    have := PT.ends_meet hg hm
    unfold HRange.done
    rw [Bool.eq_iff_iff, decide_eq_true_iff, Bool.and_eq_true, beq_iff_eq, beq_iff_eq]
    exact this
  | none, hw =>
    obtain ⟨⟨rfl, rfl⟩, _⟩ := hw
    rfl

/-- What the borrowed walk sees. -/
theorem walk_spec {H : Nat} {s : Heap K V} : ∀ (n : Nat) {it : HIntoIter} {l : List (K × V)} {R : HProp K V} {s' : Heap K V}, l.length < n →
    s'.Good → (consuming H it l ∗ R) s'.world → Sub s' s → HRange.walk H n ⟨it.front, it.back⟩ s = .ok (l, s)
  | 0, _, _, _, _, h, _, _, _ => by omega
  | n + 1, it, l, R, s', h, hg, hw, hs => by
    have hw0 := hw
    obtain ⟨w₁, w₂, _, _, hc, _⟩ := hw0
    have hd := consuming_done hc
    have hlen : it.length = l.length := (fact_sep.1 (consuming_length _ hc)).1
    unfold HRange.walk
    cases l with
    | nil =>
      refine run_bind.2 ⟨(none, ⟨it.front, it.back⟩), s, ?_, rfl⟩
      unfold HRange.step HRange.stepH
      rw [if_pos (by simpa using hd)]
      rfl
    | cons kv l =>
      have hn := next_spec (E := fun _ => False) (H := H) (it := it) (l := kv :: l) R s' hg hw
      have hm := next_mimics (s := s) (bnd := H) (it := it) (by rw [hlen]; simp) (by simpa using hd) s' hs
      revert hn hm
      cases hx : (it.next H : HM K V _) s' with
      | ub => intro hn; exact hn.elim
      | panic m => intro hn; exact hn.elim
      | ok r =>
        obtain ⟨x, s''⟩ := r
        intro hn hm
        obtain ⟨hg', hw'⟩ := hn
        rw [sep_assoc] at hw'
        obtain ⟨e1, hw'⟩ := fact_sep.1 hw'
        obtain ⟨hs', y, hy, e2, e3, _⟩ := hm x s'' rfl
        obtain ⟨y1, y2⟩ := y
        dsimp only at e2 e3
        subst e2 e3
        refine run_bind.2 ⟨_, s, hy, ?_⟩
        dsimp only
        rw [e1]
        dsimp only [List.head?_cons]
        exact run_bind.2 ⟨l, s, walk_spec n (by simpa using h) hg' hw' hs', rfl⟩

theorem debug_spec {H : Nat} {it : HIntoIter} {l : List (K × V)} :
    Triple E (consuming H it l) (it.debug H : HM K V _) (fun r => fact (r = l) ∗ consuming H it l) := by
  intro R s hg hw
  obtain ⟨w₁, w₂, _, _, hc, _⟩ := id hw
  have hlen : it.length = l.length := (fact_sep.1 (consuming_length _ hc)).1
  have := walk_spec (s := s) (it.length + 1) (by omega) hg hw (Sub.refl s)
  unfold HIntoIter.debug
  rw [this]
  refine ⟨hg, ?_⟩
  rw [sep_assoc]
  exact fact_sep.2 ⟨rfl, hw⟩

theorem act_spec {H : Nat} {it : HIntoIter} {l : List (K × V)} : ∀ (a : OwnAct),
    Triple E (consuming H it l) (it.act H a : HM K V _) (fun o => fact (o.1 = (a.spec l).1) ∗ consuming H o.2 (a.spec l).2)
  | .ask .front => by
    unfold HIntoIter.act
    refine Triple.seq (ask_spec .front) fun x => ?_
    refine Triple.ofFact fun hx => ?_
    refine Triple.ofPure (Ent.fact_right ?_ ?_)
    · cases l <;> simpa [OwnAct.spec, Spec.pop] using hx
    · cases l <;> exact Ent.refl _
  | .ask .back => by
    unfold HIntoIter.act
    refine Triple.seq (ask_spec .back) fun x => ?_
    refine Triple.ofFact fun hx => ?_
    refine Triple.ofPure (Ent.fact_right ?_ (Ent.refl _))
    simpa [OwnAct.spec, Spec.pop] using hx
  | .debug => by
    unfold HIntoIter.act
    refine Triple.seq debug_spec fun x => ?_
    refine Triple.ofFact fun hx => ?_
    exact Triple.ofPure (Ent.fact_right (by rw [hx]; rfl) (Ent.refl _))
  | .len => by
    unfold HIntoIter.act
    refine Triple.pre ?_ consuming_length
    refine Triple.ofFact fun hx => ?_
    exact Triple.ofPure (Ent.fact_right (by rw [hx]; rfl) (Ent.refl _))

theorem acts_spec {H : Nat} : ∀ (as : List OwnAct) {it : HIntoIter} {l : List (K × V)},
    Triple E (consuming H it l) (it.acts H as : HM K V _) (fun o => fact (o.1 = (OwnAct.specs as l).1) ∗ consuming H o.2 (OwnAct.specs as l).2)
  | [], it, l => Triple.ofPure (Ent.fact_right rfl (Ent.refl _))
  | a :: as, it, l => by
    unfold HIntoIter.acts
    refine Triple.seq (act_spec a) fun x => ?_
    refine Triple.ofFact fun hx => ?_
    refine Triple.seq (acts_spec as) fun r => ?_
    refine Triple.ofFact fun hr => ?_
    refine Triple.ofPure (Ent.fact_right ?_ (Ent.refl _))
    rw [hx, hr]; rfl

/-- One map, from `into_iter` to the end of the iterator. -/
theorem useUp_spec {as : List OwnAct} {hm : HMap} {M : Map K V} (hM : M.WF) :
    Triple E (rep hm M) (hm.useUp as) (fun r => fact (r = OwnAct.specs as M.toList)) := by
  unfold HMap.useUp
  refine Triple.seq (intoIter_spec (hM.len.trans (Nat.add_zero _))) fun it => ?_
  refine Triple.getFact fun hh => ?_
  rw [hh]
  refine Triple.seq (acts_spec as) fun xs => ?_
  refine Triple.getFact fun hx => ?_
  refine Triple.pre ?_ consuming_length
  refine Triple.getFact fun hn => ?_
  refine Triple.seq (drop_spec hn) fun l => ?_
  refine Triple.ofPure fun w hw => ⟨?_, hw.2⟩
  rw [hx, hw.1]; rfl

theorem useUpAll_spec : ∀ {hs : List HMap} {p : List (Map K V)} (ass : List (List OwnAct)), (∀ m ∈ p, m.WF) →
    Triple E (pool hs p) (useUpAll hs ass) (fun r => fact (r = OwnAct.specsAll (p.map Map.toList) ass))
  | [], [], ass, _ => Triple.ofPure fun w hw => ⟨rfl, hw⟩
  | [], _ :: _, _, _ => Triple.ofFalse
  | _ :: _, [], _, _ => Triple.ofFalse
  | h :: hs, m :: p, ass, hp => by
    rw [pool_cons]
    unfold useUpAll
    refine Triple.seq ((useUp_spec (hp m (by simp))).frame _) fun l => ?_
    refine Triple.getFact fun hl => ?_
    refine Triple.seq (useUpAll_spec ass.tail fun m hm => hp m (by simp [hm])) fun ls => ?_
    refine Triple.ofPure fun w hw => ⟨?_, hw.2⟩
    rw [hl, hw.1]; rfl

end Verif.Heap
