import Verif.Heap.Proofs.Cost
import Verif.Heap.Proofs.AnyPool
import Verif.SpecCost
import Verif.BTree.Proofs.Count
/-
How much of the sequence of comparisons the calls look at, in terms of the numbers of entries.
-/
namespace Verif.Heap
open Verif
open Verif.BTree (CAPACITY Map Tree emptyLeaf)
open Verif.Spec (Bound End MutAct Op Out Source ViewAct Seen lookCost boundsCost lenAt)

variable {K V Q ρ σ α : Type}

theorem height_cost {M : Map K V} (h : M.WF) : 11 * (M.height + 1) ≤ lookCost M.toList.length := by
  unfold lookCost
  refine Nat.mul_le_mul_left _ (Nat.succ_le_succ ?_)
  by_cases h0 : 0 < M.height
  · have := BTree.RootOK.size h.shape h0
    have h1 : 2 ^ (2 * M.height) ≤ M.toList.length + 1 := by
      refine Nat.le_trans ?_ (Nat.le_trans (Nat.le_mul_of_pos_left _ (by omega)) this)
      rw [Nat.pow_mul]
      exact Nat.pow_le_pow_left (by omega) _
    have : 2 * M.height ≤ Nat.log2 (M.toList.length + 1) := (Nat.le_log2 (by omega)).2 h1
    omega
  · omega

theorem lookCost_mono {n n' : Nat} (h : n ≤ n') : lookCost n ≤ lookCost n' := by
  unfold lookCost
  refine Nat.mul_le_mul_left _ (Nat.succ_le_succ (Nat.div_le_div_right ?_))
  refine (Nat.le_log2 (by omega)).2 (Nat.le_trans (Nat.log2_self_le (by omega)) (by omega))

/-- The two programs do the same in every state of the kind `P`. -/
def SameFrom (P : HProp K V) (f f' : HM K V ρ) : Prop := ∀ R s, s.Good → (P ∗ R) s.world → f s = f' s

theorem SameFrom.rfl' {P : HProp K V} {f : HM K V ρ} : SameFrom P f f := fun _ _ _ _ => rfl

theorem SameFrom.pre {P P' : HProp K V} {f f' : HM K V ρ} (h : SameFrom P' f f') (he : Ent P P') : SameFrom P f f' :=
  fun R s hg hw => h R s hg (Ent.frame he R _ hw)

theorem SameFrom.getFact {φ : Prop} {P : HProp K V} {f f' : HM K V ρ} (h : φ → SameFrom P f f') : SameFrom (fact φ ∗ P) f f' := by
  intro R s hg hw
  rw [sep_assoc] at hw
  obtain ⟨hp, hw⟩ := fact_sep.1 hw
  exact h hp R s hg hw

theorem SameFrom.ofHex {P : α → HProp K V} {f f' : HM K V ρ} (h : ∀ x, SameFrom (P x) f f') : SameFrom (hex P) f f' := by
  intro R s hg hw
  rw [hex_sep] at hw
  obtain ⟨x, hw⟩ := hw
  exact h x R s hg hw

theorem SameFrom.call {P P₀ : HProp K V} {Q : σ → HProp K V} {x : HM K V σ} {k k' : σ → HM K V ρ} (h : Triple (fun _ => True) P₀ x Q)
    (hk : ∀ r, SameFrom (Q r ∗ P) (k r) (k' r)) : SameFrom (P₀ ∗ P) (x >>= k) (x >>= k') := by
  intro R s hg hw
  have := h (P ∗ R) s hg (by rw [← sep_assoc]; exact hw)
  show HM.bind x k s = HM.bind x k' s
  unfold HM.bind
  cases hx : x s with
  | ok r =>
    rw [hx] at this
    exact hk r.1 R r.2 this.1 (by rw [sep_assoc]; exact this.2)
  | panic msg => rfl
  | ub => rfl

theorem SameFrom.seqUses {P : HProp K V} {Post : σ → HProp K V} {G : (Cmps Q → σ) → Prop} {n : Nat} {f : Cmps Q → HM K V σ} {k k' : σ → HM K V ρ} {c c' : Cmps Q}
    (hu : Uses G n f) (ha : Cmps.Agree n c c') (h : Triple (fun _ => True) P (f c) Post)
    (hk : ∀ g j, G g → j ≤ n → SameFrom (Post (g (c.drop j))) (k (g (c.drop j))) (k' (g (c'.drop j)))) : SameFrom P (f c >>= k) (f c' >>= k') := by
  intro R s hg hw
  have h1 := h R s hg hw
  have h2 := hu c c' s ha
  show HM.bind (f c) k s = HM.bind (f c') k' s
  unfold HM.bind
  generalize f c s = x, f c' s = y at h1 h2 ⊢
  cases h2 with
  | ok g j s1 hg hj => exact hk g j hg hj R s1 h1.1 h1.2
  | panic msg => rfl
  | ub => rfl

theorem rep_height {hm : HMap} {M : Map K V} : Ent (rep hm M) (fact (hm.root.height = M.height) ∗ rep hm M) := by
  rintro w ⟨ta, hw⟩
  obtain ⟨h, hw⟩ := fact_sep.1 (own_height _ hw)
  exact fact_sep.2 ⟨h, ⟨ta, hw⟩⟩

/-! ### extend -/

theorem extendO_same : ∀ (items : List (K × V)) {hm : HMap} {M : Map K V} {al : Alloc} {c c' : Cmps K}, M.WF →
    Cmps.Agree (items.length * lookCost (M.toList.length + items.length)) c c' →
    SameFrom (rep hm M ∗ sched al) (hm.extendO items c) (hm.extendO items c')
  | [], _, _, _, _, _, _, _ => SameFrom.rfl'
  | (k, v) :: items, hm, M, al, c, c', hM, ha => by
    refine SameFrom.pre ?_ (Ent.frame rep_height _)
    rw [sep_assoc]
    refine SameFrom.getFact fun hh => ?_
    have hcost : 11 * (hm.root.height + 1) ≤ lookCost (M.toList.length + (items.length + 1)) := by
      rw [hh]; exact Nat.le_trans (height_cost hM) (lookCost_mono (by omega))
    simp only [List.length_cons, Nat.succ_mul] at ha
    unfold HMap.extendO
    refine SameFrom.seqUses (tryInsertO_uses hm k v) (ha.mono (by omega)) (tryInsertO_spec (mem := al.Good) hM id) fun g j hg hj => ?_
    rcases hg with ⟨m', rfl⟩ | ⟨r, m', rfl⟩
    · exact SameFrom.rfl'
    · cases r with
      | none => exact SameFrom.rfl'
      | some old =>
        refine SameFrom.ofHex fun y => SameFrom.getFact fun h => ?_
        obtain ⟨g1, g2, g3, g4⟩ := h
        have hlen : y.1.toList.length ≤ M.toList.length + 1 := by
          rcases g4 with ⟨A, k1, v1, B, h1, _, h3⟩ | ⟨A, B, h1, _, h3⟩ <;> rw [h1, h3] <;> simp <;> omega
        refine extendO_same items g3 (ha.drop.mono ?_)
        have : items.length * lookCost (y.1.toList.length + items.length) ≤ items.length * lookCost (M.toList.length + (items.length + 1)) :=
          Nat.mul_le_mul_left _ (lookCost_mono (by omega))
        omega

/-! ### append -/

/-- The comparisons it takes to merge two lists. -/
def mergeCost (l r : List (K × V)) : Nat := match l, r with
  | [], _ => 0
  | _, [] => 0
  | _ :: l, _ :: r => l.length + r.length + 1

theorem mergeCost_le (l r : List (K × V)) : mergeCost l r ≤ l.length + r.length - 1 := by
  cases l <;> cases r <;> simp [mergeCost] <;> omega

theorem buildLoopO_same : ∀ (fuel : Nat) {l r : List (K × V)} {m : HMerge K V} {root cur : NRef} {H : Nat} {T : Tree K V} {len : Nat} {al : Alloc} {c c' : Cmps K}
    {k : (Building K V × Cmps K) ⊕ Building K V → HM K V ρ},
    l.length + r.length < fuel → BTree.Build H T → T.len ≤ 11 → (0 < H → 1 ≤ T.len) → Cmps.Agree (mergeCost l r) c c' →
    SameFrom (peeking m.left l ∗ peeking m.right r ∗ built root cur H T ∗ sched al) (loopN buildStepO fuel (⟨m, root, cur, len⟩, c) >>= k)
      (loopN buildStepO fuel (⟨m, root, cur, len⟩, c') >>= k)
  | 0, _, _, _, _, _, _, _, _, _, _, _, _, hf, _, _, _, _ => by simp at hf
  | fuel + 1, l, r, m, root, cur, H, T, len, al, c, c', k, hf, hb, hl, h1, ha => by
    -- one round with the pair `kv`, and then the loop
    have go : ∀ (kv : K × V) (m' : HMerge K V) (l' r' : List (K × V)) (d d' : Cmps K), l'.length + r'.length < fuel → Cmps.Agree (mergeCost l' r') d d' →
        SameFrom (peeking m'.left l' ∗ peeking m'.right r' ∗ built root cur H T ∗ sched al)
          ((sortedPush root cur kv >>= fun r => (pure (.inl (⟨m', r.2, r.1, len + 1⟩, d)) : HM K V ((Building K V × Cmps K) ⊕ Building K V))) >>= fun r =>
            goOn (loopN buildStepO fuel) r >>= k)
          ((sortedPush root cur kv >>= fun r => (pure (.inl (⟨m', r.2, r.1, len + 1⟩, d')) : HM K V ((Building K V × Cmps K) ⊕ Building K V))) >>= fun r =>
            goOn (loopN buildStepO fuel) r >>= k) := by
      intro kv m' l' r' d d' hf' ha'
      rw [hm_assoc, hm_assoc]
      have hspec := BTree.fromSortedLoop_spec [kv] hb hl h1 al
      refine SameFrom.pre (P' := (built root cur H T ∗ sched al) ∗ (peeking m'.left l' ∗ peeking m'.right r')) ?_ (by ent_ac)
      refine SameFrom.call (sortedPush_ref hb hl fun msg hm => trivial) fun cc => ?_
      rw [hex_sep]
      refine SameFrom.ofHex fun x => ?_
      obtain ⟨⟨H', T'⟩, al'⟩ := x
      dsimp only
      simp only [sep_assoc]
      refine SameFrom.getFact fun hp => ?_
      unfold pushRound at hp
      rw [hp] at hspec
      rcases hspec with ⟨h, _⟩ | ⟨h', t', a', q1, q2, q3, q4, q5, q6⟩
      · cases h
      simp only [Exec.ok.injEq, Prod.mk.injEq] at q1
      obtain ⟨⟨rfl, rfl⟩, rfl⟩ := q1
      show SameFrom _ (loopN buildStepO fuel (⟨m', cc.2, cc.1, len + 1⟩, d) >>= k) (loopN buildStepO fuel (⟨m', cc.2, cc.1, len + 1⟩, d') >>= k)
      refine SameFrom.pre (P' := peeking m'.left l' ∗ peeking m'.right r' ∗ built cc.2 cc.1 H' T' ∗ sched al') ?_ (by ent_ac)
      exact buildLoopO_same fuel (len := len + 1) hf' q3 q4 q5 ha'
    rw [loopN_succ, loopN_succ]
    generalize loopN buildStepO fuel = L at go ⊢
    unfold buildStepO HMerge.nextO
    dsimp only
    simp only [hm_assoc]
    refine SameFrom.call (P₀ := peeking m.left l) peek_spec fun a => ?_
    simp only [sep_assoc]
    refine SameFrom.getFact fun hpa => ?_
    refine SameFrom.pre (P' := peeking m.right r ∗ (peeking a.2 l ∗ built root cur H T ∗ sched al)) ?_ (by ent_ac)
    refine SameFrom.call (P₀ := peeking m.right r) peek_spec fun b => ?_
    simp only [sep_assoc]
    refine SameFrom.getFact fun hpb => ?_
    rw [hpa, hpb]
    cases l with
    | nil =>
      cases r with
      | nil => exact SameFrom.rfl'
      | cons y r =>
        dsimp only [List.head?]
        simp only [hm_assoc]
        refine SameFrom.call (P₀ := peeking b.2 (y :: r)) peekNext_spec fun o => ?_
        simp only [sep_assoc]
        refine SameFrom.getFact fun ho => ?_
        obtain ⟨o1, o2⟩ := o
        dsimp only at ho
        subst ho
        refine SameFrom.pre (go y ⟨a.2, o2⟩ [] r c c' (by simp at hf ⊢; omega) (by intro j hj; simp [mergeCost] at hj)) ?_
        dsimp only [List.tail]
        ent_ac
    | cons x l =>
      cases r with
      | nil =>
        dsimp only [List.head?]
        simp only [hm_assoc]
        refine SameFrom.pre (P' := peeking a.2 (x :: l) ∗ (peeking b.2 [] ∗ built root cur H T ∗ sched al)) ?_ (by ent_ac)
        refine SameFrom.call (P₀ := peeking a.2 (x :: l)) peekNext_spec fun o => ?_
        simp only [sep_assoc]
        refine SameFrom.getFact fun ho => ?_
        obtain ⟨o1, o2⟩ := o
        dsimp only at ho
        subst ho
        refine SameFrom.pre (go x ⟨o2, b.2⟩ l [] c c' (by simp at hf ⊢; omega) (by intro j hj; cases l <;> simp [mergeCost] at hj)) ?_
        dsimp only [List.tail]
        ent_ac
      | cons y r =>
        dsimp only [List.head?]
        rw [← ha 0 (by simp [mergeCost])]
        have hrest : ∀ l' r' : List (K × V), l'.length + r'.length ≤ l.length + r.length + 1 → Cmps.Agree (mergeCost l' r') c.rest c'.rest := by
          intro l' r' h
          refine (ha.drop (k := 1)).mono ?_
          have := mergeCost_le l' r'
          show mergeCost l' r' ≤ l.length + r.length + 1 - 1
          omega
        cases hc : c 0 x.1 y.1 with
        | none => exact SameFrom.rfl'
        | some w =>
          cases w with
          | lt =>
            dsimp only
            simp only [hm_assoc]
            refine SameFrom.pre (P' := peeking a.2 (x :: l) ∗ (peeking b.2 (y :: r) ∗ built root cur H T ∗ sched al)) ?_ (by ent_ac)
            refine SameFrom.call (P₀ := peeking a.2 (x :: l)) peekNext_spec fun o => ?_
            simp only [sep_assoc]
            refine SameFrom.getFact fun ho => ?_
            obtain ⟨o1, o2⟩ := o
            dsimp only at ho
            subst ho
            refine SameFrom.pre (go x ⟨o2, b.2⟩ l (y :: r) c.rest c'.rest (by simp at hf ⊢; omega) (hrest _ _ (by simp; omega))) ?_
            dsimp only [List.tail]
            ent_ac
          | gt =>
            dsimp only
            simp only [hm_assoc]
            refine SameFrom.call (P₀ := peeking b.2 (y :: r)) peekNext_spec fun o => ?_
            simp only [sep_assoc]
            refine SameFrom.getFact fun ho => ?_
            obtain ⟨o1, o2⟩ := o
            dsimp only at ho
            subst ho
            refine SameFrom.pre (go y ⟨a.2, o2⟩ (x :: l) r c.rest c'.rest (by simp at hf ⊢; omega) (hrest _ _ (by simp; omega))) ?_
            dsimp only [List.tail]
            ent_ac
          | eq =>
            dsimp only
            simp only [hm_assoc]
            refine SameFrom.pre (P' := peeking a.2 (x :: l) ∗ (peeking b.2 (y :: r) ∗ built root cur H T ∗ sched al)) ?_ (by ent_ac)
            refine SameFrom.call (P₀ := peeking a.2 (x :: l)) peekNext_spec fun o => ?_
            simp only [sep_assoc]
            refine SameFrom.getFact fun ho => ?_
            refine SameFrom.pre (P' := peeking b.2 (y :: r) ∗ (peeking o.2 l ∗ built root cur H T ∗ sched al)) ?_ (by dsimp only [List.tail]; ent_ac)
            refine SameFrom.call (P₀ := peeking b.2 (y :: r)) peekNext_spec fun o' => ?_
            simp only [sep_assoc]
            refine SameFrom.getFact fun ho' => ?_
            obtain ⟨o1, o2⟩ := o'
            dsimp only at ho'
            subst ho'
            refine SameFrom.pre (go y ⟨o.2, o2⟩ l r c.rest c'.rest (by simp at hf ⊢; omega) (hrest _ _ (by omega))) ?_
            dsimp only [List.tail]
            ent_ac

theorem fromSortedO_same {m : HMerge K V} {l r : List (K × V)} {al : Alloc} {bnd : Nat} {c c' : Cmps K} {k : HMap → HM K V ρ} (hbnd : l.length + r.length ≤ bnd)
    (ha : Cmps.Agree (mergeCost l r) c c') :
    SameFrom (peeking m.left l ∗ peeking m.right r ∗ sched al) (HMap.new.fromSortedIterO m bnd c >>= k) (HMap.new.fromSortedIterO m bnd c' >>= k) := by
  unfold HMap.fromSortedIterO HMap.ensureRootIsOwned
  rw [show HMap.new.root.node = SHARED from rfl, if_pos rfl]
  rw [hm_assoc, hm_assoc, hm_assoc, hm_assoc]
  refine SameFrom.pre (P' := sched al ∗ (peeking m.left l ∗ peeking m.right r)) ?_ (by ent_ac)
  refine SameFrom.call (P₀ := sched al) newLeaf_spec fun o => ?_
  cases o with
  | none => exact SameFrom.rfl'
  | some rt =>
    dsimp only
    simp only [sep_assoc]
    refine SameFrom.pre (P' := fact (al.request.1 = true) ∗ (rooted rt 0 (BTree.emptySpine 0 : Tree K V) ∗ sched al.request.2 ∗ peeking m.left l ∗ peeking m.right r)) ?_ (by ent_ac)
    refine SameFrom.getFact fun hyes => ?_
    show SameFrom _ ((lastLeafEdge rt.height rt.node >>= _) >>= k) ((lastLeafEdge rt.height rt.node >>= _) >>= k)
    rw [hm_assoc, hm_assoc]
    unfold rooted
    rw [hex_sep]
    refine SameFrom.ofHex fun x => ?_
    obtain ⟨ta, pi⟩ := x
    dsimp only
    rw [sep_assoc]
    refine SameFrom.getFact fun hf => ?_
    obtain ⟨he, rfl⟩ := hf
    dsimp only
    refine SameFrom.call (P₀ := tree (none, pi) 0 ta) lastLeafEdge_last fun e => ?_
    simp only [sep_assoc]
    refine SameFrom.getFact fun hel => ?_
    rw [hel, hm_assoc, hm_assoc]
    refine SameFrom.pre (P' := peeking m.left l ∗ peeking m.right r ∗ built ⟨0, ta.addr⟩ ⟨0, (lastLeaf 0 ta).addr⟩ 0 (emptyLeaf : Tree K V) ∗ sched al.request.2) ?_ ?_
    · have hb : BTree.Build 0 (emptyLeaf : Tree K V) := .leaf []
      exact buildLoopO_same (bnd + 1) (len := 0) (by omega) hb (by simp [emptyLeaf]) (by simp) ha
    · unfold built
      simp only [hex_sep, sep_hex]
      refine Ent.hex_right (ta, pi) ?_
      simp only [sep_assoc]
      refine Ent.putFact ⟨he, trivial, trivial⟩ ?_
      ent_ac

theorem appendO_same {hm ho : HMap} {M O : Map K V} {al : Alloc} {c c' : Cmps K} (hM : M.WF) (hO : O.WF)
    (ha : Cmps.Agree (M.toList.length + O.toList.length - 1) c c') :
    SameFrom (rep hm M ∗ rep ho O ∗ sched al) (hm.appendO ho c) (hm.appendO ho c') := by
  refine SameFrom.pre ?_ (Ent.frame rep_length _)
  rw [sep_assoc]
  refine SameFrom.getFact fun hl => ?_
  refine SameFrom.pre (P' := fact (ho.length = O.length) ∗ rep hm M ∗ rep ho O ∗ sched al) ?_ ?_
  rotate_left
  · refine Ent.trans (Ent.sep (Ent.refl _) (Ent.frame rep_length _)) ?_
    ent_ac
  refine SameFrom.getFact fun hol => ?_
  unfold HMap.appendO
  rw [hl, hol]
  by_cases h1 : O.length = 0
  · simp only [h1, if_true]
    exact SameFrom.rfl'
  by_cases h2 : M.length = 0
  · simp only [h1, h2, if_true, if_false]
    exact SameFrom.rfl'
  simp only [h1, h2, if_false]
  refine SameFrom.call (P₀ := rep hm M) (intoIter_spec hM.len) fun li => ?_
  simp only [sep_assoc]
  refine SameFrom.getFact fun hh1 => ?_
  refine SameFrom.pre (P' := rep ho O ∗ (peeking (⟨li, M.height, none⟩ : Peek K V) M.toList ∗ sched al)) ?_ (by
    rw [peeking_none]; unfold Map.toList; ent_ac)
  refine SameFrom.call (P₀ := rep ho O) (intoIter_spec hO.len) fun ri => ?_
  simp only [sep_assoc]
  refine SameFrom.getFact fun hh2 => ?_
  rw [hh1, hh2]
  refine SameFrom.pre (P' := (peeking (⟨li, M.height, none⟩ : Peek K V) M.toList ∗ peeking (⟨ri, O.height, none⟩ : Peek K V) O.toList ∗ sched al)) ?_ (by
    rw [peeking_none, peeking_none]; unfold Map.toList; ent_ac)
  exact fromSortedO_same (m := ⟨⟨li, M.height, none⟩, ⟨ri, O.height, none⟩⟩) (by rw [hM.len, hO.len]; exact Nat.le_refl _) (ha.mono (mergeCost_le _ _))

/-! ### several iterators -/

theorem openRangeO_alike (m : HMap) (bor : K → Q) (mk : HRange → HView) (lo hi : Bound Q) (p : List HView) {n : Nat} {c1 c2 d1 d2 : Cmps Q}
    (hc : Cmps.Agree (22 * (m.root.height + 1) + 2 + n) c1 c2) (hd : Cmps.Agree n d1 d2) (s : Heap K V) :
    (∃ x e1 e2 s', m.openRangeO bor mk lo hi p c1 d1 s = .ok ((x, e1), s') ∧ m.openRangeO bor mk lo hi p c2 d2 s = .ok ((x, e2), s') ∧ Cmps.Agree n e1 e2) ∨
      (m.openRangeO bor mk lo hi p c1 d1 s = m.openRangeO bor mk lo hi p c2 d2 s ∧ ∀ r, m.openRangeO bor mk lo hi p c1 d1 s ≠ .ok r) := by
  have h : Alike _ _ c1 c2 (catchRead (m.rangeO bor lo hi c1) s) (catchRead (m.rangeO bor lo hi c2) s) :=
    Uses.catch (rangeO_uses (V := V) m bor lo hi) c1 c2 s (hc.mono (by omega))
  unfold HMap.openRangeO
  simp only [bind_run]
  generalize catchRead (m.rangeO bor lo hi c1) s = x, catchRead (m.rangeO bor lo hi c2) s = y at h ⊢
  cases h with
  | panic msg => exact .inr ⟨rfl, fun r h => by cases h⟩
  | ub => exact .inr ⟨rfl, fun r h => by cases h⟩
  | ok g j s1 hg hj =>
    refine .inl ?_
    rcases hg with rfl | ⟨g, rfl | ⟨r, rfl⟩, rfl⟩
    · exact ⟨_, _, _, _, rfl, rfl, hd⟩
    · exact ⟨_, _, _, _, rfl, rfl, hd⟩
    · exact ⟨_, _, _, _, rfl, rfl, hc.drop.mono (by omega)⟩

theorem hrunO_alike (m : HMap) (bor : K → Q) (a : ViewAct Q) (p : List HView) {b n : Nat} (hb : 22 * (m.root.height + 1) + 2 ≤ boundsCost b) {c1 c2 d1 d2 : Cmps Q}
    (hc : Cmps.Agree (ViewAct.cost b a + n) c1 c2) (hd : Cmps.Agree n d1 d2) (s : Heap K V) :
    (∃ x e1 e2 s', ViewAct.hrunO m bor p c1 d1 a s = .ok ((x, e1), s') ∧ ViewAct.hrunO m bor p c2 d2 a s = .ok ((x, e2), s') ∧ Cmps.Agree n e1 e2) ∨
      (ViewAct.hrunO m bor p c1 d1 a s = ViewAct.hrunO m bor p c2 d2 a s ∧ ∀ r, ViewAct.hrunO m bor p c1 d1 a s ≠ .ok r) := by
  have plain : ∀ {σ : Type} (f : HM K V σ) (g : σ → Seen K V × List HView), 
      (∃ x e1 e2 s', (f >>= fun y => (pure (g y, c1) : HM K V ((Seen K V × List HView) × Cmps Q))) s = .ok ((x, e1), s') ∧
        (f >>= fun y => (pure (g y, c2) : HM K V ((Seen K V × List HView) × Cmps Q))) s = .ok ((x, e2), s') ∧ Cmps.Agree n e1 e2) ∨
      ((f >>= fun y => (pure (g y, c1) : HM K V ((Seen K V × List HView) × Cmps Q))) s = (f >>= fun y => (pure (g y, c2) : HM K V ((Seen K V × List HView) × Cmps Q))) s ∧
        ∀ r, (f >>= fun y => (pure (g y, c1) : HM K V ((Seen K V × List HView) × Cmps Q))) s ≠ .ok r) := by
    intro σ f g
    simp only [bind_run]
    cases f s with
    | ok r => exact .inl ⟨_, _, _, _, rfl, rfl, hc.mono (by omega)⟩
    | panic msg => exact .inr ⟨rfl, fun r h => by cases h⟩
    | ub => exact .inr ⟨rfl, fun r h => by cases h⟩
  match a with
  | .start (.range lo hi) => exact openRangeO_alike m bor .range lo hi p (hc.mono (by simp only [ViewAct.cost]; omega)) hd s
  | .start (.setRange lo hi) => exact openRangeO_alike m bor .setRange lo hi p (hc.mono (by simp only [ViewAct.cost]; omega)) hd s
  | .start .iter => exact plain m.iter fun it => (.opened, p ++ [.iter it])
  | .start .keys => exact plain m.iter fun it => (.opened, p ++ [.keys it])
  | .start .values => exact plain m.iter fun it => (.opened, p ++ [.values it])
  | .clone i => exact plain (onHView p i fun v => pure (.opened, p ++ [v.clone])) id
  | .ask i e => exact plain (onHView p i fun v => v.step m.root.height e >>= fun x => pure (.item x.1, p.set i x.2)) id
  | .hint i => exact plain (onHView p i fun v => pure (.hint v.sizeHint, p)) id
  | .debug i => exact plain (onHView p i fun v => v.debug m >>= fun l => pure (.list l, p)) id

theorem hrunsO_same (m : HMap) (bor : K → Q) {b : Nat} (hb : 22 * (m.root.height + 1) + 2 ≤ boundsCost b) : ∀ (acts : List (ViewAct Q)) (p : List HView)
    {c1 c2 : Cmps Q} {d1 d2 : Nat → Cmps Q}, Cmps.Agree (acts.map (ViewAct.cost b)).sum c1 c2 → (∀ n, Cmps.Agree (acts.map (ViewAct.cost b)).sum (d1 n) (d2 n)) →
    (ViewAct.hrunsO m bor acts p c1 d1 : HM K V _) = ViewAct.hrunsO m bor acts p c2 d2
  | [], _, _, _, _, _, _, _ => rfl
  | a :: as, p, c1, c2, d1, d2, hc, hd => by
    funext s
    simp only [List.map_cons, List.sum_cons] at hc hd
    unfold ViewAct.hrunsO
    simp only [bind_run]
    rcases hrunO_alike m bor a p hb hc ((hd 0).mono (by omega)) s with ⟨x, e1, e2, s', h1, h2, h3⟩ | ⟨h1, h2⟩
    · rw [h1, h2]
      dsimp only
      rw [hrunsO_same m bor hb as x.2 h3 fun n => (hd (n + 1)).mono (by omega)]
    · rw [← h1]
      cases hx : ViewAct.hrunO m bor p c1 (d1 0) a s with
      | ok r => exact absurd hx (h2 r)
      | panic msg => rfl
      | ub => rfl

end Verif.Heap
