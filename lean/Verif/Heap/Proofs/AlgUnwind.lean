import Verif.Heap.AlgUnwind
import Verif.Heap.Proofs.SetAlg
import Verif.BTree.Proofs.AlgCost
/-
The set algebra in memory when a comparison of elements panics: what it does is what the level-1 model says, and it only reads; an operator that is unwound
leaves the memory as it was.
-/
namespace Verif.Heap
open Verif
open Verif.BTree (Map BSet SetIter Peekable Difference Intersection TwoIters AlgView cmpOpt cmpP SearchResult CAPACITY emptyLeaf)
open Verif.Spec (AlgKind)

variable {K V Q T α β : Type} {E : String → Prop}

/-! ### search -/

/-- What a search that was perhaps unwound found. -/
def FoundAtU (h : Nat) (t : ATree K V) (up : List Nat) : Option (SearchResult × Nat) → Option (Found × Nat) → Prop
  | none, none => True
  | some (r, f), some (o, f') => FoundAt h t up r o ∧ f' = f
  | _, _ => False

theorem FoundAtU.none {h : Nat} {t : ATree K V} {up : List Nat} : FoundAtU h t up none none := trivial

theorem FoundAtU.some {h : Nat} {t : ATree K V} {up : List Nat} {r : SearchResult} {o : Found} {f : Nat} (hf : FoundAt h t up r o) : FoundAtU h t up (some (r, f)) (some (o, f)) := ⟨hf, rfl⟩

theorem FoundAtU.under {h : Nat} {a : Addr} {kvs : List (K × V)} {X Y : List (ATree K V)} {c : ATree K V} {i : Nat} {up : List Nat}
    {r : Option (SearchResult × Nat)} {o : Option (Found × Nat)} (hf : FoundAtU h c (i :: up) r o) (hi : X.length = i) : FoundAtU (h + 1) ⟨a, kvs, X ++ c :: Y⟩ up r o := by
  match r, o, hf with
  | .none, .none, _ => trivial
  | .some (r, g), .some (o, g'), hf => exact ⟨hf.1.under (a := a) (kvs := kvs) (Y := Y) hi, hf.2⟩

theorem searchTreeU_spec [Ord Q] {bor : K → Q} {q : Q} : ∀ {h : Nat} {l : Link} {t : ATree K V} {up : List Nat} {fuel : Nat} {r : Option (SearchResult × Nat)},
    BTree.searchTreeP bor q h t.erase up fuel = .ok r →
    Triple E (tree l h t) (searchTreeU bor q h t.addr fuel) (fun o => fact (FoundAtU h t up r o) ∗ tree l h t)
  | 0, l, ⟨a, kvs, es⟩, up, fuel, r, hr => by
    unfold searchTreeU
    refine Triple.callEq (P₀ := tree l 0 ⟨a, kvs, es⟩) searchLinearU_tree ?_
    unfold BTree.searchTreeP at hr
    simp only [ATree.erase_kvs] at hr
    cases hs : BTree.searchFromP bor q 0 kvs fuel with
    | none =>
      rw [hs] at hr
      simp only [Exec.ok.injEq] at hr; subst hr
      exact Triple.ofPure (Ent.putFact FoundAtU.none (by ent_ac))
    | some x =>
      obtain ⟨⟨i, b⟩, f⟩ := x
      rw [hs] at hr
      cases b with
      | false =>
        simp only [Exec.ok.injEq] at hr; subst hr
        simp only [Bool.false_eq_true, if_false]
        exact Triple.ofPure (Ent.putFact (FoundAtU.some FoundAt.goDown0) (by ent_ac))
      | true =>
        simp only [Exec.ok.injEq] at hr; subst hr
        simp only [if_true]
        exact Triple.ofPure (Ent.putFact (FoundAtU.some FoundAt.found0) (by ent_ac))
  | h + 1, l, ⟨a, kvs, es⟩, up, fuel, r, hr => by
    unfold searchTreeU
    refine Triple.callEq (P₀ := tree l (h + 1) ⟨a, kvs, es⟩) searchLinearU_tree ?_
    unfold BTree.searchTreeP at hr
    simp only [ATree.erase_kvs] at hr
    cases hs : BTree.searchFromP bor q 0 kvs fuel with
    | none =>
      rw [hs] at hr
      simp only [Exec.ok.injEq] at hr; subst hr
      exact Triple.ofPure (Ent.putFact FoundAtU.none (by ent_ac))
    | some x =>
      obtain ⟨⟨i, b⟩, f⟩ := x
      rw [hs] at hr
      cases b with
      | true =>
        simp only [Exec.ok.injEq] at hr; subst hr
        simp only [if_true]
        exact Triple.ofPure (Ent.putFact (FoundAtU.some FoundAt.found0) (by ent_ac))
      | false =>
        simp only at hr
        obtain ⟨c', hc, hr2⟩ := Exec.bind_eq_ok.1 hr
        rw [ATree.erase_edges] at hc
        obtain ⟨X, c, Y, e, hi, rfl⟩ := getE_map_ok hc
        dsimp only at e; subst e
        rw [tree_internal, sep_emp]
        refine Triple.getFact fun hf => ?_
        obtain ⟨he, hcap⟩ := hf
        simp only [Bool.false_eq_true, if_false]
        simp only [List.length_append, List.length_cons] at he
        refine Triple.bindDescend (c := c.addr) (by subst hi; simp) (by len_omega) ?_
        refine Triple.callLast (P₀ := tree (some a, some X.length) h c) (R := fact (X.length + Y.length + 1 = kvs.length + 1 ∧ kvs.length ≤ CAPACITY) ∗
            pts a (nd .internal l kvs (addrs X ++ c.addr :: addrs Y)) ∗ kids h a 0 X ∗ kids h a (X.length + 1) Y) (h := ⟨?_⟩) (searchTreeU_spec hr2) fun o => ?_
        · rw [kids_append, kids_cons, Nat.zero_add]
          rw [fact_of (show X.length + Y.length + 1 = kvs.length + 1 ∧ kvs.length ≤ CAPACITY from ⟨by omega, hcap⟩), emp_sep]
          simp only [addrs, List.map_append, List.map_cons]
          ac_rfl
        · simp only [sep_assoc]
          refine Ent.getFact fun hfo => ?_
          refine Ent.putFact (hfo.under (a := a) (kvs := kvs) (Y := Y) hi) ?_
          refine Ent.getFact fun hf2 => ?_
          rw [kids_append, kids_cons, Nat.zero_add]
          refine Ent.putFact ⟨by simp only [List.length_append, List.length_cons]; omega, hcap⟩ ?_
          simp only [addrs, List.map_append, List.map_cons]
          ent_ac

theorem searchU_spec [Ord Q] {bor : K → Q} {q : Q} {hm : HMap} {M : Map K V} {ta : ATree K V} {fuel : Nat} {r : Option (SearchResult × Nat)} (hr : M.searchP bor q fuel = .ok r) :
    Triple E (own hm M ta) (hm.searchU bor q fuel) (fun o => fact (FoundAtU M.height ta [] r o) ∗ own hm M ta) := by
  obtain ⟨H, root, shared, len⟩ := M
  cases shared with
  | false =>
    rw [own_owned rfl]
    refine Triple.ofHex fun pi => ?_
    refine Triple.getFact fun hf => ?_
    obtain ⟨rfl, rfl⟩ := hf
    refine (searchTreeU_spec hr).post fun o => ?_
    refine Ent.getFact fun hf => ?_
    refine Ent.putFact hf ?_
    refine Ent.hex_right pi ?_
    exact Ent.putFact ⟨rfl, rfl⟩ (Ent.refl _)
  | true =>
    rw [own_shared rfl]
    refine Triple.getFact fun hf => ?_
    obtain ⟨rfl, rfl, rfl, rfl⟩ := hf
    unfold BTree.Map.searchP BTree.searchTreeP at hr
    simp only [emptyLeaf, BTree.searchFromP, Exec.ok.injEq] at hr
    subst hr
    show Triple E emp (pure (some (Found.goDown ⟨0, SHARED, 0⟩, fuel))) _
    refine Triple.ofPure ?_
    refine Ent.putFact (FoundAtU.some (FoundAt.goDown0 (t := ⟨SHARED, [], []⟩))) ?_
    exact Ent.putFact ⟨rfl, rfl, rfl, rfl⟩ (Ent.refl _)

/-- `contains`. -/
theorem setContainsU_spec [Ord T] {x : T} {hm : HMap} {b : BSet T} {ta : ATree T Unit} {cmps : Nat} {r : Option (Bool × Nat)} (hr : b.containsP id x cmps = .ok r) :
    Triple E (own hm b.map ta) (hm.setContainsU x cmps) (fun o => fact (o = r) ∗ own hm b.map ta) := by
  unfold BSet.containsP at hr
  obtain ⟨sr, hs, hr⟩ := Exec.bind_eq_ok.1 hr
  unfold HMap.setContainsU HMap.getKeyValueU
  rw [hm_assoc]
  refine Triple.seq (searchU_spec hs) fun o => ?_
  refine Triple.getFact fun hf => ?_
  match sr, o, hf with
  | none, none, _ =>
    simp only [Exec.ok.injEq] at hr; subst hr
    exact Triple.ofPure (Ent.putFact rfl (Ent.refl _))
  | some (.goDown hd, f), some (.goDown hx, f'), hf =>
    obtain ⟨_, rfl⟩ := hf
    simp only [Exec.ok.injEq] at hr; subst hr
    exact Triple.ofPure (Ent.putFact rfl (Ent.refl _))
  | some (.found hd, f), some (.goDown hx, f'), hf => exact hf.1.elim
  | some (.goDown hd, f), some (.found hx, f'), hf => exact hf.1.elim
  | some (.found hd, f), some (.found hx, f'), hf =>
    obtain ⟨⟨hd0, rfl, hat⟩, rfl⟩ := hf
    simp only [List.append_nil] at hr
    obtain ⟨kv, hk, hr⟩ := Exec.bind_eq_ok.1 hr
    simp only [Exec.ok.injEq] at hr; subst hr
    obtain ⟨⟨H, root, shared, len⟩⟩ := b
    cases shared with
    | false =>
      rw [own_owned rfl]
      refine Triple.ofHex fun pi => ?_
      refine Triple.getFact fun hf => ?_
      obtain ⟨rfl, rfl⟩ := hf
      dsimp only
      rw [hm_assoc]
      refine Triple.seq (kvOf_spec hat hk) fun o => ?_
      refine Triple.getFact fun e => ?_
      subst e
      refine Triple.ofPure (Ent.putFact rfl ?_)
      exact Ent.hex_right pi (Ent.putFact ⟨rfl, rfl⟩ (Ent.refl _))
    | true =>
      rw [own_shared rfl]
      refine Triple.getFact fun hf => ?_
      obtain ⟨rfl, rfl, rfl, rfl⟩ := hf
      unfold BTree.Map.searchP BTree.searchTreeP at hs
      simp only [emptyLeaf, BTree.searchFromP, Exec.ok.injEq] at hs
      cases hs

/-- `contains`, from what is known about the memory. -/
theorem containsU_ref [Ord T] {s : Heap T Unit} {Kn : HProp T Unit → Prop} (hg : Knows s Kn) {b : BSet T} {m : HMap} (h : SetAt Kn b m) (x : T) (cmps : Nat) :
    Refines s (m.setContainsU x cmps) (b.containsP id x cmps) Eq := by
  obtain ⟨_, _, _, ta, hk⟩ := h
  obtain ⟨F, hw⟩ := hg.2 _ hk
  intro r e
  obtain ⟨a, s', h1, _, h2⟩ := Triple.returns (setContainsU_spec (E := fun _ => False) e) hg.1 hw
  rw [sep_assoc] at h2
  have h3 := (fact_sep.1 h2).1
  have h4 := getKeyValueU_cuts m id x cmps s
  have : s' = s := by
    unfold HMap.setContainsU at h1
    rw [bind_run] at h1
    cases hx : (m.getKeyValueU id x cmps) s with
    | ub => rw [hx] at h1; cases h1
    | panic e => rw [hx] at h1; cases h1
    | ok y =>
      obtain ⟨y, s1⟩ := y
      rw [hx] at h1 h4
      cases y with
      | none =>
        obtain ⟨rfl, _⟩ := h4
        exact ((run_pure.1 h1).2).symm
      | some y =>
        obtain ⟨rfl, _⟩ := h4
        exact ((run_pure.1 h1).2).symm
  subst this
  exact ⟨a, h1, h3⟩

/-! ### `next` -/

/-- What a `next` that was perhaps unwound did. -/
def OutAt {I J : Type} (R : I → J → Prop) : BTree.Outcome I ((Option T × I) × Nat) → BTree.Outcome J ((Option T × J) × Nat) → Prop
  | .done (x, f), .done (y, g) => ItemAt R x y ∧ f = g
  | .unwound x w, .unwound y w' => R x y ∧ w = w'
  | _, _ => False

section
variable {s : Heap T Unit} {Kn : HProp T Unit → Prop} [Ord T]

theorem differenceStitchU_ref (hg : Knows s Kn) : ∀ (fuel : Nat) (x : T) {i : HSetIter} {i' : SetIter T} {j : HPeekable T} {j' : Peekable T} (c : Nat), SetIterAt Kn i i' →
    PeekAt Kn j j' → Refines s (hdifferenceStitchU fuel x i j c) (BTree.differenceStitchP fuel x i' j' c) (OutAt (DiffAt Kn))
  | 0, _, _, _, _, _, _, _, _ => Refines.panics
  | fuel + 1, x, i, i', j, j', c, h, h' => by
    unfold hdifferenceStitchU BTree.differenceStitchP
    refine Refines.seq (peek_ref hg h') fun p p' hp => ?_
    rw [hp.1]
    cases cmpP (some x) p'.1 .lt .lt c with
    | none => exact Refines.ret ⟨⟨h, hp.2⟩, rfl⟩
    | some z =>
      obtain ⟨o, c⟩ := z
      cases o with
      | lt => exact Refines.ret ⟨⟨rfl, h, hp.2⟩, rfl⟩
      | eq =>
        refine Refines.seq (setNext_ref hg h) fun n n' hn => ?_
        rw [hn.1]
        cases n'.1 with
        | none => exact Refines.ret ⟨⟨rfl, hn.2, hp.2⟩, rfl⟩
        | some x' => exact Refines.seq (peekNext_ref hg hp.2) fun q q' hq => differenceStitchU_ref hg fuel x' c hn.2 hq.2
      | gt => exact Refines.seq (peekNext_ref hg hp.2) fun q q' hq => differenceStitchU_ref hg fuel x c h hq.2

theorem differenceSearchU_ref (hg : Knows s Kn) {o : BSet T} {n : HMap} (ho : SetAt Kn o n) : ∀ (fuel : Nat) {i : HSetIter} {i' : SetIter T} (c : Nat), SetIterAt Kn i i' →
    Refines s (hdifferenceSearchU n fuel i c) (BTree.differenceSearchP o fuel i' c) (OutAt (DiffAt Kn))
  | 0, _, _, _, _ => Refines.panics
  | fuel + 1, i, i', c, h => by
    unfold hdifferenceSearchU BTree.differenceSearchP
    refine Refines.seq (setNext_ref hg h) fun p p' hp => ?_
    rw [hp.1]
    cases p'.1 with
    | none => exact Refines.ret ⟨⟨rfl, hp.2, ho⟩, rfl⟩
    | some x =>
      refine Refines.seq (containsU_ref hg ho x c) fun z z' hz => ?_
      subst hz
      match z with
      | none => exact Refines.ret ⟨⟨hp.2, ho⟩, rfl⟩
      | some (true, c) => exact differenceSearchU_ref hg ho fuel c hp.2
      | some (false, c) => exact Refines.ret ⟨⟨rfl, hp.2, ho⟩, rfl⟩

theorem differenceNextU_ref (hg : Knows s Kn) {d : HDifference T} {d' : Difference T} (h : DiffAt Kn d d') (c : Nat) : Refines s (d.nextU c) (d'.nextP c) (OutAt (DiffAt Kn)) := by
  cases d <;> cases d' <;> first | exact h.elim | skip
  · obtain ⟨h1, h2⟩ := h
    unfold HDifference.nextU Difference.nextP
    refine Refines.seq (setNext_ref hg h1) fun n n' hn => ?_
    rw [hn.1]
    cases n'.1 with
    | none => exact Refines.ret ⟨⟨rfl, hn.2, h2⟩, rfl⟩
    | some x =>
      dsimp only
      rw [h2.len]
      exact differenceStitchU_ref hg _ x c hn.2 h2
  · obtain ⟨h1, h2⟩ := h
    unfold HDifference.nextU Difference.nextP
    dsimp only
    rw [h1.len]
    exact differenceSearchU_ref hg h2 _ c h1

theorem symDiffLoopU_ref (hg : Knows s Kn) : ∀ (fuel : Nat) {t : HTwoIters T} {u : TwoIters T} (c : Nat), TwoAt Kn t u →
    Refines s (hsymDiffLoopU fuel t c) (BTree.symDiffLoopP fuel u c) (OutAt (TwoAt Kn))
  | 0, _, _, _, _ => Refines.panics
  | fuel + 1, t, u, c, h => by
    unfold hsymDiffLoopU BTree.symDiffLoopP
    refine Refines.seq (peek_ref hg h.1) fun p p' hp => ?_
    refine Refines.seq (peek_ref hg h.2) fun q q' hq => ?_
    rw [hp.1, hq.1]
    cases cmpP p'.1 q'.1 .gt .lt c with
    | none => exact Refines.ret ⟨⟨hp.2, hq.2⟩, rfl⟩
    | some z =>
      obtain ⟨o, c⟩ := z
      cases o with
      | lt => exact Refines.seq (peekNext_ref hg hp.2) fun _ _ hn => Refines.ret ⟨⟨hn.1, hn.2, hq.2⟩, rfl⟩
      | eq => exact Refines.seq (peekNext_ref hg hp.2) fun _ _ hn => Refines.seq (peekNext_ref hg hq.2) fun _ _ hn' => symDiffLoopU_ref hg fuel c ⟨hn.2, hn'.2⟩
      | gt => exact Refines.seq (peekNext_ref hg hq.2) fun _ _ hn => Refines.ret ⟨⟨hn.1, hp.2, hn.2⟩, rfl⟩

theorem symDiffNextU_ref (hg : Knows s Kn) {t : HTwoIters T} {u : TwoIters T} (h : TwoAt Kn t u) (c : Nat) :
    Refines s (t.symDiffNextU c) (BTree.symDiffLoopP (u.a.len + u.b.len + 1) u c) (OutAt (TwoAt Kn)) := by
  unfold HTwoIters.symDiffNextU
  rw [h.1.len, h.2.len]
  exact symDiffLoopU_ref hg _ c h

theorem unionNextU_ref (hg : Knows s Kn) {t : HTwoIters T} {u : TwoIters T} (h : TwoAt Kn t u) (c : Nat) : Refines s (t.unionNextU c) (u.unionNextP c) (OutAt (TwoAt Kn)) := by
  unfold HTwoIters.unionNextU TwoIters.unionNextP
  refine Refines.seq (peek_ref hg h.1) fun p p' hp => ?_
  refine Refines.seq (peek_ref hg h.2) fun q q' hq => ?_
  rw [hp.1, hq.1]
  cases cmpP p'.1 q'.1 .gt .lt c with
  | none => exact Refines.ret ⟨⟨hp.2, hq.2⟩, rfl⟩
  | some z =>
    obtain ⟨o, c⟩ := z
    cases o with
    | lt => exact Refines.seq (peekNext_ref hg hp.2) fun _ _ hn => Refines.ret ⟨⟨hn.1, hn.2, hq.2⟩, rfl⟩
    | eq => exact Refines.seq (peekNext_ref hg hq.2) fun _ _ hn' => Refines.seq (peekNext_ref hg hp.2) fun _ _ hn => Refines.ret ⟨⟨hn.1, hn.2, hn'.2⟩, rfl⟩
    | gt => exact Refines.seq (peekNext_ref hg hq.2) fun _ _ hn => Refines.ret ⟨⟨hn.1, hp.2, hn.2⟩, rfl⟩

theorem intersectionStitchU_ref (hg : Knows s Kn) : ∀ (fuel : Nat) (x y : T) {i j : HSetIter} {i' j' : SetIter T} (c : Nat), SetIterAt Kn i i' → SetIterAt Kn j j' →
    Refines s (hintersectionStitchU fuel x y i j c) (BTree.intersectionStitchP fuel x y i' j' c) (OutAt (InterAt Kn))
  | 0, _, _, _, _, _, _, _, _, _ => Refines.panics
  | fuel + 1, x, y, i, j, i', j', c, h, h' => by
    unfold hintersectionStitchU BTree.intersectionStitchP
    cases cmpP (some x) (some y) .lt .lt c with
    | none => exact Refines.ret ⟨⟨h, h'⟩, rfl⟩
    | some z =>
      obtain ⟨o, c⟩ := z
      cases o with
      | lt =>
        refine Refines.seq (setNext_ref hg h) fun n n' hn => ?_
        rw [hn.1]
        cases n'.1 with
        | none => exact Refines.ret ⟨⟨rfl, hn.2, h'⟩, rfl⟩
        | some x' => exact intersectionStitchU_ref hg fuel x' y c hn.2 h'
      | gt =>
        refine Refines.seq (setNext_ref hg h') fun n n' hn => ?_
        rw [hn.1]
        cases n'.1 with
        | none => exact Refines.ret ⟨⟨rfl, h, hn.2⟩, rfl⟩
        | some y' => exact intersectionStitchU_ref hg fuel x y' c h hn.2
      | eq => exact Refines.ret ⟨⟨rfl, h, h'⟩, rfl⟩

theorem intersectionSearchU_ref (hg : Knows s Kn) {o : BSet T} {n : HMap} (ho : SetAt Kn o n) : ∀ (fuel : Nat) {i : HSetIter} {i' : SetIter T} (c : Nat), SetIterAt Kn i i' →
    Refines s (hintersectionSearchU n fuel i c) (BTree.intersectionSearchP o fuel i' c) (OutAt (InterAt Kn))
  | 0, _, _, _, _ => Refines.panics
  | fuel + 1, i, i', c, h => by
    unfold hintersectionSearchU BTree.intersectionSearchP
    refine Refines.seq (setNext_ref hg h) fun p p' hp => ?_
    rw [hp.1]
    cases p'.1 with
    | none => exact Refines.ret ⟨⟨rfl, hp.2, ho⟩, rfl⟩
    | some x =>
      refine Refines.seq (containsU_ref hg ho x c) fun z z' hz => ?_
      subst hz
      match z with
      | none => exact Refines.ret ⟨⟨hp.2, ho⟩, rfl⟩
      | some (true, c) => exact Refines.ret ⟨⟨rfl, hp.2, ho⟩, rfl⟩
      | some (false, c) => exact intersectionSearchU_ref hg ho fuel c hp.2

theorem intersectionNextU_ref (hg : Knows s Kn) {d : HIntersection} {d' : BTree.Intersection T} (h : InterAt Kn d d') (c : Nat) :
    Refines s (d.nextU c) (d'.nextP c) (OutAt (InterAt Kn)) := by
  cases d <;> cases d' <;> first | exact h.elim | skip
  · obtain ⟨h1, h2⟩ := h
    unfold HIntersection.nextU BTree.Intersection.nextP
    refine Refines.seq (setNext_ref hg h1) fun n n' hn => ?_
    rw [hn.1]
    cases n'.1 with
    | none => exact Refines.ret ⟨⟨rfl, hn.2, h2⟩, rfl⟩
    | some x =>
      refine Refines.seq (setNext_ref hg h2) fun k k' hk => ?_
      rw [hk.1]
      cases k'.1 with
      | none => exact Refines.ret ⟨⟨rfl, hn.2, hk.2⟩, rfl⟩
      | some y =>
        dsimp only
        rw [hn.2.len, hk.2.len]
        exact intersectionStitchU_ref hg _ x y c hn.2 hk.2
  · obtain ⟨h1, h2⟩ := h
    unfold HIntersection.nextU BTree.Intersection.nextP
    dsimp only
    rw [h1.len]
    exact intersectionSearchU_ref hg h2 _ c h1

omit [Ord T] in
theorem OutAt.wrap {I J I' J' : Type} {R : I → J → Prop} {R' : I' → J' → Prop} {f : I → I'} {g : J → J'} (h : ∀ a b, R a b → R' (f a) (g b)) {x : BTree.Outcome I ((Option T × I) × Nat)}
    {y : BTree.Outcome J ((Option T × J) × Nat)} (hxy : OutAt R x y) : OutAt R' (wrapU f x) (y.wrap g) := by
  match x, y, hxy with
  | .done _, .done _, hxy => exact ⟨⟨hxy.1.1, h _ _ hxy.1.2⟩, hxy.2⟩
  | .unwound _ _, .unwound _ _, hxy => exact ⟨h _ _ hxy.1, hxy.2⟩

theorem algNextU_ref (hg : Knows s Kn) {v : HAlgView T} {w : AlgView T} (h : AlgAt Kn v w) (c : Nat) : Refines s (v.nextU c) (w.nextP c) (OutAt (AlgAt Kn)) := by
  cases v <;> cases w <;> first | exact h.elim | skip
  · exact Refines.seq (differenceNextU_ref hg h c) fun _ _ hn => Refines.ret (hn.wrap (R' := AlgAt Kn) (f := HAlgView.difference) (g := AlgView.difference) fun _ _ h => h)
  · exact Refines.seq (symDiffNextU_ref hg h c) fun _ _ hn => Refines.ret (hn.wrap (R' := AlgAt Kn) (f := HAlgView.symmetricDifference) (g := AlgView.symmetricDifference) fun _ _ h => h)
  · exact Refines.seq (intersectionNextU_ref hg h c) fun _ _ hn => Refines.ret (hn.wrap (R' := AlgAt Kn) (f := HAlgView.intersection) (g := AlgView.intersection) fun _ _ h => h)
  · exact Refines.seq (unionNextU_ref hg h c) fun _ _ hn => Refines.ret (hn.wrap (R' := AlgAt Kn) (f := HAlgView.union) (g := AlgView.union) fun _ _ h => h)

theorem callsU_ref (hg : Knows s Kn) : ∀ (cs : List Nat) {v : HAlgView T} {w : AlgView T}, AlgAt Kn v w →
    Refines s (v.callsU cs) (w.callsP cs) (fun a b => a.1 = b.1 ∧ AlgAt Kn a.2 b.2)
  | [], _, _, h => Refines.ret ⟨rfl, h⟩
  | c :: cs, v, w, h => by
    unfold HAlgView.callsU AlgView.callsP
    refine Refines.seq (algNextU_ref hg h c) fun x y hxy => ?_
    match x, y, hxy with
    | .done ((x, v), _), .done ((y, w), _), hxy =>
      obtain ⟨⟨hx, hv⟩, _⟩ := hxy
      dsimp only at hx hv
      subst hx
      exact Refines.seq (callsU_ref hg cs hv) fun _ _ hr => Refines.ret ⟨by rw [hr.1], hr.2⟩
    | .unwound v _, .unwound w _, hxy => exact Refines.seq (callsU_ref hg cs hxy.1) fun _ _ hr => Refines.ret ⟨by rw [hr.1], hr.2⟩

theorem rest_ref (hg : Knows s Kn) : ∀ (n : Nat) {v : HAlgView T} {w : AlgView T}, AlgAt Kn v w →
    Refines s (v.rest n) (BTree.runN AlgView.next n w) (fun a b => a = b.1)
  | 0, _, _, _ => Refines.ret rfl
  | n + 1, v, w, h => by
    unfold HAlgView.rest BTree.runN
    refine Refines.seq (algNext_ref hg h) fun x y hxy => ?_
    exact Refines.seq (rest_ref hg n hxy.2) fun _ _ hr => Refines.ret (by rw [hxy.1, hr])

end

end Verif.Heap
