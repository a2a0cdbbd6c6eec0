import Verif.Heap.AnyOrd
import Verif.Heap.Proofs.UnwindOps
/-
With the comparisons of an honest `Ord` the calls of Verif/Heap/AnyOrd.lean are those of Verif/Heap/Api.lean.
-/
namespace Verif.Heap
open Verif
open Verif.BTree (CAPACITY)
open Verif.Spec (Bound End MutAct Op Out Source ViewAct Seen)

variable {K V Q α β τ : Type}

/-- `some` of the result, and the same comparisons again. -/
abbrev still [Ord Q] (m : HM K V α) : HM K V (Option (α × Cmps Q)) := do
  let r ← m
  pure (some (r, Cmps.ofOrd))

theorem searchKeysO_honest [Ord Q] (bor : K → Q) (q : Q) (a : Addr) : ∀ (n i : Nat),
    (searchKeysO bor q a i n Cmps.ofOrd : HM K V _) = still (searchKeys bor q a i n)
  | 0, i => rfl
  | n + 1, i => by
    unfold searchKeysO searchKeys still
    rw [hm_assoc]
    refine bind_congr fun nd => ?_
    rw [hm_assoc]
    refine bind_congr fun k => ?_
    show (match some (compare q (bor k)) with
      | none => _
      | some .gt => _
      | some .eq => _
      | some .lt => _) = _
    cases compare q (bor k) with
    | lt => rfl
    | eq => rfl
    | gt => exact searchKeysO_honest bor q a n (i + 1)

theorem searchLinearO_honest [Ord Q] (bor : K → Q) (q : Q) (a : Addr) : (searchLinearO bor q a Cmps.ofOrd : HM K V _) = still (searchLinear bor q a) := by
  unfold searchLinearO searchLinear still
  rw [hm_assoc]
  exact bind_congr fun len => searchKeysO_honest bor q a len 0

theorem searchTreeO_honest [Ord Q] (bor : K → Q) (q : Q) : ∀ (h : Nat) (a : Addr), (searchTreeO bor q h a Cmps.ofOrd : HM K V _) = still (searchTree bor q h a)
  | 0, a => by
    unfold searchTreeO searchTree
    rw [searchLinearO_honest]
    unfold still
    rw [hm_assoc, hm_assoc]
    exact bind_congr fun r => rfl
  | h + 1, a => by
    unfold searchTreeO searchTree
    rw [searchLinearO_honest]
    unfold still
    rw [hm_assoc, hm_assoc]
    refine bind_congr fun r => ?_
    obtain ⟨i, b⟩ := r
    rw [pure_bind']
    dsimp only
    cases b with
    | true => rfl
    | false =>
      simp only [Bool.false_eq_true, if_false]
      rw [hm_assoc]
      exact bind_congr fun d => searchTreeO_honest bor q h d.node

theorem searchO_honest [Ord Q] (bor : K → Q) (q : Q) (m : HMap) : (m.searchO bor q Cmps.ofOrd : HM K V _) = still (m.search bor q) := searchTreeO_honest bor q _ _

theorem getKeyValueO_honest [Ord Q] (bor : K → Q) (q : Q) (m : HMap) : (m.getKeyValueO bor q Cmps.ofOrd : HM K V _) = (do
    let r ← m.getKeyValue bor q
    pure (some r)) := by
  unfold HMap.getKeyValueO HMap.getKeyValue
  rw [searchO_honest]
  unfold still
  rw [hm_assoc, hm_assoc]
  refine bind_congr fun r => ?_
  cases r with
  | found h => show (kvOf h >>= _) = (kvOf h >>= _) >>= _; rw [hm_assoc]; rfl
  | goDown h => rfl

theorem updateValO_honest [Ord Q] (bor : K → Q) (q : Q) (f : V → V) (m : HMap) : (m.updateValO bor q f Cmps.ofOrd : HM K V _) = (do
    let r ← m.updateVal bor q f
    pure (some r)) := by
  unfold HMap.updateValO HMap.updateVal
  rw [searchO_honest]
  unfold still
  rw [hm_assoc, hm_assoc]
  refine bind_congr fun r => ?_
  cases r with
  | found h => show (updVal h f >>= _) = (updVal h f >>= _) >>= _; rw [hm_assoc]; rfl
  | goDown h => rfl

theorem removeEntryO_honest [Ord Q] (bor : K → Q) (q : Q) (m : HMap) : (m.removeEntryO bor q Cmps.ofOrd : HM K V _) = (do
    let r ← m.removeEntry bor q
    pure (some r.1, r.2)) := by
  unfold HMap.removeEntryO HMap.removeEntry
  rw [searchO_honest]
  unfold still
  rw [hm_assoc, hm_assoc]
  refine bind_congr fun r => ?_
  cases r with
  | found h => show (m.removeKv h >>= _) = (m.removeKv h >>= _) >>= _; rw [hm_assoc]; rfl
  | goDown h => rfl

theorem tryEntryO_honest [Ord K] (m : HMap) (k : K) : (m.tryEntryO k Cmps.ofOrd : HM K V _) = (do
    let r ← m.tryEntry k
    pure (some (r.1, Cmps.ofOrd), r.2)) := by
  unfold HMap.tryEntryO HMap.tryEntry
  rw [hm_assoc]
  refine bind_congr fun r => ?_
  cases r with
  | none => rfl
  | some m' =>
    dsimp only
    rw [searchO_honest]
    unfold still
    rw [hm_assoc, hm_assoc]
    refine bind_congr fun r => ?_
    cases r <;> rfl

theorem tryInsertO_honest [Ord K] (m : HMap) (k : K) (v : V) : (m.tryInsertO k v Cmps.ofOrd : HM K V _) = (do
    let r ← m.tryInsert k v
    pure (some (r.1, Cmps.ofOrd), r.2)) := by
  unfold HMap.tryInsertO HMap.tryInsert
  rw [tryEntryO_honest, hm_assoc, hm_assoc]
  refine bind_congr fun r => ?_
  obtain ⟨e, m'⟩ := r
  rw [pure_bind']
  cases e with
  | none => rfl
  | some e =>
    cases e with
    | occupied h => dsimp only; rw [hm_assoc]; rfl
    | vacant k h => dsimp only; rw [hm_assoc]; rfl

theorem replaceKeyO_honest [Ord K] (m : HMap) (k : K) (v : V) : (m.replaceKeyO k v Cmps.ofOrd : HM K V _) = (do
    let r ← m.replaceKey k v
    pure (some r.1, r.2)) := by
  unfold HMap.replaceKeyO HMap.replaceKey
  rw [hm_assoc]
  refine bind_congr fun r => ?_
  cases r with
  | none => rfl
  | some m' =>
    dsimp only
    rw [searchO_honest]
    unfold still
    rw [hm_assoc, hm_assoc]
    refine bind_congr fun r => ?_
    cases r with
    | found h => dsimp only; rw [hm_assoc]; rfl
    | goDown h =>
      rw [pure_bind', hm_assoc]
      refine bind_congr fun x => ?_
      obtain ⟨x1, x2⟩ := x
      cases x1 <;> rfl

theorem extendO_honest [Ord K] : ∀ (items : List (K × V)) (m : HMap), (m.extendO items Cmps.ofOrd : HM K V _) = (do
    let r ← m.extend items
    pure (true, r))
  | [], m => rfl
  | (k, v) :: rest, m => by
    unfold HMap.extendO HMap.extend
    rw [tryInsertO_honest, hm_assoc, hm_assoc]
    refine bind_congr fun r => ?_
    obtain ⟨o, m'⟩ := r
    rw [pure_bind']
    cases o with
    | none => rfl
    | some o => exact extendO_honest rest m'

theorem rangeCheckO_honest [Ord Q] (s e : Bound Q) : rangeCheckO s e Cmps.ofOrd = (do
    let _ ← BTree.rangeCheck s e
    .ok (some Cmps.ofOrd)) := by
  cases s with
  | unbounded => cases e <;> rfl
  | included s =>
    cases e with
    | unbounded => rfl
    | included e => simp only [rangeCheckO, BTree.rangeCheck, Cmps.ofOrd, Cmps.rest]; cases compare s e <;> rfl
    | excluded e => simp only [rangeCheckO, BTree.rangeCheck, Cmps.ofOrd, Cmps.rest]; cases compare s e <;> rfl
  | excluded s =>
    cases e with
    | unbounded => rfl
    | included e => simp only [rangeCheckO, BTree.rangeCheck, Cmps.ofOrd, Cmps.rest]; cases compare s e <;> rfl
    | excluded e => simp only [rangeCheckO, BTree.rangeCheck, Cmps.ofOrd, Cmps.rest]; cases compare s e <;> rfl

theorem minEdgeO_honest [Ord Q] (bor : K → Q) (f : Bool) (s : Bound Q) (a : Addr) : (minEdgeO bor f s a Cmps.ofOrd : HM K V _) = still (minEdge bor f s a) := by
  cases f <;> cases s <;> simp only [minEdgeO, minEdge, searchLinearO_honest, still, hm_assoc, pure_bind']

theorem maxEdgeO_honest [Ord Q] (bor : K → Q) (f : Bool) (s : Bound Q) (a : Addr) : (maxEdgeO bor f s a Cmps.ofOrd : HM K V _) = still (maxEdge bor f s a) := by
  cases f <;> cases s <;> simp only [maxEdgeO, maxEdge, searchLinearO_honest, still, hm_assoc, pure_bind']

theorem rangeLoopO_honest [Ord Q] (bor : K → Q) (s e : Bound Q) : ∀ (h : Nat) (amin amax : Addr) (mf xf dv : Bool),
    (rangeLoopO bor s e h amin amax mf xf dv Cmps.ofOrd : HM K V _) = still (rangeLoop bor s e h amin amax mf xf dv)
  | 0, amin, amax, mf, xf, dv => by
    unfold rangeLoopO rangeLoop
    simp only [minEdgeO_honest, still, hm_assoc, pure_bind']
    refine bind_congr fun lo => ?_
    simp only [maxEdgeO_honest, still, hm_assoc, pure_bind']
    refine bind_congr fun hi => ?_
    split
    · rfl
    · simp only [hm_assoc, pure_bind']
  | h + 1, amin, amax, mf, xf, dv => by
    unfold rangeLoopO rangeLoop
    simp only [minEdgeO_honest, still, hm_assoc, pure_bind']
    refine bind_congr fun lo => ?_
    simp only [maxEdgeO_honest, still, hm_assoc, pure_bind']
    refine bind_congr fun hi => ?_
    split
    · rfl
    · simp only [hm_assoc]
      refine bind_congr fun f => bind_congr fun b => bind_congr fun c => bind_congr fun d => ?_
      exact rangeLoopO_honest bor s e h _ _ _ _ _

theorem lift_bind (x : Exec α) (f : α → Exec β) : (HM.lift (do let a ← x; f a) : HM K V β) = (do
    let a ← HM.lift x
    HM.lift (f a)) := by
  funext s
  cases x <;> rfl

theorem rangeO_honest [Ord Q] (bor : K → Q) (s e : Bound Q) (m : HMap) : (m.rangeO bor s e Cmps.ofOrd : HM K V _) = still (m.range bor s e) := by
  unfold HMap.rangeO HMap.range still
  rw [rangeCheckO_honest, lift_bind, hm_assoc, hm_assoc]
  refine bind_congr fun _ => ?_
  exact rangeLoopO_honest bor s e _ _ _ _ _ _

theorem catchRead_run (m : HM K V α) (s : Heap K V) : catchRead m s = (match m s with
    | .ok (a, s') => .ok (some a, s')
    | .panic _ => .ok (none, s)
    | .ub => .ub) := rfl

theorem catchRead_still [Ord Q] (m : HM K V α) (f : Option (Option (α × Cmps Q)) → HM K V β) :
    (catchRead (still m) >>= f) = (catchRead m >>= fun x => f (x.map fun a => some (a, Cmps.ofOrd))) := by
  have key : catchRead (still m) = (do
      let x ← catchRead m
      pure (x.map fun a => some (a, (Cmps.ofOrd : Cmps Q)))) := by
    funext s
    rw [bind_run, catchRead_run, catchRead_run, show (still m : HM K V (Option (α × Cmps Q))) s = _ from bind_run]
    cases m s with
    | ok x => rfl
    | panic e => rfl
    | ub => rfl
  rw [key, hm_assoc]
  rfl

theorem rangeRunO_honest [Ord Q] (bor : K → Q) (lo hi : Bound Q) (es : List End) (m : HMap) : (m.rangeRunO bor lo hi es Cmps.ofOrd : HM K V _) = (do
    let r ← m.rangeRun bor lo hi es
    pure (some r)) := by
  unfold HMap.rangeRunO HMap.rangeRun
  rw [rangeO_honest, catchRead_still, hm_assoc]
  refine bind_congr fun x => ?_
  cases x with
  | none => rfl
  | some r => dsimp only [Option.map]; rw [hm_assoc]; rfl

theorem rangeMutRunO_honest [Ord Q] (bor : K → Q) (lo hi : Bound Q) (acts : List (MutAct V)) (m : HMap) : (m.rangeMutRunO bor lo hi acts Cmps.ofOrd : HM K V _) = (do
    let r ← m.rangeMutRun bor lo hi acts
    pure (some r)) := by
  unfold HMap.rangeMutRunO HMap.rangeMutRun
  rw [rangeO_honest, catchRead_still, hm_assoc]
  refine bind_congr fun x => ?_
  cases x with
  | none => rfl
  | some r => dsimp only [Option.map]; rw [hm_assoc]; rfl

/-! ### shared iterators -/

/-- The computation does not panic. -/
def Quiet (m : HM K V α) : Prop := ∀ s msg, m s ≠ .panic msg

theorem Quiet.andThen {m : HM K V α} {f : α → HM K V β} (h1 : Quiet m) (h2 : ∀ a, Quiet (f a)) : Quiet (m >>= f) := by
  intro s msg h
  have h : HM.bind m f s = _ := h
  unfold HM.bind at h
  cases hm : m s with
  | ok x => rw [hm] at h; exact h2 _ _ _ h
  | panic e => exact h1 s e hm
  | ub => rw [hm] at h; cases h

theorem quiet_pure (a : α) : Quiet (Pure.pure a : HM K V α) := fun s msg h => by cases h

theorem quiet_getNode (a : Addr) : Quiet (getNode a : HM K V _) := by
  intro s msg h
  unfold getNode at h
  repeat' split at h
  all_goals cases h

theorem quiet_lenOf (a : Addr) : Quiet (lenOf a : HM K V _) := by
  unfold lenOf
  split
  · exact quiet_pure _
  · exact (quiet_getNode a).andThen fun _ => quiet_pure _

theorem quiet_req (c : Bool) : Quiet (HM.req c : HM K V _) := by
  intro s msg h
  cases c <;> cases h

theorem quiet_newEdge (r : NRef) (i : Nat) : Quiet (newEdge r i : HM K V _) :=
  (quiet_lenOf _).andThen fun _ => (quiet_req _).andThen fun _ => quiet_pure _

theorem quiet_descend (h : HRef) : Quiet (descend h : HM K V _) := by
  refine (quiet_req _).andThen fun _ => (quiet_getNode _).andThen fun n => Quiet.andThen ?_ fun _ => quiet_pure _
  intro s msg h
  unfold HM.lift at h
  split at h
  · cases h
  · cases h
  · rename_i e he
    unfold Node.peekEdge Slots.peek at he
    repeat' split at he
    all_goals cases he

theorem quiet_first : ∀ (h : Nat) (a : Addr), Quiet (firstLeafEdge h a : HM K V _)
  | 0, _ => quiet_newEdge _ _
  | h + 1, _ => (quiet_newEdge _ _).andThen fun _ => (quiet_descend _).andThen fun c => quiet_first h c.node

theorem quiet_last : ∀ (h : Nat) (a : Addr), Quiet (lastLeafEdge h a : HM K V _)
  | 0, _ => (quiet_lenOf _).andThen fun _ => quiet_newEdge _ _
  | h + 1, _ => (quiet_lenOf _).andThen fun _ => (quiet_newEdge _ _).andThen fun _ => (quiet_descend _).andThen fun c => quiet_last h c.node

theorem quiet_iter (m : HMap) : Quiet (m.iter : HM K V _) := (quiet_first _ _).andThen fun _ => (quiet_last _ _).andThen fun _ => quiet_pure _

theorem quiet_catch {m : HM K V α} (h : Quiet m) : catchRead m = (do
    let x ← m
    pure (some x)) := by
  funext s
  rw [bind_run, catchRead_run]
  cases hm : m s with
  | ok x => rfl
  | panic e => exact absurd hm (h s e)
  | ub => rfl

theorem catchRead_map (m : HM K V α) (g : α → β) : (Heap.catchRead (do
    let x ← m
    pure (g x)) : HM K V _) = (do
    let x ← Heap.catchRead m
    pure (x.map g)) := by
  funext s
  rw [bind_run, catchRead_run, catchRead_run, bind_run]
  cases m s with
  | ok x => rfl
  | panic e => rfl
  | ub => rfl

theorem openRangeO_honest [Ord Q] (bor : K → Q) (mk : HRange → HView) (lo hi : Bound Q) (p : List HView) (m : HMap) :
    (m.openRangeO bor mk lo hi p Cmps.ofOrd Cmps.ofOrd : HM K V _) = (do
      let r ← catchRead (m.range bor lo hi)
      pure (match r with
        | some r => (.opened, p ++ [mk r])
        | none => (.panicked, p), Cmps.ofOrd)) := by
  unfold HMap.openRangeO
  rw [rangeO_honest, catchRead_still]
  refine bind_congr fun x => ?_
  cases x <;> rfl

theorem viewActO_honest [Ord Q] (bor : K → Q) (m : HMap) (p : List HView) (a : ViewAct Q) :
    (ViewAct.hrunO m bor p Cmps.ofOrd Cmps.ofOrd a : HM K V _) = (do
      let x ← ViewAct.hrun m bor p a
      pure (x, Cmps.ofOrd)) := by
  cases a with
  | start s =>
    cases s with
    | iter =>
      simp only [ViewAct.hrunO, ViewAct.hrun, HMap.view, catchRead_map, quiet_catch (quiet_iter m), hm_assoc, pure_bind', Option.map]
    | keys =>
      simp only [ViewAct.hrunO, ViewAct.hrun, HMap.view, catchRead_map, quiet_catch (quiet_iter m), hm_assoc, pure_bind', Option.map]
    | values =>
      simp only [ViewAct.hrunO, ViewAct.hrun, HMap.view, catchRead_map, quiet_catch (quiet_iter m), hm_assoc, pure_bind', Option.map]
    | range lo hi =>
      simp only [ViewAct.hrunO, ViewAct.hrun, HMap.view, openRangeO_honest, catchRead_map, hm_assoc, pure_bind']
      refine bind_congr fun x => ?_
      cases x <;> rfl
    | setRange lo hi =>
      simp only [ViewAct.hrunO, ViewAct.hrun, HMap.view, openRangeO_honest, catchRead_map, hm_assoc, pure_bind']
      refine bind_congr fun x => ?_
      cases x <;> rfl
  | clone i => rfl
  | ask i e => rfl
  | hint i => rfl
  | debug i => rfl

theorem viewActsO_honest [Ord Q] (bor : K → Q) (m : HMap) : ∀ (as : List (ViewAct Q)) (p : List HView),
    (ViewAct.hrunsO m bor as p Cmps.ofOrd (fun _ => Cmps.ofOrd) : HM K V _) = ViewAct.hruns m bor as p
  | [], p => rfl
  | a :: as, p => by
    unfold ViewAct.hrunsO ViewAct.hruns
    rw [viewActO_honest, hm_assoc]
    refine bind_congr fun x => ?_
    rw [pure_bind', viewActsO_honest bor m as x.2]

/-! ### split_off, append -/

theorem splitLoopO_honest [Ord Q] (bor : K → Q) (q : Q) : ∀ (h : Nat) (l r : Addr), (splitLoopO bor q h l r Cmps.ofOrd : HM K V _) = splitLoop bor q h l r
  | 0, l, r => by
    unfold splitLoopO splitLoop
    simp only [searchLinearO_honest, still, hm_assoc, pure_bind']
  | h + 1, l, r => by
    unfold splitLoopO splitLoop
    simp only [searchLinearO_honest, still, hm_assoc, pure_bind', splitLoopO_honest bor q h]

theorem splitOffO_honest [Ord Q] (bor : K → Q) (q : Q) (m : HMap) : (m.splitOffO bor q Cmps.ofOrd : HM K V _) = m.splitOff bor q := by
  unfold HMap.splitOffO HMap.splitOff
  simp only [splitLoopO_honest]
  rfl

theorem mergeNextO_honest [Ord K] (m : HMerge K V) : (m.nextO Cmps.ofOrd : HM K V _) = (do
    let x ← m.next
    pure (x, Cmps.ofOrd)) := by
  unfold HMerge.nextO HMerge.next
  rw [hm_assoc]
  refine bind_congr fun a => ?_
  rw [hm_assoc]
  refine bind_congr fun b => ?_
  obtain ⟨a1, a2⟩ := a
  obtain ⟨b1, b2⟩ := b
  cases a1 with
  | none =>
    cases b1 with
    | none => rfl
    | some v => dsimp only; rw [hm_assoc]; rfl
  | some u =>
    cases b1 with
    | none => dsimp only; rw [hm_assoc]; rfl
    | some v =>
      dsimp only [Cmps.ofOrd]
      cases compare u.1 v.1 with
      | lt => dsimp only; rw [hm_assoc]; rfl
      | gt => dsimp only; rw [hm_assoc]; rfl
      | eq =>
        dsimp only
        rw [hm_assoc]
        refine bind_congr fun x => ?_
        rw [hm_assoc]; rfl

theorem buildLoopO_honest [Ord K] : ∀ (n : Nat) (s : Building K V),
    (loopN buildStepO n (s, (Cmps.ofOrd : Cmps K)) >>= ended : HM K V _) = (loopN buildStep n s >>= ended)
  | 0, s => rfl
  | n + 1, s => by
    unfold loopN
    rw [hm_assoc, hm_assoc]
    unfold buildStepO buildStep
    rw [hm_assoc, hm_assoc, mergeNextO_honest, hm_assoc]
    refine bind_congr fun x => ?_
    rw [pure_bind']
    obtain ⟨x1, x2⟩ := x
    cases x1 with
    | none => rfl
    | some kv =>
      dsimp only
      rw [hm_assoc, hm_assoc]
      refine bind_congr fun r => ?_
      exact buildLoopO_honest n _

theorem fromSortedO_honest [Ord K] (m : HMap) (it : HMerge K V) (bnd : Nat) : m.fromSortedIterO it bnd Cmps.ofOrd = m.fromSortedIter it bnd := by
  unfold HMap.fromSortedIterO HMap.fromSortedIter
  refine bind_congr fun r => ?_
  cases r with
  | none => rfl
  | some m =>
    refine bind_congr fun e => ?_
    have := buildLoopO_honest (bnd + 1) (⟨it, m.root, e.ref, m.length⟩ : Building K V)
    rw [← hm_assoc, ← hm_assoc, this]

theorem appendO_honest [Ord K] (m o : HMap) : (m.appendO o Cmps.ofOrd : HM K V _) = m.append o := by
  unfold HMap.appendO HMap.append
  simp only [fromSortedO_honest]

/-! ### calls -/

theorem onHMapU_honest {p : List HMap} {i : Nat} {f : HMap → HM K V (Option (Out K V) × HMap)} {g : HMap → HM K V (Out K V × HMap)}
    (h : ∀ m, f m = (do
      let r ← g m
      pure (some r.1, r.2))) : onHMapU p i f = (do
      let r ← onHMap p i g
      pure (some r.1, r.2)) := by
  unfold onHMapU onHMap
  cases p[i]? with
  | none => rfl
  | some m => dsimp only; rw [h, hm_assoc, hm_assoc]; rfl

theorem withEntryO_honest [Ord K] {m : HMap} {k : K} {rest : Option (HEntry K) × HMap → HM K V (Out K V × HMap)} :
    m.withEntryO k Cmps.ofOrd rest = (do
      let r ← (m.tryEntry k >>= rest)
      pure (some r.1, r.2)) := by
  unfold HMap.withEntryO
  rw [tryEntryO_honest, hm_assoc, hm_assoc]
  rfl

theorem hany_honest [Ord K] [Ord Q] (bor : K → Q) (p : List HMap) (op : Op K V Q) : Op.hany bor p op CallCmps.ofOrd = (do
    let r ← Op.hrun bor p op
    pure (some r.1, r.2)) := by
  cases op with
  | new => rfl
  | insert i k v =>
    refine onHMapU_honest fun m => ?_
    show (m.tryInsertO k v Cmps.ofOrd >>= _) = _
    unfold HMap.insertCall
    rw [tryInsertO_honest, hm_assoc, hm_assoc]
    refine bind_congr fun r => ?_
    obtain ⟨r, m⟩ := r
    cases r <;> rfl
  | remove i q =>
    refine onHMapU_honest fun m => ?_
    show (m.removeEntryO bor q Cmps.ofOrd >>= _) = _
    rw [removeEntryO_honest, hm_assoc, hm_assoc]
    rfl
  | get i q =>
    refine onHMapU_honest fun m => ?_
    show (m.getKeyValueO bor q Cmps.ofOrd >>= _) = _
    rw [getKeyValueO_honest, hm_assoc, hm_assoc]
    rfl
  | getKeyValue i q =>
    refine onHMapU_honest fun m => ?_
    show (m.getKeyValueO bor q Cmps.ofOrd >>= _) = _
    rw [getKeyValueO_honest, hm_assoc, hm_assoc]
    rfl
  | containsKey i q =>
    refine onHMapU_honest fun m => ?_
    show (m.getKeyValueO bor q Cmps.ofOrd >>= _) = _
    rw [getKeyValueO_honest, hm_assoc, hm_assoc]
    rfl
  | len i => exact onHMapU_honest fun m => rfl
  | isEmpty i => exact onHMapU_honest fun m => rfl
  | update i q f =>
    refine onHMapU_honest fun m => ?_
    show (m.updateValO bor q f Cmps.ofOrd >>= _) = _
    rw [updateValO_honest, hm_assoc, hm_assoc]
    rfl
  | clear i => exact onHMapU_honest fun m => by rw [hm_assoc]; rfl
  | append i j =>
    unfold Op.hany Op.hrun
    dsimp only
    cases p[i]? with
    | none => rfl
    | some m =>
      cases p[j]? with
      | none => rfl
      | some o =>
        dsimp only
        split
        · rfl
        · show (m.appendO o Cmps.ofOrd >>= _) = _
          rw [appendO_honest, hm_assoc]
          rfl
  | splitOff i q =>
    unfold Op.hany Op.hrun
    dsimp only
    cases p[i]? with
    | none => rfl
    | some m =>
      show (m.splitOffO bor q Cmps.ofOrd >>= _) = _
      dsimp only
      rw [splitOffO_honest, hm_assoc]
      refine bind_congr fun r => ?_
      obtain ⟨r, m⟩ := r
      cases r <;> rfl
  | extend i items =>
    refine onHMapU_honest fun m => ?_
    show (m.extendO items Cmps.ofOrd >>= _) = _
    rw [extendO_honest, hm_assoc, hm_assoc]
    rfl
  | clone i =>
    unfold Op.hany Op.hrun
    dsimp only
    cases p[i]? with
    | none => rfl
    | some m => dsimp only; rw [hm_assoc]; rfl
  | iterate i es => exact onHMapU_honest fun m => by rw [hm_assoc]; rfl
  | range i lo hi es =>
    refine onHMapU_honest fun m => ?_
    show (m.rangeRunO bor lo hi es Cmps.ofOrd >>= _) = _
    rw [rangeRunO_honest, hm_assoc, hm_assoc]
    rfl
  | iterMut i acts => exact onHMapU_honest fun m => by rw [hm_assoc]; rfl
  | rangeMut i lo hi acts =>
    refine onHMapU_honest fun m => ?_
    show (m.rangeMutRunO bor lo hi acts Cmps.ofOrd >>= _) = _
    rw [rangeMutRunO_honest, hm_assoc, hm_assoc]
    rfl
  | intoIter i es => exact onHMapU_honest fun m => by rw [hm_assoc]; rfl
  | entryOrInsert i k v f =>
    refine onHMapU_honest fun m => ?_
    refine withEntryO_honest.trans ?_
    unfold HMap.entryOrInsert
    congr 1
    refine bind_congr fun r => ?_
    obtain ⟨r, m⟩ := r
    cases r <;> rfl
  | entryOrInsertWith i k v f =>
    refine onHMapU_honest fun m => ?_
    refine withEntryO_honest.trans ?_
    unfold HMap.entryOrInsertWith
    congr 1
    refine bind_congr fun r => ?_
    obtain ⟨r, m⟩ := r
    cases r <;> rfl
  | entryRemove i k =>
    refine onHMapU_honest fun m => ?_
    refine withEntryO_honest.trans ?_
    unfold HMap.entryRemove
    congr 1
    refine bind_congr fun r => ?_
    obtain ⟨r, m⟩ := r
    cases r with
    | none => rfl
    | some e => cases e <;> rfl
  | entryModify i k f =>
    refine onHMapU_honest fun m => ?_
    refine withEntryO_honest.trans ?_
    unfold HMap.entryModify
    congr 1
    refine bind_congr fun r => ?_
    obtain ⟨r, m⟩ := r
    cases r <;> rfl
  | entryKey i k =>
    refine onHMapU_honest fun m => ?_
    refine withEntryO_honest.trans ?_
    unfold HMap.entryKeyOf
    congr 1
    refine bind_congr fun r => ?_
    obtain ⟨r, m⟩ := r
    cases r <;> rfl
  | entryInsert i k v =>
    refine onHMapU_honest fun m => ?_
    refine withEntryO_honest.trans ?_
    unfold HMap.entryInsert
    congr 1
    refine bind_congr fun r => ?_
    obtain ⟨r, m⟩ := r
    cases r with
    | none => rfl
    | some e => cases e <;> rfl
  | tryClone i ck cv =>
    unfold Op.hany Op.hrun
    dsimp only
    cases p[i]? with
    | none => rfl
    | some m =>
      dsimp only
      rw [hm_assoc]
      refine bind_congr fun r => ?_
      cases r <;> rfl
  | views i acts =>
    refine onHMapU_honest fun m => ?_
    show (ViewAct.hrunsO m bor acts [] Cmps.ofOrd (fun _ => Cmps.ofOrd) >>= _) = _
    rw [viewActsO_honest, hm_assoc]
    rfl
  | replace i k v =>
    refine onHMapU_honest fun m => ?_
    show (m.replaceKeyO k v Cmps.ofOrd >>= _) = _
    unfold HMap.replaceCall
    rw [replaceKeyO_honest, hm_assoc, hm_assoc]
    refine bind_congr fun r => ?_
    obtain ⟨r, m⟩ := r
    cases r <;> rfl
  | take i q =>
    refine onHMapU_honest fun m => ?_
    show (m.removeEntryO bor q Cmps.ofOrd >>= _) = _
    rw [removeEntryO_honest, hm_assoc, hm_assoc]
    rfl

theorem hanys_honest [Ord K] [Ord Q] (bor : K → Q) : ∀ (ops : List (Op K V Q)) (p : List HMap),
    Op.hanys bor (ops.map fun op => (op, CallCmps.ofOrd)) p = (do
      let r ← Op.hprog bor ops p
      pure (r.1.map some, r.2))
  | [], p => rfl
  | op :: ops, p => by
    rw [List.map_cons]
    unfold Op.hanys Op.hprog
    rw [hany_honest, hm_assoc, hm_assoc]
    refine bind_congr fun r => ?_
    rw [pure_bind']
    dsimp only
    rw [Option.any_some]
    split
    · rfl
    · rw [hm_assoc, hanys_honest bor ops r.2, hm_assoc]
      rfl

end Verif.Heap
