import Verif.Heap.Compare
import Verif.Heap.Proofs.Reading
import Verif.BTree.Proofs.Compare
/-
Comparing, hashing, printing and indexing maps in memory.
-/
namespace Verif.Heap
open Verif
open Verif.BTree (Map Window)
open Verif.Spec (End All2 Orders Ask Told)

variable {K V Q S α : Type} {s : Heap K V} {Kn : HProp K V → Prop}

/-- The iterator `i` over `m` has the items `l` to give. -/
def IterLeft (Kn : HProp K V → Prop) (m : HMap) (i : HIter) (l : List (K × V)) : Prop :=
  ∃ (M : Map K V) (it : BTree.Iter) (ta : ATree K V) (pre post : List (K × V)), M.WF ∧ m.root.height = M.height ∧ Kn (own m M ta) ∧ IterAt M.height ta it i ∧
    Window M it.range pre l post ∧ it.length = l.length

theorem iterLeft_start (hg : Knows s Kn) {M : Map K V} {m : HMap} (h : MapAt Kn M m) : ∃ i, m.iter s = .ok (i, s) ∧ IterLeft Kn m i M.toList := by
  obtain ⟨hM, _, hh, ta, hk⟩ := h
  obtain ⟨F, hw⟩ := hg.2 _ hk
  obtain ⟨it, h1, h2, h3⟩ := BTree.Map.iter_spec hM
  obtain ⟨i, h4, h5⟩ := Refines.ofTriple hg.1 hw (f := m.iter) (x := M.iter) (Rel := fun a c => IterAt M.height ta c a) (fun c e => iter_own e) it h1
  exact ⟨i, h4, M, it, ta, [], [], hM, hh, hk, h5, h3, by rw [h2]; exact hM.len⟩

theorem iterLeft_step (hg : Knows s Kn) {m : HMap} {i : HIter} {l : List (K × V)} (h : IterLeft Kn m i l) :
    ∃ i', i.step m.root.height .front s = .ok ((l.head?, i'), s) ∧ IterLeft Kn m i' l.tail := by
  obtain ⟨M, it, ta, pre, post, hM, hh, hk, hat, hwin, hl⟩ := h
  obtain ⟨F, hw⟩ := hg.2 _ hk
  obtain ⟨it', g1, g2, g3⟩ := BTree.Iter.step_spec hM.below hwin hl .front
  have hp : Spec.pop .front l = (l.head?, l.tail) := by cases l <;> rfl
  obtain ⟨⟨x, i'⟩, h4, h5⟩ := Refines.ofTriple hg.1 hw (f := HIter.step (K := K) (V := V) m.root.height .front i) (x := it.step M .front)
    (Rel := fun a c => a.1 = c.1 ∧ IterAt M.height ta c.2 a.2) (fun c e => iter_step_own (x := c.1) (it' := c.2) (Nat.le_of_eq hh.symm) e hat) _ g1
  rw [hp] at h5 g2 g3
  dsimp only at h5 g2 g3
  obtain ⟨rfl, h5⟩ := h5
  exact ⟨i', h4, M, it', ta, _, _, hM, hh, hk, h5, g3, g2⟩

theorem hzipAll_eq (hg : Knows s Kn) {m n : HMap} (eq : K × V → K × V → Bool) : ∀ (fuel : Nat) {i j : HIter} {l r : List (K × V)}, IterLeft Kn m i l → IterLeft Kn n j r → l.length < fuel →
    hzipAll eq m.root.height n.root.height fuel i j s = .ok (BTree.zipAll eq l r, s)
  | 0, _, _, _, _, _, _, h => by omega
  | fuel + 1, i, j, l, r, hi, hj, hf => by
    unfold hzipAll
    obtain ⟨i', e1, hi'⟩ := iterLeft_step hg hi
    obtain ⟨j', e2, hj'⟩ := iterLeft_step hg hj
    show HM.bind _ _ s = _
    unfold HM.bind
    rw [e1]
    dsimp only
    cases l with
    | nil => cases r <;> rfl
    | cons x l =>
      dsimp only [List.head?_cons]
      show HM.bind _ _ s = _
      unfold HM.bind
      rw [e2]
      cases r with
      | nil => rfl
      | cons y r =>
        dsimp only [List.head?_cons, BTree.zipAll]
        cases h : eq x y with
        | false => rfl
        | true =>
          simp only [if_true, Bool.true_and]
          exact hzipAll_eq hg eq fuel hi' hj' (by simpa using hf)

theorem eq_ref (hg : Knows s Kn) {M N : Map K V} {m n : HMap} (h : MapAt Kn M m) (h' : MapAt Kn N n) (eqK : K → K → Bool) (eqV : V → V → Bool) :
    ∃ b, M.eq N eqK eqV = .ok b ∧ m.eq n eqK eqV s = .ok (b, s) := by
  unfold HMap.eq BTree.Map.eq
  rw [h.2.1, h'.2.1]
  by_cases hl : M.len = N.len
  · simp only [hl, if_true, BTree.Map.toListE_spec h.1, BTree.Map.toListE_spec h'.1, Exec.ok_bind]
    refine ⟨_, rfl, ?_⟩
    obtain ⟨i, e1, hi⟩ := iterLeft_start hg h
    obtain ⟨j, e2, hj⟩ := iterLeft_start hg h'
    show HM.bind _ _ s = _
    unfold HM.bind
    rw [e1]
    show HM.bind _ _ s = _
    unfold HM.bind
    rw [e2]
    have := h.1.len
    exact hzipAll_eq hg _ _ hi hj (by rw [← hl]; simp only [BTree.Map.len]; omega)
  · simp only [hl, if_false]
    exact ⟨_, rfl, rfl⟩

theorem hlexPartial_eq (hg : Knows s Kn) {m n : HMap} (cmp : K × V → K × V → Option Ordering) : ∀ (fuel : Nat) {i j : HIter} {l r : List (K × V)}, IterLeft Kn m i l → IterLeft Kn n j r →
    l.length < fuel → hlexPartial cmp m.root.height n.root.height fuel i j s = .ok (BTree.lexPartial cmp l r, s)
  | 0, _, _, _, _, _, _, h => by omega
  | fuel + 1, i, j, l, r, hi, hj, hf => by
    unfold hlexPartial
    obtain ⟨i', e1, hi'⟩ := iterLeft_step hg hi
    obtain ⟨j', e2, hj'⟩ := iterLeft_step hg hj
    show HM.bind _ _ s = _
    unfold HM.bind
    rw [e1]
    dsimp only
    cases l with
    | nil =>
      dsimp only [List.head?_nil]
      show HM.bind _ _ s = _
      unfold HM.bind
      rw [e2]
      cases r <;> rfl
    | cons x l =>
      dsimp only [List.head?_cons]
      show HM.bind _ _ s = _
      unfold HM.bind
      rw [e2]
      cases r with
      | nil => rfl
      | cons y r =>
        dsimp only [List.head?_cons, BTree.lexPartial]
        generalize cmp x y = c
        rcases c with _ | _ | _ | _
        · rfl
        · rfl
        · exact hlexPartial_eq hg cmp fuel hi' hj' (by simpa using hf)
        · rfl

theorem partialCmp_ref (hg : Knows s Kn) {M N : Map K V} {m n : HMap} (h : MapAt Kn M m) (h' : MapAt Kn N n) (cmpK : K → K → Option Ordering) (cmpV : V → V → Option Ordering) :
    m.partialCmp n cmpK cmpV s = .ok (BTree.lexPartial (BTree.pairPartial cmpK cmpV) M.toList N.toList, s) := by
  unfold HMap.partialCmp
  obtain ⟨i, e1, hi⟩ := iterLeft_start hg h
  obtain ⟨j, e2, hj⟩ := iterLeft_start hg h'
  show HM.bind _ _ s = _
  unfold HM.bind
  rw [e1]
  show HM.bind _ _ s = _
  unfold HM.bind
  rw [e2]
  have := h.1.len
  exact hlexPartial_eq hg _ _ hi hj (by rw [h.2.1]; simp only [BTree.Map.len]; omega)

theorem hlexCmp_eq (hg : Knows s Kn) {m n : HMap} (cmp : K × V → K × V → Ordering) : ∀ (fuel : Nat) {i j : HIter} {l r : List (K × V)}, IterLeft Kn m i l → IterLeft Kn n j r →
    l.length < fuel → hlexCmp cmp m.root.height n.root.height fuel i j s = .ok (BTree.lexCmp cmp l r, s)
  | 0, _, _, _, _, _, _, h => by omega
  | fuel + 1, i, j, l, r, hi, hj, hf => by
    unfold hlexCmp
    obtain ⟨i', e1, hi'⟩ := iterLeft_step hg hi
    obtain ⟨j', e2, hj'⟩ := iterLeft_step hg hj
    show HM.bind _ _ s = _
    unfold HM.bind
    rw [e1]
    dsimp only
    cases l with
    | nil =>
      dsimp only [List.head?_nil]
      show HM.bind _ _ s = _
      unfold HM.bind
      rw [e2]
      cases r <;> rfl
    | cons x l =>
      dsimp only [List.head?_cons]
      show HM.bind _ _ s = _
      unfold HM.bind
      rw [e2]
      cases r with
      | nil => rfl
      | cons y r =>
        dsimp only [List.head?_cons, BTree.lexCmp]
        cases h : cmp x y with
        | eq => exact hlexCmp_eq hg cmp fuel hi' hj' (by simpa using hf)
        | lt => rfl
        | gt => rfl

theorem cmp_ref (hg : Knows s Kn) {M N : Map K V} {m n : HMap} (h : MapAt Kn M m) (h' : MapAt Kn N n) (cmpK : K → K → Ordering) (cmpV : V → V → Ordering) :
    m.cmp n cmpK cmpV s = .ok (BTree.lexCmp (fun a b => (cmpK a.1 b.1).then (cmpV a.2 b.2)) M.toList N.toList, s) := by
  unfold HMap.cmp
  obtain ⟨i, e1, hi⟩ := iterLeft_start hg h
  obtain ⟨j, e2, hj⟩ := iterLeft_start hg h'
  show HM.bind _ _ s = _
  unfold HM.bind
  rw [e1]
  show HM.bind _ _ s = _
  unfold HM.bind
  rw [e2]
  have := h.1.len
  exact hlexCmp_eq hg _ _ hi hj (by rw [h.2.1]; simp only [BTree.Map.len]; omega)

theorem hfeed_eq (hg : Knows s Kn) {m : HMap} (feed : S → K × V → S) : ∀ (fuel : Nat) {i : HIter} {l : List (K × V)} (st : S), IterLeft Kn m i l →
    l.length < fuel → hfeed feed m.root.height fuel i st s = .ok (l.foldl feed st, s)
  | 0, _, _, _, _, h => by omega
  | fuel + 1, i, l, st, hi, hf => by
    unfold hfeed
    obtain ⟨i', e1, hi'⟩ := iterLeft_step hg hi
    show HM.bind _ _ s = _
    unfold HM.bind
    rw [e1]
    dsimp only
    cases l with
    | nil => rfl
    | cons x l => exact hfeed_eq hg feed fuel (feed st x) hi' (by simpa using hf)

theorem hash_ref (hg : Knows s Kn) {M : Map K V} {m : HMap} (h : MapAt Kn M m) (feed : S → K × V → S) (st : S) : m.hash feed st s = .ok (M.toList.foldl feed st, s) := by
  unfold HMap.hash
  obtain ⟨i, e1, hi⟩ := iterLeft_start hg h
  show HM.bind _ _ s = _
  unfold HM.bind
  rw [e1]
  have := h.1.len
  exact hfeed_eq hg _ _ _ hi (by rw [h.2.1]; simp only [BTree.Map.len]; omega)

theorem foldl_snoc (l a : List α) : l.foldl (fun l x => l ++ [x]) a = a ++ l := by
  induction l generalizing a with
  | nil => simp
  | cons x l ih => rw [List.foldl_cons, ih, List.append_assoc]; rfl

theorem debug_ref (hg : Knows s Kn) {M : Map K V} {m : HMap} (h : MapAt Kn M m) : m.debug s = .ok (M.toList, s) := by
  have := hash_ref hg h (fun l x => l ++ [x]) []
  rw [foldl_snoc] at this
  exact this

theorem index_ref [Ord Q] (hg : Knows s Kn) {M : Map K V} {m : HMap} (h : MapAt Kn M m) (bor : K → Q) (q : Q) :
    (∃ kv, M.getKeyValue bor q = .ok (some kv) ∧ m.index bor q s = .ok (kv.2, s)) ∨
    (M.getKeyValue bor q = .ok none ∧ ∃ msg, m.index bor q s = .panic msg) := by
  obtain ⟨hM, _, _, ta, hk⟩ := h
  obtain ⟨F, hw⟩ := hg.2 _ hk
  obtain ⟨r, h1, h2⟩ := BTree.getKeyValue_wf hM bor q
  obtain ⟨a, h3, h4⟩ := Refines.ofTriple hg.1 hw (f := m.getKeyValue bor q) (x := M.getKeyValue bor q) (Rel := Eq) (fun c e => getKeyValue_spec e) r h1
  subst h4
  have e : m.index bor q s = HM.bind (m.getKeyValue bor q) (fun r => match r with
      | some kv => pure kv.2
      | none => HM.panic "no entry found for key") s := rfl
  unfold HM.bind at e
  rw [h3] at e
  cases a with
  | none => exact .inr ⟨h1, _, e⟩
  | some kv => exact .inl ⟨kv, h1, e⟩

/-! ### programs of questions -/

theorem lexCmp_partial {cmp : α → α → Ordering} : ∀ (l r : List α), BTree.lexPartial (fun a b => some (cmp a b)) l r = some (BTree.lexCmp cmp l r)
  | [], [] => rfl
  | [], _ :: _ => rfl
  | _ :: _, [] => rfl
  | a :: l, b :: r => by
    unfold BTree.lexPartial BTree.lexCmp
    cases cmp a b with
    | lt => rfl
    | gt => rfl
    | eq => exact lexCmp_partial l r

theorem orders_partial (f : Orders K V S) : BTree.pairPartial f.partialK f.partialV = f.partial := by
  funext a b
  unfold BTree.pairPartial Orders.partial
  rcases f.partialK a.1 b.1 with _ | _ | _ | _ <;> rfl

theorem orders_cmp (f : Orders K V S) : (fun a b => (f.cmpK a.1 b.1).then (f.cmpV a.2 b.2)) = f.cmp := by
  funext a b
  unfold Orders.cmp
  cases f.cmpK a.1 b.1 <;> rfl

theorem map_eq_iff {M N : Map K V} (hM : M.WF) (hN : N.WF) {eqK : K → K → Bool} {eqV : V → V → Bool} {b : Bool} (h : M.eq N eqK eqV = .ok b) :
    b = true ↔ All2 (fun x y => eqK x.1 y.1 = true ∧ eqV x.2 y.2 = true) M.toList N.toList := by
  have e1 : M.len = M.toList.length := by simpa [BTree.Map.len] using hM.len
  have e2 : N.len = N.toList.length := by simpa [BTree.Map.len] using hN.len
  unfold BTree.Map.eq at h
  by_cases hl : M.len = N.len
  · simp only [hl, if_true, BTree.Map.toListE_spec hM, BTree.Map.toListE_spec hN, Exec.ok_bind, Exec.ok.injEq] at h
    rw [← h, BTree.zipAll_iff (by omega)]
    simp [Bool.and_eq_true]
  · simp only [hl, if_false, Exec.ok.injEq] at h
    rw [← h]
    simp only [Bool.false_eq_true, false_iff]
    intro ha
    exact hl (by rw [e1, e2]; exact ha.length)

theorem found_mem [Ord Q] {M : Map K V} (h : M.WF) {bor : K → Q} {q : Q} {kv : K × V} (e : M.getKeyValue bor q = .ok (some kv)) : kv ∈ M.toList ∧ compare q (bor kv.1) = .eq := by
  rcases BTree.Map.search_wf h bor q with ⟨hd, A, kv', B, h1, h2, h3⟩ | ⟨hd, A, B, h1, h2⟩
  · simp [BTree.Map.getKeyValue, h1, h2.kvAt] at e
    subst e
    exact ⟨by rw [h2.toList]; simp, h3⟩
  · simp [BTree.Map.getKeyValue, h1] at e

/-- One question about the maps of a pool. -/
theorem ask_ref [Ord Q] {f : Orders K V S} {bor : K → Q} {lawful : Prop} {p : List HMap} {ms : List (Map K V)} {al : Alloc} (hg : s.Good) (hp : ∀ m ∈ ms, m.WF)
    (hlaw : lawful → ∀ M ∈ ms, ∀ q, M.getKeyValue bor q = .ok (Spec.find? bor q M.toList)) (hw : (pool p ms ∗ sched al) s.world) (hl : p.length = ms.length) (a : Ask Q) :
    ∃ t, Ask.hrun f bor p a s = .ok (t, s) ∧ a.Right f bor lawful (ms.map Map.toList) t := by
  have none_of : ∀ {i : Nat}, p[i]? = none → (ms.map Map.toList)[i]? = none := fun h => by
    rw [List.getElem?_eq_none_iff] at h ⊢
    simpa [← hl] using h
  have two : ∀ {i j : Nat} {m n : HMap}, p[i]? = some m → p[j]? = some n → ∃ M N Kn, (ms.map Map.toList)[i]? = some M.toList ∧ (ms.map Map.toList)[j]? = some N.toList ∧ M ∈ ms ∧
      Knows s Kn ∧ MapAt Kn M m ∧ MapAt Kn N n := fun hi hj => by
    obtain ⟨M, N, h1, h2, A, R, Kn, h3, h4, h5, h6⟩ := pool_known hp hw hl hi hj
    exact ⟨M, N, Kn, by simp [h1], by simp [h2], List.mem_of_getElem? h1, h6 hg h5, h3, h4⟩
  cases a with
  | eq i j =>
    simp only [Ask.hrun, Ask.Right]
    cases hi : p[i]? with
    | none => rw [none_of hi]; exact ⟨_, rfl, by cases p[j]? <;> rfl⟩
    | some m =>
      cases hj : p[j]? with
      | none => rw [none_of hj]; exact ⟨_, rfl, by split <;> simp_all⟩
      | some n =>
        obtain ⟨M, N, Kn, e1, e2, _, hk, hM, hN⟩ := two hi hj
        obtain ⟨b, h1, h2⟩ := eq_ref hk hM hN f.eqK f.eqV
        rw [e1, e2]
        refine ⟨.bool b, ?_, b, rfl, map_eq_iff hM.1 hN.1 h1⟩
        simp only [bind_run, h2]
        rfl
  | partialCmp i j =>
    simp only [Ask.hrun, Ask.Right]
    cases hi : p[i]? with
    | none => rw [none_of hi]; exact ⟨_, rfl, by cases p[j]? <;> rfl⟩
    | some m =>
      cases hj : p[j]? with
      | none => rw [none_of hj]; exact ⟨_, rfl, by split <;> simp_all⟩
      | some n =>
        obtain ⟨M, N, Kn, e1, e2, _, hk, hM, hN⟩ := two hi hj
        have h2 := partialCmp_ref hk hM hN f.partialK f.partialV
        rw [orders_partial] at h2
        rw [e1, e2]
        refine ⟨.part _, ?_, _, rfl, BTree.lexPartial_spec M.toList N.toList⟩
        simp only [bind_run, h2]
        rfl
  | cmp i j =>
    simp only [Ask.hrun, Ask.Right]
    cases hi : p[i]? with
    | none => rw [none_of hi]; exact ⟨_, rfl, by cases p[j]? <;> rfl⟩
    | some m =>
      cases hj : p[j]? with
      | none => rw [none_of hj]; exact ⟨_, rfl, by split <;> simp_all⟩
      | some n =>
        obtain ⟨M, N, Kn, e1, e2, _, hk, hM, hN⟩ := two hi hj
        have h2 := cmp_ref hk hM hN f.cmpK f.cmpV
        rw [orders_cmp] at h2
        rw [e1, e2]
        refine ⟨.ord _, ?_, _, rfl, by rw [← lexCmp_partial]; exact BTree.lexPartial_spec M.toList N.toList⟩
        simp only [bind_run, h2]
        rfl
  | hash i =>
    simp only [Ask.hrun, Ask.Right]
    cases hi : p[i]? with
    | none => rw [none_of hi]; exact ⟨_, rfl, rfl⟩
    | some m =>
      obtain ⟨M, N, Kn, e1, e2, _, hk, hM, hN⟩ := two hi hi
      rw [e1]
      refine ⟨_, ?_, rfl⟩
      simp only [bind_run, hash_ref hk hM f.feed f.init]
      rfl
  | debug i =>
    simp only [Ask.hrun, Ask.Right]
    cases hi : p[i]? with
    | none => rw [none_of hi]; exact ⟨_, rfl, rfl⟩
    | some m =>
      obtain ⟨M, N, Kn, e1, e2, _, hk, hM, hN⟩ := two hi hi
      rw [e1]
      refine ⟨_, ?_, rfl⟩
      simp only [bind_run, debug_ref hk hM]
      rfl
  | index i q =>
    simp only [Ask.hrun, Ask.Right]
    cases hi : p[i]? with
    | none => rw [none_of hi]; exact ⟨_, rfl, rfl⟩
    | some m =>
      obtain ⟨M, N, Kn, e1, e2, hmem, hk, hM, hN⟩ := two hi hi
      rw [e1]
      rcases index_ref hk hM bor q with ⟨kv, h1, h2⟩ | ⟨h1, msg, h2⟩
      · refine ⟨.value (some kv.2), ?_, _, rfl, ?_, fun hla => ?_⟩
        · simp only [bind_run, catchRead, h2]
          rfl
        · rintro x ⟨⟩
          exact ⟨kv.1, found_mem hM.1 h1⟩
        · have := BTree.Exec.ok_unique h1 (hlaw hla M hmem q)
          simp only [Spec.lookup, ← this, Option.map_some]
      · refine ⟨.value none, ?_, _, rfl, ?_, fun hla => ?_⟩
        · simp only [bind_run, catchRead, h2]
          rfl
        · rintro x ⟨⟩
        · have := BTree.Exec.ok_unique h1 (hlaw hla M hmem q)
          simp only [Spec.lookup, ← this, Option.map_none]

theorem asks_ref [Ord Q] {f : Orders K V S} {bor : K → Q} {lawful : Prop} {p : List HMap} {ms : List (Map K V)} {al : Alloc} (hg : s.Good) (hp : ∀ m ∈ ms, m.WF)
    (hlaw : lawful → ∀ M ∈ ms, ∀ q, M.getKeyValue bor q = .ok (Spec.find? bor q M.toList)) (hw : (pool p ms ∗ sched al) s.world) (hl : p.length = ms.length) :
    ∀ as : List (Ask Q), ∃ ts, Ask.hruns f bor p as s = .ok (ts, s) ∧ All2 (fun a t => a.Right f bor lawful (ms.map Map.toList) t) as ts
  | [] => ⟨[], rfl, trivial⟩
  | a :: as => by
    obtain ⟨t, h1, h2⟩ := ask_ref (f := f) hg hp hlaw hw hl a
    obtain ⟨ts, h3, h4⟩ := asks_ref hg hp hlaw hw hl as
    refine ⟨t :: ts, ?_, h2, h4⟩
    simp only [Ask.hruns, bind_run, h1, h3]
    rfl

end Verif.Heap
