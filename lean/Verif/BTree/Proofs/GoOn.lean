import Verif.BTree.GoOn
import Verif.BTree.Proofs.History
import Verif.BTree.Proofs.Spoilt
/-
Programs that go on after a failed insertion, on the model.
-/
namespace Verif.BTree
open Verif Verif.Spec

variable {K V Q : Type}

/-- Every map satisfies `P` for some excess of the cached length, which is 0 for the maps that are not in `bad`. -/
def Loose (P : Nat → Map K V → Prop) (bad : List Nat) (p : List (Map K V)) : Prop :=
  ∀ i m, p[i]? = some m → ∃ x, P x m ∧ (i ∉ bad → x = 0)

theorem Loose.mono {P : Nat → Map K V → Prop} {bad bad' : List Nat} {p : List (Map K V)} (h : Loose P bad p) (hb : ∀ i, i ∈ bad → i ∈ bad') : Loose P bad' p :=
  fun i m hi => let ⟨x, h1, h2⟩ := h i m hi; ⟨x, h1, fun hn => h2 fun hm => hn (hb i hm)⟩

theorem Loose.set {P : Nat → Map K V → Prop} {bad : List Nat} {p : List (Map K V)} (h : Loose P bad p) {i : Nat} {m' : Map K V} {x : Nat} (hm : P x m')
    (hx : i ∉ bad → x = 0) : Loose P bad (p.set i m') := by
  intro j m hj
  by_cases hij : i = j
  · subst hij
    have hlt : i < p.length := by
      have := (List.getElem?_eq_some_iff.1 hj).1
      simpa using this
    rw [List.getElem?_set_self hlt, Option.some.injEq] at hj
    subst hj
    exact ⟨x, hm, hx⟩
  · rw [List.getElem?_set_ne hij] at hj
    exact h j m hj

theorem Loose.snoc {P : Nat → Map K V → Prop} {bad : List Nat} {p : List (Map K V)} (h : Loose P bad p) {m' : Map K V} {x : Nat} (hm : P x m')
    (hx : p.length ∉ bad → x = 0) : Loose P bad (p ++ [m']) := by
  intro j m hj
  by_cases hlt : j < p.length
  · rw [List.getElem?_append_left hlt] at hj
    exact h j m hj
  · rw [List.getElem?_append_right (by omega)] at hj
    have hj0 : j - p.length = 0 := by
      have := (List.getElem?_eq_some_iff.1 hj).1
      simp at this
      omega
    rw [hj0] at hj
    simp only [List.getElem?_cons_zero, Option.some.injEq] at hj
    subst hj
    obtain rfl : j = p.length := by omega
    exact ⟨x, hm, hx⟩

theorem Loose.ofAll {P : Nat → Map K V → Prop} {p : List (Map K V)} (h : ∀ m ∈ p, P 0 m) : Loose P [] p :=
  fun _ m hi => ⟨0, h m (List.mem_of_getElem? hi), fun _ => rfl⟩

theorem Loose.sound {P : Nat → Map K V → Prop} {bad : List Nat} {p : List (Map K V)} (h : Loose P bad p) {i : Nat} {m : Map K V} (hi : p[i]? = some m)
    (hb : i ∉ bad) : P 0 m := by
  obtain ⟨x, h1, h2⟩ := h i m hi
  rw [h2 hb] at h1
  exact h1

theorem Op.mark_other {bad lens : List Nat} {op : Op K V Q} {o : Out K V} (h1 : o ≠ .failed) (h2 : o ≠ .done) : op.mark bad lens o = bad := by
  cases o <;> simp_all [Op.mark]

theorem Op.mark_mem {bad lens : List Nat} {op : Op K V Q} {o : Out K V} {i : Nat} (h : i ∈ bad) : i ∈ op.mark bad lens o := by
  unfold Op.mark
  split
  · split
    · split <;> simp [h]
    · exact h
  · split
    · split <;> simp [h]
    · exact h
  · exact h

/-- Lists of lengths that agree on the sound maps mark the same maps. -/
theorem Op.mark_congr {bad lens lens' : List Nat} (op : Op K V Q) (o : Out K V) (hl : lens.length = lens'.length)
    (h : ∀ i, i ∉ bad → lens[i]? = lens'[i]?) : op.mark bad lens o = op.mark bad lens' o := by
  unfold Op.mark
  split
  · split
    · rename_i x _
      by_cases hx : x.1 ∈ bad
      · simp [hx]
      · simp [hx, h x.1 hx]
    · rfl
  · rw [hl]
  · rfl

theorem onMap_shaped {bad bad' : List Nat} {p : List (Map K V)} (hp : Loose Map.Shaped bad p) (i : Nat) (a : Alloc)
    {f : Map K V → Exec (Out K V × Map K V × Alloc)} (hb : ∀ i, i ∈ bad → i ∈ bad')
    (h : ∀ m x, p[i]? = some m → m.Shaped x → (i ∉ bad → x = 0) → (∃ msg, f m = .panic msg) ∨ CallWF false x (f m)) :
    (∃ msg, onMap p i a f = .panic msg) ∨ ∃ o p' a', onMap p i a f = .ok (o, p', a') ∧ Loose Map.Shaped bad' p' := by
  unfold onMap
  cases hi : p[i]? with
  | none => exact .inr ⟨_, p, a, rfl, hp.mono hb⟩
  | some m =>
    obtain ⟨x, hm, hx⟩ := hp i m hi
    rcases h m x hi hm hx with ⟨msg, h1⟩ | ⟨o, m', a', h1, h2⟩
    · exact .inl ⟨msg, by simp [h1]⟩
    · rcases h2 with ⟨h2, _⟩ | h2
      · cases h2
      · exact .inr ⟨o, p.set i m', a', by simp [h1], (hp.set h2 hx).mono hb⟩

/-- An insertion: the map is marked if it is harmed. -/
theorem onMap_inserts {bad : List Nat} {p : List (Map K V)} (hp : Loose Map.Shaped bad p) (i : Nat) (a : Alloc)
    {f : Map K V → Exec (Out K V × Map K V × Alloc)} {op : Op K V Q} {k : K} {v : V} (ho : op.inserting = some (i, k, v))
    (h : ∀ m x, m.Shaped x → CallWF true x (f m))
    (hs : ∀ m m' a', m.WF → f m = .ok (.failed, m', a') → Spoilt m m') :
    ∃ o p' a', onMap p i a f = .ok (o, p', a') ∧ Loose Map.Shaped (op.mark bad (p.map Map.len) o) p' := by
  have hb : ∀ {o} i, i ∈ bad → i ∈ op.mark bad (p.map Map.len) o := fun i hi => Op.mark_mem hi
  unfold onMap
  cases hi : p[i]? with
  | none => exact ⟨_, p, a, rfl, hp.mono hb⟩
  | some m =>
    obtain ⟨x, hm, hx⟩ := hp i m hi
    obtain ⟨o, m', a', h1, h2⟩ := h m x hm
    refine ⟨o, p.set i m', a', by simp [h1], ?_⟩
    rcases h2 with ⟨_, rfl, y, h2⟩ | h2
    · by_cases hl : i ∉ bad ∧ m.length = 0
      · have hm0 : m.WF := hp.sound hi hl.1
        rcases hs m m' a' hm0 h1 with ⟨_, rfl⟩ | ⟨h3, _⟩
        · refine (hp.set hm0 fun _ => rfl).mono hb
        · exact absurd hl.2 h3
      · refine (hp.mono hb).set h2 fun hn => ?_
        exfalso
        refine hn ?_
        unfold Op.mark
        simp only [ho]
        by_cases hbad : i ∈ bad
        · simp [hbad]
        · have : m.length ≠ 0 := fun h0 => hl ⟨hbad, h0⟩
          simp [hbad, hi, Map.len, this]
    · exact (hp.set h2 hx).mono hb

theorem callSpoilt_insert [Ord K] {m m' : Map K V} (hm : m.WF) {k : K} {v : V} {a a' : Alloc}
    (h3 : (do
      let (r, m, a) ← m.tryInsert k v a
      match r with
      | .ok old => .ok (.value old, m, a)
      | .error _ => .ok (.failed, m, a)) = Exec.ok ((.failed, m', a') : Out K V × Map K V × Alloc)) : Spoilt m m' := by
  obtain ⟨⟨r, m1, a1⟩, g1, g2⟩ := Exec.bind_eq_ok.1 h3
  cases r with
  | ok x => simp at g2
  | error e =>
    obtain ⟨rfl, rfl⟩ := by simpa using g2
    exact tryInsert_spoilt hm g1

theorem callSpoilt_replace [Ord K] {m m' : Map K V} (hm : m.WF) {k : K} {v : V} {a a' : Alloc}
    (h3 : m.replaceCall k v a = .ok (.failed, m', a')) : Spoilt m m' := by
  obtain ⟨⟨r, m1, a1⟩, g1, g2⟩ := Exec.bind_eq_ok.1 h3
  cases r with
  | ok x => simp at g2
  | error e =>
    obtain ⟨rfl, rfl⟩ := by simpa using g2
    exact replaceKey_spoilt hm g1

/-- A call that trusts no harmed map, whatever the `Ord`. -/
theorem Op.run_loose [Ord K] [Ord Q] (bor : K → Q) {bad : List Nat} {p : List (Map K V)} (hp : Loose Map.Shaped bad p) (a : Alloc) (op : Op K V Q)
    (ht : op.trusts bad = false) :
    (∃ msg, Op.run bor p a op = .panic msg) ∨ ∃ o p' a', Op.run bor p a op = .ok (o, p', a') ∧ Loose Map.Shaped (op.mark bad (p.map Map.len) o) p' := by
  have key : ∀ {i : Nat} {f : Map K V → Exec (Out K V × Map K V × Alloc)},
      (∀ m x, p[i]? = some m → m.Shaped x → (i ∉ bad → x = 0) → (∃ msg, f m = .panic msg) ∨ CallWF false x (f m)) →
      (∃ msg, onMap p i a f = .panic msg) ∨ ∃ o p' a', onMap p i a f = .ok (o, p', a') ∧ Loose Map.Shaped (op.mark bad (p.map Map.len) o) p' := by
    intro i f h
    rcases onMap_shaped (bad' := bad) hp i a (fun _ h => h) h with h | ⟨o, p', a', h1, h2⟩
    · exact .inl h
    · exact .inr ⟨o, p', a', h1, h2.mono fun i hi => Op.mark_mem hi⟩
  cases op with
  | new => exact .inr ⟨_, _, a, rfl, Loose.snoc hp Map.WF_new fun _ => rfl⟩
  | insert i k v =>
    exact .inr (onMap_inserts (op := .insert i k v) hp i a rfl (fun m x hm => insertCall_wf hm k v a) fun m m' a' hm h => callSpoilt_insert hm h)
  | remove i q =>
    refine key fun m x hi hm hx => .inr ?_
    obtain ⟨r, m', h1, h2, _⟩ := Map.removeEntry_wf hm bor q
    exact ⟨_, m', a, by simp only [Map.remove, h1, Exec.ok_bind]; rfl, .inr h2⟩
  | get i q =>
    refine key fun m x hi hm hx => .inr ?_
    obtain ⟨r, _, h1⟩ := getKeyValue_wf hm bor q
    exact ⟨_, m, a, by simp only [h1, Exec.ok_bind]; rfl, .inr hm⟩
  | getKeyValue i q =>
    refine key fun m x hi hm hx => .inr ?_
    obtain ⟨r, h1, _⟩ := getKeyValue_wf hm bor q
    exact ⟨_, m, a, by simp only [h1, Exec.ok_bind]; rfl, .inr hm⟩
  | containsKey i q =>
    refine key fun m x hi hm hx => .inr ?_
    obtain ⟨r, _, h1⟩ := getKeyValue_wf hm bor q
    exact ⟨_, m, a, by simp only [Map.containsKey, h1, Exec.ok_bind]; rfl, .inr hm⟩
  | len i => exact key fun m x hi hm hx => .inr ⟨_, m, a, rfl, .inr hm⟩
  | isEmpty i => exact key fun m x hi hm hx => .inr ⟨_, m, a, rfl, .inr hm⟩
  | update i q f =>
    refine key fun m x hi hm hx => .inr ?_
    obtain ⟨b, m', h1, h2⟩ := updateVal_wf hm bor q f
    exact ⟨_, m', a, by simp only [h1, Exec.ok_bind]; rfl, .inr h2⟩
  | clear i =>
    refine key fun m x hi hm hx => ?_
    obtain rfl := hx (by simpa [Op.trusts] using ht)
    exact .inr ⟨_, Map.new, a, rfl, .inr Map.WF_new⟩
  | append i j =>
    simp only [Op.run]
    cases hi : p[i]? with
    | none => exact .inr ⟨_, p, a, rfl, hp⟩
    | some m =>
      cases hj : p[j]? with
      | none => exact .inr ⟨_, p, a, rfl, hp⟩
      | some o =>
        by_cases hij : i = j
        · simp only [if_pos hij]
          exact .inr ⟨_, p, a, rfl, hp⟩
        · simp only [if_neg hij]
          have hb : i ∉ bad ∧ j ∉ bad := by simpa [Op.trusts] using ht
          rcases Map.append_wf (hp.sound hi hb.1) (hp.sound hj hb.2) a with ⟨⟨msg, h1⟩, _⟩ | ⟨m', o', a', h1, h2, h3, _⟩
          · exact .inl ⟨msg, by simp [h1]⟩
          · exact .inr ⟨.done, (p.set i m').set j o', a', by simp [h1], (hp.set h2 fun _ => rfl).set h3 fun _ => rfl⟩
  | splitOff i q =>
    simp only [Op.run]
    cases hi : p[i]? with
    | none => exact .inr ⟨_, p, a, rfl, hp⟩
    | some m =>
      obtain ⟨x, hm, hx⟩ := hp i m hi
      obtain ⟨r, m', a', h1, h2, h3⟩ := Map.splitOff_wf hm bor q a
      cases r with
      | error er =>
        obtain rfl := h2
        exact .inr ⟨.failed, p.set i m', a', by simp [h1], hp.set hm hx⟩
      | ok right =>
        obtain ⟨⟨x1, x2, e0, e1, e2⟩, _⟩ := h2
        refine .inr ⟨.done, p.set i m' ++ [right], a', by simp [h1], ?_⟩
        have hb : ∀ j, j ∈ bad → j ∈ (Op.splitOff i q : Op K V Q).mark bad (p.map Map.len) (.done : Out K V) := fun j hj => Op.mark_mem hj
        refine Loose.snoc ((hp.set e1 fun hn => ?_).mono hb) e2 fun hn => ?_
        · have := hx hn; omega
        · have : i ∉ bad := fun hbad => hn (by simp [Op.mark, hbad])
          have := hx this; omega
  | extend i items =>
    refine key fun m x hi hm hx => ?_
    rcases Map.extend_wf items hm a with ⟨⟨msg, h1⟩, h2⟩ | ⟨m', a', h1, h2, _⟩
    · exact .inl ⟨msg, by simp [h1]⟩
    · exact .inr ⟨_, m', a', by simp only [h1, Exec.ok_bind]; rfl, .inr h2⟩
  | clone i =>
    simp only [Op.run]
    cases hi : p[i]? with
    | none => exact .inr ⟨_, p, a, rfl, hp⟩
    | some m =>
      obtain ⟨x, hm, hx⟩ := hp i m hi
      obtain ⟨r, a', h1, h2, h3⟩ := Map.tryClone_wf (fun k a => (.ok k, a)) (fun v a => (.ok v, a)) hm a
      cases r with
      | error er => exact .inl ⟨"Out of Mem", by simp [Map.clone, h1]⟩
      | ok c => exact .inr ⟨.done, p ++ [c], a', by simp [Map.clone, h1], hp.snoc (h2 c rfl).1 fun _ => rfl⟩
  | iterate i es =>
    refine key fun m x hi hm hx => .inr ?_
    obtain rfl := hx (by simpa [Op.trusts] using ht)
    obtain ⟨it, it', h1, h2⟩ := iterRun_wf hm es
    exact ⟨_, m, a, by simp only [h1, h2, Exec.ok_bind]; rfl, .inr hm⟩
  | range i lo hi es =>
    refine key fun m x hi' hm hx => .inr ?_
    obtain ⟨o, h1⟩ := rangeRun_wf hm bor lo hi es
    exact ⟨o, m, a, by simp only [h1, Exec.ok_bind], .inr hm⟩
  | iterMut i acts =>
    refine key fun m x hi hm hx => .inr ?_
    obtain rfl := hx (by simpa [Op.trusts] using ht)
    obtain ⟨it, xs, m', refs, h1, h2, h3⟩ := iterMutRun_wf hm acts
    exact ⟨_, m', a, by simp only [h1, h2, Exec.ok_bind]; rfl, .inr h3⟩
  | rangeMut i lo hi acts =>
    refine key fun m x hi' hm hx => .inr ?_
    obtain ⟨o, m', h1, h2⟩ := rangeMutRun_wf hm bor lo hi acts
    exact ⟨o, m', a, by simp only [h1, Exec.ok_bind], .inr h2⟩
  | intoIter i es =>
    refine key fun m x hi hm hx => .inr ?_
    obtain rfl := hx (by simpa [Op.trusts] using ht)
    obtain ⟨it, it', h1, h2⟩ := iterRun_wf hm es
    exact ⟨_, Map.new, a, by simp only [h1, h2, Exec.ok_bind]; rfl, .inr Map.WF_new⟩
  | entryOrInsert i k v f =>
    exact .inr (onMap_inserts (op := .entryOrInsert i k v f) hp i a rfl (fun m x hm => entryOrInsert_wf hm k v f a) fun m m' a' hm h => entryOrInsert_spoilt hm h)
  | entryOrInsertWith i k v f =>
    exact .inr (onMap_inserts (op := .entryOrInsertWith i k v f) hp i a rfl (fun m x hm => entryOrInsertWith_wf hm k v f a) fun m m' a' hm h => entryOrInsertWith_spoilt hm h)
  | entryRemove i k => exact key fun m x hi hm hx => .inr (entryRemove_wf hm k a)
  | entryModify i k f => exact key fun m x hi hm hx => .inr (entryModify_wf hm k f a)
  | entryKey i k => exact key fun m x hi hm hx => .inr (entryKeyOf_wf hm k a)
  | entryInsert i k v => exact key fun m x hi hm hx => .inr (entryInsert_wf hm k v a)
  | tryClone i ck cv =>
    simp only [Op.run]
    cases hi : p[i]? with
    | none => exact .inr ⟨_, p, a, rfl, hp⟩
    | some m =>
      obtain ⟨x, hm, hx⟩ := hp i m hi
      obtain ⟨r, a', h1, h2, h3⟩ := Map.tryClone_wf (keyCloner ck) (valCloner cv) hm a
      cases r with
      | error er => exact .inr ⟨.failed, p, a', by simp [h1], hp⟩
      | ok c => exact .inr ⟨.done, p ++ [c], a', by simp [h1], hp.snoc (h2 c rfl).1 fun _ => rfl⟩
  | views i acts =>
    refine key fun m x hi hm hx => .inr ?_
    obtain rfl := hx (by simpa [Op.trusts] using ht)
    obtain ⟨os, h1⟩ := ViewAct.runs_wf hm bor acts (vs := []) (by simp)
    exact ⟨.seen os, m, a, by simp only [h1, Exec.ok_bind], .inr hm⟩
  | replace i k v =>
    exact .inr (onMap_inserts (op := .replace i k v) hp i a rfl (fun m x hm => replaceCall_wf hm k v a) fun m m' a' hm h => callSpoilt_replace hm h)
  | take i q =>
    refine key fun m x hi hm hx => .inr ?_
    obtain ⟨r, m', h1, h2, _⟩ := Map.removeEntry_wf hm bor q
    exact ⟨_, m', a, by simp only [h1, Exec.ok_bind]; rfl, .inr h2⟩

theorem Loose.shaped [Ord K] {bad : List Nat} {p : List (Map K V)} (h : Loose Map.Ordered bad p) : Loose Map.Shaped bad p :=
  fun i m hi => let ⟨x, h1, h2⟩ := h i m hi; ⟨x, h1.toShaped, h2⟩

section
set_option linter.unusedSectionVars false
variable [Ord K]

/-- What is known of a call on one of several maps that may be loose. -/
theorem onMap_ordered {bad : List Nat} {p : List (Map K V)} (hp : Loose Map.Ordered bad p) (i : Nat) (a : Alloc)
    {f : Map K V → Exec (Out K V × Map K V × Alloc)} {g : List (K × V) → Out K V × List (K × V)} {F : Map K V → Map K V → Prop}
    (h : ∀ m x, p[i]? = some m → m.Ordered x → (i ∉ bad → x = 0) → Agrees x (F m) a (f m) (g m.toList)) :
    (∃ msg, onMap p i a f = .panic msg) ∨ ∃ o p' a', onMap p i a f = .ok (o, p', a') ∧
      ((Loose Map.Ordered bad p' ∧ (o, p'.map Map.toList) = onList (p.map Map.toList) i g) ∨
       (o = .failed ∧ ∃ m m', p[i]? = some m ∧ f m = .ok (.failed, m', a') ∧ p' = p.set i m' ∧ F m m')) := by
  unfold onMap onList
  rw [List.getElem?_map]
  cases hi : p[i]? with
  | none => exact .inr ⟨_, p, a, rfl, .inl ⟨hp, rfl⟩⟩
  | some m =>
    obtain ⟨x, hm, hx⟩ := hp i m hi
    rcases h m x hi hm hx with ⟨⟨msg, h1⟩, _⟩ | ⟨o, m', a', h1, _, h2⟩
    · exact .inl ⟨msg, by simp [h1]⟩
    · refine .inr ⟨o, p.set i m', a', by simp [h1], ?_⟩
      rcases h2 with ⟨rfl, _, h2⟩ | ⟨h2, h3, h4⟩
      · exact .inr ⟨rfl, m, m', rfl, h1, rfl, h2⟩
      · exact .inl ⟨hp.set h2 hx, by simp [List.map_set, h3, h4]⟩

end

section
set_option linter.unusedSectionVars false
variable [Ord K] [Ord Q] [Std.TransOrd K] [Std.TransOrd Q] {bor : K → Q}

theorem allowed_spec {bad : List Nat} {s : List (List (K × V))} {op : Op K V Q} {o : Out K V} {s' : List (List (K × V))} (ht : op.trusts bad = false)
    (h : (o, s') = op.spec bor s) : op.allowed bor bad s o s' := by
  unfold Op.allowed
  rw [ht]
  exact .inl h

theorem allowed_failed {bad : List Nat} {s : List (List (K × V))} {op : Op K V Q} {s' : List (List (K × V))} (ht : op.trusts bad = false)
    (h : op.leaves bad s s') : op.allowed bor bad s .failed s' := by
  unfold Op.allowed
  rw [ht]
  exact .inr (.inl ⟨rfl, h⟩)

/-- A call that leaves its map as it was if it fails. -/
theorem allowed_calm {bad : List Nat} {p : List (Map K V)} (hp : Loose Map.Ordered bad p) {i : Nat} {a : Alloc} {op : Op K V Q} (ht : op.trusts bad = false)
    {f : Map K V → Exec (Out K V × Map K V × Alloc)} {g : List (K × V) → Out K V × List (K × V)} (hop : op.inserting = none)
    (hg : op.spec bor (p.map Map.toList) = onList (p.map Map.toList) i g)
    (h : ∀ m x, p[i]? = some m → m.Ordered x → (i ∉ bad → x = 0) → Agrees x (· = m) a (f m) (g m.toList)) :
    (∃ msg, onMap p i a f = .panic msg) ∨ ∃ o p' a', onMap p i a f = .ok (o, p', a') ∧
      Loose Map.Ordered (op.mark bad (p.map Map.len) o) p' ∧ op.allowed bor bad (p.map Map.toList) o (p'.map Map.toList) := by
  rcases onMap_ordered hp i a (F := fun m m' => m' = m) h with h | ⟨o, p', a', h1, h2⟩
  · exact .inl h
  · refine .inr ⟨o, p', a', h1, ?_⟩
    rcases h2 with ⟨h2, h3⟩ | ⟨rfl, m, m', h3, _, rfl, rfl⟩
    · exact ⟨h2.mono fun i hi => Op.mark_mem hi, allowed_spec ht (h3.trans hg.symm)⟩
    · have he : p.set i m' = p := by
        obtain ⟨hl, he⟩ := List.getElem?_eq_some_iff.1 h3
        rw [← he]; exact List.set_getElem_self hl
      rw [he]
      exact ⟨hp.mono fun i hi => Op.mark_mem hi, allowed_failed ht (by simp [Op.leaves, hop])⟩

/-- An insertion. -/
theorem allowed_inserts {bad : List Nat} {p : List (Map K V)} (hp : Loose Map.Ordered bad p) {i : Nat} {a : Alloc} {op : Op K V Q} (ht : op.trusts bad = false)
    {f : Map K V → Exec (Out K V × Map K V × Alloc)} {g : List (K × V) → Out K V × List (K × V)} {k : K} {v : V} (hop : op.inserting = some (i, k, v))
    (hg : op.spec bor (p.map Map.toList) = onList (p.map Map.toList) i g)
    (hs : ∀ m m' a', m.WF → f m = .ok (.failed, m', a') → Spoilt m m')
    (h : ∀ m x, m.Ordered x → Agrees x (Refused k v m) a (f m) (g m.toList)) :
    (∃ msg, onMap p i a f = .panic msg) ∨ ∃ o p' a', onMap p i a f = .ok (o, p', a') ∧
      Loose Map.Ordered (op.mark bad (p.map Map.len) o) p' ∧ op.allowed bor bad (p.map Map.toList) o (p'.map Map.toList) := by
  have hb : ∀ {o} i, i ∈ bad → i ∈ op.mark bad (p.map Map.len) o := fun i hi => Op.mark_mem hi
  rcases onMap_ordered hp i a (F := fun m m' => Refused k v m m') (fun m x _ hm _ => h m x hm) with h | ⟨o, p', a', h1, h2⟩
  · exact .inl h
  · refine .inr ⟨o, p', a', h1, ?_⟩
    rcases h2 with ⟨h2, h3⟩ | ⟨rfl, m, m', h3, h4, rfl, h5, h6, y, h7⟩
    · exact ⟨h2.mono hb, allowed_spec ht (h3.trans hg.symm)⟩
    · have hl0 : i ∉ bad → m.length = m.toList.length := fun hn => (hp.sound h3 hn).len.trans (Nat.add_zero _)
      have hsame : i ∉ bad → m.length = 0 → m' = m := fun hn hz => by
        rcases hs m m' a' (hp.sound h3 hn).toShaped h4 with ⟨_, h⟩ | ⟨h, _⟩
        · exact h
        · exact absurd hz h
      refine ⟨?_, allowed_failed ht ?_⟩
      · by_cases hl : i ∉ bad ∧ m.length = 0
        · rw [hsame hl.1 hl.2]
          exact (hp.set (hp.sound h3 hl.1) fun _ => rfl).mono hb
        · refine (hp.mono hb).set h7 fun hn => ?_
          exfalso
          refine hn ?_
          unfold Op.mark
          simp only [hop]
          by_cases hbad : i ∈ bad
          · simp [hbad]
          · have : m.length ≠ 0 := fun h0 => hl ⟨hbad, h0⟩
            simp [hbad, h3, Map.len, this]
      · unfold Op.leaves
        rw [hop]
        refine ⟨m.toList, m'.toList, by simp [h3], h5, h6, fun hn he => ?_, by simp [List.map_set]⟩
        have hz : m.length = 0 := by rw [hl0 hn, he]; rfl
        rw [hsame hn hz, he]

/-- A call that trusts no harmed map does what it may. -/
theorem Op.run_allowed (hbo : BorrowOK bor) {bad : List Nat} {p : List (Map K V)} (hp : Loose Map.Ordered bad p) (a : Alloc) (op : Op K V Q)
    (ht : op.trusts bad = false) :
    (∃ msg, Op.run bor p a op = .panic msg) ∨ ∃ o p' a', Op.run bor p a op = .ok (o, p', a') ∧
      Loose Map.Ordered (op.mark bad (p.map Map.len) o) p' ∧ op.allowed bor bad (p.map Map.toList) o (p'.map Map.toList) := by
  cases op with
  | new =>
    exact .inr ⟨_, p ++ [Map.new], a, rfl, Loose.snoc hp Map.Valid_new fun _ => rfl, allowed_spec ht (by simp [Op.spec])⟩
  | insert i k v =>
    refine allowed_inserts (op := .insert i k v) hp ht rfl rfl (fun m m' a' hm h => callSpoilt_insert hm h) fun m x hm => ?_
    obtain ⟨r, m', a', h1, h2, h3⟩ := Map.tryInsert_ordered hm k v a
    cases r with
    | ok old =>
      obtain ⟨e1, e2, e3⟩ := h2
      exact Agrees.ok (o := .value old) (m' := m') (a' := a') (by simp [h1]) (fun hg => (h3 hg).1) e1 (by rw [e3]) e2
    | error er =>
      obtain ⟨e1, e2, e3⟩ := h2
      refine .inr ⟨.failed, m', a', by simp [h1], fun hg => (h3 hg).1, .inl ⟨rfl, fun hg => ?_, by simpa [lookup] using e1, e2, ?_⟩⟩
      · obtain ⟨_, o, ho⟩ := h3 hg
        simp at ho
      · rcases e3 with ⟨rfl, _⟩ | ⟨_, x', _, e3⟩
        · exact ⟨x, hm⟩
        · exact ⟨x', e3⟩
  | remove i q =>
    refine allowed_calm (op := .remove i q) hp ht rfl rfl fun m x hi hm hx => ?_
    obtain ⟨m', h1, h2, h3⟩ := Map.removeEntry_ordered hbo hm q
    exact Agrees.ok (a' := a) (m' := m') (by simp only [Map.remove, h1, Exec.ok_bind]; rfl) id h2 rfl h3
  | get i q =>
    refine allowed_calm (op := .get i q) hp ht rfl rfl fun m x hi hm hx => ?_
    exact Agrees.ok (a' := a) (m' := m) (by simp only [Map.get_spec hbo hm q, Exec.ok_bind]) id hm rfl rfl
  | getKeyValue i q =>
    refine allowed_calm (op := .getKeyValue i q) hp ht rfl rfl fun m x hi hm hx => ?_
    exact Agrees.ok (a' := a) (m' := m) (by simp only [Map.getKeyValue_spec hbo hm q, Exec.ok_bind]) id hm rfl rfl
  | containsKey i q =>
    refine allowed_calm (op := .containsKey i q) hp ht rfl rfl fun m x hi hm hx => ?_
    refine Agrees.ok (a' := a) (m' := m) (by simp only [Map.containsKey, Map.get_spec hbo hm q, Exec.ok_bind]; rfl) id hm ?_ rfl
    simp [lookup]
  | len i =>
    by_cases hb : i ∈ bad
    · simp only [Op.run, onMap]
      cases hi : p[i]? with
      | none => exact .inr ⟨_, p, a, rfl, hp, allowed_spec ht (by simp [Op.spec, onList, hi])⟩
      | some m =>
        have hs : p.set i m = p := by
          obtain ⟨hl, he⟩ := List.getElem?_eq_some_iff.1 hi
          rw [← he]; exact List.set_getElem_self hl
        obtain ⟨x, hm, _⟩ := hp i m hi
        refine .inr ⟨.count m.len, p, a, by simp [hs], hp, ?_⟩
        unfold Op.allowed
        rw [ht]
        exact .inr (.inr ⟨⟨hb, m.toList, m.len, by simp [hi], rfl, by have := hm.len; simp only [Map.len]; omega⟩, rfl⟩)
    · refine allowed_calm (op := .len i) hp ht rfl rfl fun m x hi hm hx => ?_
      obtain rfl := hx hb
      refine Agrees.ok (a' := a) (m' := m) rfl id hm ?_ rfl
      simp [Map.len, hm.len]
  | isEmpty i =>
    by_cases hb : i ∈ bad
    · simp only [Op.run, onMap]
      cases hi : p[i]? with
      | none => exact .inr ⟨_, p, a, rfl, hp, allowed_spec ht (by simp [Op.spec, onList, hi])⟩
      | some m =>
        have hs : p.set i m = p := by
          obtain ⟨hl, he⟩ := List.getElem?_eq_some_iff.1 hi
          rw [← he]; exact List.set_getElem_self hl
        obtain ⟨x, hm, _⟩ := hp i m hi
        refine .inr ⟨.flag m.isEmpty, p, a, by simp [hs], hp, ?_⟩
        unfold Op.allowed
        rw [ht]
        refine .inr (.inr ⟨⟨hb, m.toList, m.isEmpty, by simp [hi], rfl, fun h => ?_⟩, rfl⟩)
        have := hm.len
        have h0 : m.length = 0 := by simpa [Map.isEmpty, Map.len] using h
        exact List.eq_nil_of_length_eq_zero (by omega)
    · refine allowed_calm (op := .isEmpty i) hp ht rfl rfl fun m x hi hm hx => ?_
      obtain rfl := hx hb
      refine Agrees.ok (a' := a) (m' := m) rfl id hm ?_ rfl
      simp only [Map.isEmpty, Map.len, hm.len]
      cases m.toList <;> simp
  | update i q f =>
    refine allowed_calm (op := .update i q f) hp ht rfl rfl fun m x hi hm hx => ?_
    obtain ⟨m', h1, h2, h3⟩ := updateVal_spec hbo hm q f
    exact Agrees.ok (a' := a) (m' := m') (by simp only [h1, Exec.ok_bind]) id h2 rfl h3
  | clear i =>
    refine allowed_calm (op := .clear i) hp ht rfl rfl fun m x hi hm hx => ?_
    obtain rfl := hx (by simpa [Op.trusts] using ht)
    exact Agrees.ok (a' := a) (m' := Map.new) rfl id Map.Valid_new rfl rfl
  | append i j =>
    simp only [Op.run]
    cases hi : p[i]? with
    | none => exact .inr ⟨_, p, a, rfl, hp, allowed_spec ht (by simp [Op.spec, hi])⟩
    | some m =>
      cases hj : p[j]? with
      | none => exact .inr ⟨_, p, a, rfl, hp, allowed_spec ht (by simp [Op.spec, hj])⟩
      | some o =>
        dsimp only
        by_cases hij : i = j
        · simp only [if_pos hij]
          exact .inr ⟨_, p, a, rfl, hp, allowed_spec ht (by simp [Op.spec, hi, hj, hij])⟩
        · simp only [if_neg hij]
          have hb : i ∉ bad ∧ j ∉ bad := by simpa [Op.trusts] using ht
          have hm := hp.sound hi hb.1
          have ho := hp.sound hj hb.2
          rcases Map.append_ordered hm ho a with ⟨⟨msg, h1⟩, h2⟩ | ⟨m', o', a', h1, h2, h3, h4, h5, h6⟩
          · exact .inl ⟨msg, by simp [h1]⟩
          · refine .inr ⟨.done, (p.set i m').set j o', a', by simp [h1], (hp.set h2 fun _ => rfl).set h3 fun _ => rfl, allowed_spec ht ?_⟩
            simp only [Op.spec, List.getElem?_map, hi, hj, Option.map_some, if_neg hij]
            rw [List.map_set, List.map_set, h4, union_unique h6 (appendList_union hm.sorted ho.sorted)]
  | splitOff i q =>
    simp only [Op.run]
    cases hi : p[i]? with
    | none => exact .inr ⟨_, p, a, rfl, hp, allowed_spec ht (by simp [Op.spec, hi])⟩
    | some m =>
      obtain ⟨x, hm, hx⟩ := hp i m hi
      obtain ⟨r, m', a', h1, h2, h3⟩ := Map.splitOff_ordered hbo hm q a
      cases r with
      | error er =>
        obtain rfl := h2
        have hs : p.set i m' = p := by
          obtain ⟨hl, he⟩ := List.getElem?_eq_some_iff.1 hi
          rw [← he]; exact List.set_getElem_self hl
        refine .inr ⟨.failed, p, a', by simp [h1, hs], hp, allowed_failed ht rfl⟩
      | ok right =>
        obtain ⟨⟨x1, x2, e0, e1, e2⟩, e3, e4⟩ := h2
        refine .inr ⟨.done, p.set i m' ++ [right], a', by simp [h1], ?_, allowed_spec ht ?_⟩
        · have hb : ∀ j, j ∈ bad → j ∈ (Op.splitOff i q : Op K V Q).mark bad (p.map Map.len) (.done : Out K V) := fun j hj => Op.mark_mem hj
          refine Loose.snoc ((hp.set e1 fun hn => ?_).mono hb) e2 fun hn => ?_
          · have := hx hn; omega
          · have : i ∉ bad := fun hbad => hn (by simp [Op.mark, hbad])
            have := hx this; omega
        · simp [Op.spec, hi, List.map_set, e3, e4]
  | extend i items =>
    refine allowed_calm (op := .extend i items) hp ht rfl rfl fun m x hi hm hx => ?_
    rcases Map.extend_spec items hm a with ⟨⟨msg, h1⟩, h2⟩ | ⟨m', a', h1, h2, h3, h4⟩
    · exact .inl ⟨⟨msg, by simp [h1]⟩, h2⟩
    · exact Agrees.ok (a' := a') (m' := m') (by simp only [h1, Exec.ok_bind]) h3 h2 rfl h4
  | clone i =>
    simp only [Op.run]
    cases hi : p[i]? with
    | none => exact .inr ⟨_, p, a, rfl, hp, allowed_spec ht (by simp [Op.spec, hi])⟩
    | some m =>
      obtain ⟨x, hm, hx⟩ := hp i m hi
      obtain ⟨r, a', h1, h2, h3⟩ := Map.tryClone_wf (fun k a => (.ok k, a)) (fun v a => (.ok v, a)) hm.toShaped a
      cases r with
      | error er => exact .inl ⟨"Out of Mem", by simp [Map.clone, h1]⟩
      | ok c =>
        obtain ⟨e1, e2⟩ := h2 c rfl
        have he : c.toList = m.toList := by
          have : All2 (· = ·) m.toList c.toList := by
            refine All2.mono (fun x y hxy => ?_) e2
            obtain ⟨⟨_, _, g1⟩, ⟨_, _, g2⟩⟩ := hxy
            simp at g1 g2
            exact Prod.ext g1.1 g2.1
          exact (this.eq).symm
        refine .inr ⟨.done, p ++ [c], a', by simp [Map.clone, h1], hp.snoc (x := 0) ⟨e1, by rw [he]; exact hm.sorted⟩ fun _ => rfl, allowed_spec ht ?_⟩
        simp [Op.spec, hi, he]
  | iterate i es =>
    refine allowed_calm (op := .iterate i es) hp ht rfl rfl fun m x hi hm hx => ?_
    obtain rfl := hx (by simpa [Op.trusts] using ht)
    obtain ⟨it, h1, h2, h3⟩ := Map.iter_spec hm.toShaped
    obtain ⟨it', h4, _⟩ := Iter.run_spec hm.below es h3 (by rw [h2, hm.len]; simp)
    exact Agrees.ok (a' := a) (m' := m) (by simp only [h1, h4, Exec.ok_bind]) id hm rfl rfl
  | range i lo hi es =>
    refine allowed_calm (op := .range i lo hi es) hp ht rfl rfl fun m x hi' hm hx => ?_
    exact Agrees.ok (a' := a) (m' := m) (by simp only [rangeRun_spec hbo hm, Exec.ok_bind]) id hm rfl rfl
  | iterMut i acts =>
    refine allowed_calm (op := .iterMut i acts) hp ht rfl rfl fun m x hi hm hx => ?_
    obtain rfl := hx (by simpa [Op.trusts] using ht)
    obtain ⟨it, h1, _⟩ := Map.iter_spec hm.toShaped
    obtain ⟨i1, i2⟩ := MutInv.iter hm.toShaped h1
    obtain ⟨m', refs, g1, g2, g3, g4⟩ := mutRun_spec Iter.stepOK acts i1 (by simpa using i2)
    refine Agrees.ok (a' := a) (m' := m') (by simp only [h1, g1, Exec.ok_bind]) id ⟨g2, ?_⟩ rfl g3
    have hk := Cursor.acts_keys (⟨m.toList, 0, m.toList.length, []⟩ : Cursor K V) acts
    rw [g3]
    have hs := hm.sorted
    unfold Sorted at hs ⊢
    have h2 := (List.pairwise_map (f := fun (x : K × V) => x.1) (R := fun a b => compare a b = .lt)).2 hs
    exact (List.pairwise_map (f := fun (x : K × V) => x.1) (R := fun a b => compare a b = .lt)).1 (by rw [hk]; exact h2)
  | rangeMut i lo hi acts =>
    refine allowed_calm (op := .rangeMut i lo hi acts) hp ht rfl rfl fun m x hi' hm hx => ?_
    obtain ⟨m', h1, h2, h3⟩ := rangeMutRun_spec hbo hm lo hi acts
    exact Agrees.ok (a' := a) (m' := m') (by simp only [h1, Exec.ok_bind]) id h2 rfl h3
  | intoIter i es =>
    refine allowed_calm (op := .intoIter i es) hp ht rfl rfl fun m x hi hm hx => ?_
    obtain rfl := hx (by simpa [Op.trusts] using ht)
    obtain ⟨it, h1, h2, h3⟩ := Map.iter_spec hm.toShaped
    obtain ⟨it', h4, _⟩ := Iter.run_spec hm.below es h3 (by rw [h2, hm.len]; simp)
    exact Agrees.ok (a' := a) (m' := Map.new) (by simp only [h1, h4, Exec.ok_bind]) id Map.Valid_new rfl rfl
  | entryOrInsert i k v f =>
    exact allowed_inserts (op := .entryOrInsert i k v f) hp ht rfl rfl (fun m m' a' hm h => entryOrInsert_spoilt hm h) fun m x hm => entryOrInsert_agrees hm k v f
  | entryOrInsertWith i k v f =>
    exact allowed_inserts (op := .entryOrInsertWith i k v f) hp ht rfl rfl (fun m m' a' hm h => entryOrInsertWith_spoilt hm h) fun m x hm => entryOrInsertWith_agrees hm k v f
  | entryRemove i k => exact allowed_calm (op := .entryRemove i k) hp ht rfl rfl fun m x hi hm hx => entryRemove_agrees hm k
  | entryModify i k f => exact allowed_calm (op := .entryModify i k f) hp ht rfl rfl fun m x hi hm hx => entryModify_agrees hm k f
  | entryKey i k => exact allowed_calm (op := .entryKey i k) hp ht rfl rfl fun m x hi hm hx => entryKeyOf_agrees hm k
  | entryInsert i k v => exact allowed_calm (op := .entryInsert i k v) hp ht rfl rfl fun m x hi hm hx => entryInsert_agrees hm k v
  | tryClone i ck cv =>
    simp only [Op.run]
    cases hi : p[i]? with
    | none => exact .inr ⟨_, p, a, rfl, hp, allowed_spec ht (by simp [Op.spec, hi])⟩
    | some m =>
      obtain ⟨x, hm, hx⟩ := hp i m hi
      obtain ⟨r, a', h1, h2, h3⟩ := Map.tryClone_wf (keyCloner ck) (valCloner cv) hm.toShaped a
      cases r with
      | error er => exact .inr ⟨.failed, p, a', by simp [h1], hp, allowed_failed ht rfl⟩
      | ok c =>
        obtain ⟨e1, e2⟩ := h2 c rfl
        have hc := cloneList_all ck cv e2
        refine .inr ⟨.done, p ++ [c], a', by simp [h1], hp.snoc (x := 0) ⟨e1, Sorted.of_keys (cloneList_keys hc) hm.sorted⟩ fun _ => rfl, allowed_spec ht ?_⟩
        simp [Op.spec, hi, hc]
  | views i acts =>
    refine allowed_calm (op := .views i acts) hp ht rfl rfl fun m x hi hm hx => ?_
    obtain rfl := hx (by simpa [Op.trusts] using ht)
    exact Agrees.ok (a' := a) (m' := m) (by simp only [ViewAct.runs_spec hbo hm acts (vs := []) (ps := []) ⟨rfl, by simp⟩, Exec.ok_bind]) id hm rfl rfl
  | replace i k v =>
    exact allowed_inserts (op := .replace i k v) hp ht rfl rfl (fun m m' a' hm h => callSpoilt_replace hm h) fun m x hm => replaceCall_agrees hm k v
  | take i q =>
    refine allowed_calm (op := .take i q) hp ht rfl rfl fun m x hi hm hx => ?_
    obtain ⟨m', h1, h2, h3⟩ := Map.removeEntry_ordered hbo hm q
    exact Agrees.ok (a' := a) (m' := m') (by simp only [h1, Exec.ok_bind]) id h2 rfl h3

end

theorem mark_toList [Ord K] {bad : List Nat} {p : List (Map K V)} (hp : Loose Map.Ordered bad p) (op : Op K V Q) (o : Out K V) :
    op.mark bad (p.map Map.len) o = op.mark bad ((p.map Map.toList).map List.length) o := by
  refine Op.mark_congr op o (by simp) fun i hi => ?_
  simp only [List.getElem?_map, Option.map_map]
  cases h : p[i]? with
  | none => rfl
  | some m =>
    have := (hp.sound h hi).len
    simp only [Option.map_some, Function.comp, Map.len, Option.some.injEq]
    omega

/-- Careful programs, whatever the `Ord`. -/
theorem Op.goOn_loose [Ord K] [Ord Q] (bor : K → Q) : ∀ (ops : List (Op K V Q)) {bad : List Nat} {p : List (Map K V)} (_ : Loose Map.Shaped bad p) (a : Alloc),
    (∃ msg, Op.goOn bor ops bad p a = .panic msg) ∨ ∃ os bad' p' a', Op.goOn bor ops bad p a = .ok (os, bad', p', a') ∧ Loose Map.Shaped bad' p'
  | [], bad, p, hp, a => .inr ⟨[], bad, p, a, rfl, hp⟩
  | op :: ops, bad, p, hp, a => by
    unfold Op.goOn
    cases ht : op.trusts bad with
    | true =>
      rw [if_pos rfl]
      rcases Op.goOn_loose bor ops hp a with ⟨msg, h⟩ | ⟨os, bad', p', a', h, h2⟩
      · exact .inl ⟨msg, by simp [h]⟩
      · exact .inr ⟨_, bad', p', a', by simp only [h, Exec.ok_bind]; rfl, h2⟩
    | false =>
      rw [if_neg (by simp)]
      rcases Op.run_loose bor hp a op ht with ⟨msg, h⟩ | ⟨o, p1, a1, h, h2⟩
      · exact .inl ⟨msg, by simp [h]⟩
      · rcases Op.goOn_loose bor ops h2 a1 with ⟨msg, h3⟩ | ⟨os, bad', p', a', h3, h4⟩
        · exact .inl ⟨msg, by simp [h, h3]⟩
        · exact .inr ⟨_, bad', p', a', by simp only [h, Exec.ok_bind, h3]; rfl, h4⟩

/-- Careful programs with a lawful order. -/
theorem Op.goOn_allowed [Ord K] [Ord Q] [Std.TransOrd K] [Std.TransOrd Q] {bor : K → Q} (hbo : BorrowOK bor) :
    ∀ (ops : List (Op K V Q)) {bad : List Nat} {p : List (Map K V)} (_ : Loose Map.Ordered bad p) {a : Alloc} {os : List (Out K V)} {bad' : List Nat}
    {p' : List (Map K V)} {a' : Alloc} (_ : Op.goOn bor ops bad p a = .ok (os, bad', p', a')),
    Loose Map.Ordered bad' p' ∧ Op.alloweds bor ops bad (p.map Map.toList) os bad' (p'.map Map.toList)
  | [], bad, p, hp, a, os, bad', p', a', hr => by
    simp only [Op.goOn, Exec.ok.injEq, Prod.mk.injEq] at hr
    obtain ⟨rfl, rfl, rfl, rfl⟩ := hr
    exact ⟨hp, rfl, rfl, rfl⟩
  | op :: ops, bad, p, hp, a, os, bad', p', a', hr => by
    unfold Op.goOn at hr
    cases ht : op.trusts bad with
    | true =>
      rw [ht, if_pos rfl] at hr
      obtain ⟨⟨os1, b1, p1, a1⟩, h1, hr⟩ := Exec.bind_eq_ok.1 hr
      simp only [Exec.ok.injEq, Prod.mk.injEq] at hr
      obtain ⟨rfl, rfl, rfl, rfl⟩ := hr
      obtain ⟨h2, h3⟩ := Op.goOn_allowed hbo ops hp h1
      refine ⟨h2, .skipped, os1, _, rfl, ?_, h3⟩
      unfold Op.allowed
      rw [ht]
      exact ⟨rfl, rfl⟩
    | false =>
      rw [ht, if_neg (by simp)] at hr
      obtain ⟨⟨o, p1, a1⟩, h1, hr⟩ := Exec.bind_eq_ok.1 hr
      obtain ⟨⟨os1, b1, p2, a2⟩, h2, hr⟩ := Exec.bind_eq_ok.1 hr
      simp only [Exec.ok.injEq, Prod.mk.injEq] at hr
      obtain ⟨rfl, rfl, rfl, rfl⟩ := hr
      rcases Op.run_allowed hbo hp a op ht with ⟨msg, h⟩ | ⟨o', p1', a1', h, g1, g2⟩
      · rw [h1] at h; cases h
      · rw [h1] at h
        simp only [Exec.ok.injEq, Prod.mk.injEq] at h
        obtain ⟨rfl, rfl, rfl⟩ := h
        obtain ⟨h3, h4⟩ := Op.goOn_allowed hbo ops g1 h2
        refine ⟨h3, o, os1, _, rfl, g2, ?_⟩
        rw [← mark_toList hp]
        exact h4

end Verif.BTree
