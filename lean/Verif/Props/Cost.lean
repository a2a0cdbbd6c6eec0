import Verif.Heap.Proofs.CostCall
import Verif.Props.AnyOrd
import Verif.Props.AfterFail
/-
C74: how many comparisons each call makes.
-/
namespace Verif.Props
open Verif Verif.Heap Verif.Spec
open Verif.BTree (Map)

variable {K V Q : Type} {pl : Nat → Heap.Addr}

/-- The state a program leaves. -/
theorem hanys_pool {bor : K → Q} {ops : List (Op K V Q × CallCmps K Q)} {al : Alloc} {rs : List (Option (Out K V))} {p : List HMap} {s s' : Heap K V}
    {ls : List (List (K × V))} (hr : Op.hanys bor ops [] (Heap.start al pl) = .ok ((rs, true, p), s)) (hd : dropAll p s = .ok (ls, s')) :
    s.Good ∧ ∃ (ms : List (Map K V)) (al' : Alloc), (al.Good → al'.Good) ∧ (∀ m ∈ ms, m.WF) ∧ (pool p ms ∗ sched al' ∗ emp) s.world ∧ ls = ms.map Map.toList ∧
      p.map HMap.length = ls.map List.length := by
  have h := hanys_cases bor ops al pl
  rw [hr] at h
  obtain ⟨hg, ⟨ms, al'⟩, hw⟩ := h
  obtain ⟨⟨h1, h2, h3⟩, hw⟩ := fact_sep.1 hw
  dsimp only at h1 h2 h3 hw
  simp only [leak] at hw
  have hw' := hw
  simp only [sep_emp] at hw'
  obtain ⟨s1, k1, k2⟩ := all_freed (dropAll_spec (h2 rfl).1) hg hw'
  rw [hd] at k1
  simp only [Exec.ok.injEq, Prod.mk.injEq] at k1
  obtain ⟨rfl, rfl⟩ := k1
  refine ⟨hg, ms, al', h1, (h2 rfl).1, hw, rfl, ?_⟩
  have hl : p.length = ms.length := by
    have := Ent.frame pool_length _ _ hw
    rw [sep_assoc] at this
    exact (fact_sep.1 this).1
  refine List.ext_getElem? fun j => ?_
  rw [List.getElem?_map, List.map_map, List.getElem?_map]
  cases hj : p[j]? with
  | none =>
    have : ms[j]? = none := by
      rw [List.getElem?_eq_none_iff] at hj ⊢
      omega
    rw [this]; rfl
  | some hm =>
    obtain ⟨M, hM, hrep⟩ := pool_one hw hl hj
    rw [hM]
    have h5 := Props.rep_length hrep
    have h6 := ((h2 rfl).1 M (List.mem_of_getElem? hM)).len
    show some hm.length = some M.toList.length
    rw [h5, h6]; rfl

/-- **C74** Whatever program was run, with whatever comparisons: the next call looks at the answers of no more than `op.cost` comparisons, where the cost is a
function of the numbers of entries the maps have.  Sequences of comparisons that agree so far are the same to it: the answer, the maps and the memory it leaves,
and whether it panics. -/
theorem C74_calls {bor : K → Q} {ops : List (Op K V Q × CallCmps K Q)} {al : Alloc} {rs : List (Option (Out K V))} {p : List HMap} {s s' : Heap K V}
    {ls : List (List (K × V))} (hr : Op.hanys bor ops [] (Heap.start al pl) = .ok ((rs, true, p), s)) (hd : dropAll p s = .ok (ls, s'))
    (op : Op K V Q) {c c' : CallCmps K Q} (ha : c.Agree (op.cost (ls.map List.length)) c') : Op.hany bor p op c s = Op.hany bor p op c' s := by
  obtain ⟨hg, ms, al', _, h2, hw, _, hl⟩ := hanys_pool hr hd
  rw [← hl] at ha
  refine hany_same bor h2 (al := al') op ha emp s hg ?_
  rw [sep_assoc]
  exact hw

/-- The first `n` comparisons; the later ones answer `Equal`. -/
def within (n : Nat) (c : Cmps Q) : Cmps Q := fun k a b => if k < n then c k a b else some .eq

/-- The first `n` comparisons of each sequence return. -/
def ReturnFirst (n : Nat) (c : CallCmps K Q) : Prop :=
  (∀ k < n, ∀ a b, (c.key k a b).isSome = true) ∧ (∀ k < n, ∀ a b, (c.form k a b).isSome = true) ∧ ∀ j, ∀ k < n, ∀ a b, (c.forms j k a b).isSome = true

/-- **C74** So if that many comparisons return, the call returns and was not unwound, even if all comparisons after them would panic, and even if it is `append` or
`split_off`. -/
theorem C74_returns {bor : K → Q} {ops : List (Op K V Q × CallCmps K Q)} {al : Alloc} (hal : al.Good) {rs : List (Option (Out K V))} {p : List HMap} {s s' : Heap K V}
    {ls : List (List (K × V))} (hr : Op.hanys bor ops [] (Heap.start al pl) = .ok ((rs, true, p), s)) (hd : dropAll p s = .ok (ls, s'))
    (op : Op K V Q) {c : CallCmps K Q} (hc : ReturnFirst (op.cost (ls.map List.length)) c) :
    ∃ o p' s', Op.hany bor p op c s = .ok ((some o, p'), s') := by
  obtain ⟨hg, ms, al', h1, h2, hw, _, hl⟩ := hanys_pool hr hd
  generalize hn : op.cost (ls.map List.length) = n at hc
  have hag : c.Agree n ⟨within n c.key, within n c.form, fun j => within n (c.forms j)⟩ := by
    refine ⟨fun k hk => ?_, fun k hk => ?_, fun j k hk => ?_⟩ <;> (funext a b; simp only [within, hk, if_true])
  rw [C74_calls hr hd op (hn ▸ hag)]
  have hw1 : ∀ {T : Type} (d : Cmps T), (∀ k < n, ∀ a b, (d k a b).isSome = true) → (within n d).Return := by
    intro T d hd k a b
    unfold within
    by_cases hk : k < n
    · rw [if_pos hk]; exact hd k hk a b
    · rw [if_neg hk]; rfl
  have key := hany_spec (E := fun _ => False) (mem := True) (ret := True) bor h2 (fun _ => h1 hal) op (c := ⟨within n c.key, within n c.form, fun j => within n (c.forms j)⟩)
    (fun _ => ⟨hw1 _ hc.1, hw1 _ hc.2.1, fun j => hw1 _ (hc.2.2 j)⟩) (fun _ h => h trivial) (fun _ _ h => h trivial) emp s hg (by rw [sep_assoc]; exact hw)
  cases hx : Op.hany bor p op ⟨within n c.key, within n c.form, fun j => within n (c.forms j)⟩ s with
  | ub => rw [hx] at key; exact key.elim
  | panic msg => rw [hx] at key; exact key.elim
  | ok r =>
    rw [hx] at key
    obtain ⟨⟨o, p'⟩, s1⟩ := r
    have h5 := key.2
    simp only [sep_emp] at h5
    obtain ⟨y, h5⟩ := h5
    obtain ⟨⟨_, h6⟩, _⟩ := fact_sep.1 h5
    cases o with
    | some o => exact ⟨o, p', s1, hn ▸ hx⟩
    | none =>
      exfalso
      rcases h6 with ⟨_, h6, _⟩ | ⟨_, h6⟩
      · cases h6
      · generalize ms.map Map.toList = l, y.1.map Map.toList = l' at h6
        cases op <;> simp only [Op.may, onOne] at h6
        all_goals (first | (simp at h6; done) | (split at h6 <;> first | (simp [Looks, LooksMem] at h6; done) | (split at h6 <;> simp at h6; done)))

/-- **C74** And if that many comparisons are those of the order, the call is the call all other theorems are about. -/
theorem C74_honest [Ord K] [Ord Q] {bor : K → Q} {ops : List (Op K V Q × CallCmps K Q)} {al : Alloc} {rs : List (Option (Out K V))} {p : List HMap} {s s' : Heap K V}
    {ls : List (List (K × V))} (hr : Op.hanys bor ops [] (Heap.start al pl) = .ok ((rs, true, p), s)) (hd : dropAll p s = .ok (ls, s'))
    (op : Op K V Q) {c : CallCmps K Q} (ha : c.Agree (op.cost (ls.map List.length)) CallCmps.ofOrd) : Op.hany bor p op c s = (do
      let r ← Op.hrun bor p op
      pure (some r.1, r.2)) s := by
  rw [C74_calls hr hd op ha, hany_honest]

/-- A map of 25 entries in three leaves, and one of 8. -/
def costMaps : List (Op Nat Nat Nat × CallCmps Nat Nat) :=
  [(.new, fickleCall), (.new, backCall), (.extend 0 ((List.range 25).map fun i => (2 * i, i)), CallCmps.ofOrd), (.extend 1 ((List.range 8).map fun i => (7 * i, i)), CallCmps.ofOrd)]

/-- Honest comparisons of which the one of number `n` and all later ones panic. -/
def dies (n : Nat) : Cmps Nat := fun k a b => if k < n then some (compare a b) else none

def diesCall (n : Nat) : CallCmps Nat Nat := ⟨dies n, dies n, fun _ => dies n⟩

/-- What the call answers in the state `costMaps` leaves when comparison number `n` panics: the answer if it was not unwound and did not panic. -/
def answerWhen (n : Nat) (op : Op Nat Nat Nat) : Option (Option (Out Nat Nat)) :=
  match Op.hanys id costMaps [] (Heap.Heap.start allOk reuse) with
  | .ok ((_, true, p), s) => match Op.hany id p op (diesCall n) s with
    | .ok ((o, _), _) => some o
    | _ => none
  | _ => none

/-- The program meets the hypotheses of the theorems above. -/
example : (match Op.hanys id costMaps [] (Heap.Heap.start allOk reuse) with
    | .ok ((_, true, p), s) => match dropAll p s with
      | .ok (ls, _) => ls.map List.length == [25, 8]
      | _ => false
    | _ => false) = true := by decide +kernel

theorem diesCall_first (n : Nat) : ReturnFirst n (diesCall n) :=
  ⟨fun k hk _ _ => by simp [diesCall, dies, hk], fun k hk _ _ => by simp [diesCall, dies, hk], fun _ k hk _ _ => by simp [diesCall, dies, hk]⟩

/-- The costs allowed by the specification. -/
example : (Op.get 0 48 : Op Nat Nat Nat).cost [25, 8] = 33 ∧ (Op.append 0 1 : Op Nat Nat Nat).cost [25, 8] = 32 ∧ lookCost 8 = 22 ∧ lookCost 1000000 = 110 ∧
    (Op.range 0 (.included 3) (.included 9) [] : Op Nat Nat Nat).cost [25, 8] = 68 := by decide

/-- What the calls need: looking for the last of 25 keys takes 13 comparisons, so it is unwound by a panic of the thirteenth but not of the fourteenth; merging 25 entries
with the keys 0, 2, …, 48 and 8 with the keys 0, 7, …, 49 takes 28, and `append` does not come back from a panic before that. -/
example : answerWhen 33 (.get 0 48) = some (some (.value (some 24))) ∧ answerWhen 13 (.get 0 48) = some (some (.value (some 24))) ∧ answerWhen 12 (.get 0 48) = some none ∧
    answerWhen 32 (.append 0 1) = some (some .done) ∧ answerWhen 28 (.append 0 1) = some (some .done) ∧ answerWhen 27 (.append 0 1) = none ∧
    answerWhen 7 (.splitOff 0 21) = some (some .done) ∧ answerWhen 6 (.splitOff 0 21) = none := by decide +kernel

end Verif.Props
