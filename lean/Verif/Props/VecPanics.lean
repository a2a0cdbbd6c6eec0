import Verif.Vec.Proofs4
import Verif.Props.VecSafety
/-
Vectors whose elements have panicking destructors, cloners and iterators that panic (C81): everything is sound, except the one
call that C54 is about.
-/
namespace Verif.Props
open Verif Verif.Vec

variable {T : Type} {e : Env T}

/-- **C81** One call, whatever panics: unless it is a shrinking `try_resize_no_copy` that cuts off an element with a panicking
destructor, the call does nothing undefined, leaves a sound vector (also when it panics), makes no allocation request whose
failure aborts, and every object is accounted for once: in the vector, dropped, or handed back. -/
theorem C81_call (he : e.OK) {v : RawVec T} {l : List T} (hv : Holds e v l) (c : Call T) (hc : c.OK e) (hp : Careful e l c) (w : World T) :
    ∃ out v' w' l' dropped made, c.run e ⟨v, w⟩ = (out, ⟨v', w'⟩) ∧ out ≠ .ub ∧ Holds e v' l' ∧ w'.aborting = w.aborting ∧
      w'.dropped = w.dropped ++ dropped ∧ w'.made = w.made ++ made ∧
      (c.Owning → (l ++ c.given ++ made).Perm (l' ++ dropped ++ back out)) := by
  obtain ⟨out, v', w', h1, h2, h3, l', h4, d, m, h5, h6, h7⟩ := call_fine he hv c hc hp w
  exact ⟨out, v', w', l', d, m, h1, h2, h4, h3, h5, h6, h7⟩

/-- **C81** That exception is exact: after a call the vector can be dropped without undefined behaviour if and only if the call
did not cut off an element with a panicking destructor by `try_resize_no_copy`. -/
theorem C81_exact (he : e.OK) {v : RawVec T} {l : List T} (hv : Holds e v l) (c : Call T) (hc : c.OK e) (w : World T) :
    (dropVec e (c.run e ⟨v, w⟩).2).1 ≠ .ub ↔ Careful e l c := by
  constructor
  · intro h
    cases c with
    | resizeNoCopy cl n x =>
      intro y hy
      cases hq : e.dropPanics y with
      | false => rfl
      | true =>
        exfalso
        have hn : n ≤ l.length := by
          have := List.length_pos_of_mem hy
          simp at this; omega
        obtain ⟨s', h1, h2⟩ := C54_shrink_not_panic_safe hv (cl := cl) hn x w hy hq
        apply h
        simp only [Call.run, VM.bind_panic h1]
        exact h2
    | _ => trivial
  · intro hp
    obtain ⟨out, v', w', h1, h2, _, l', h4, _⟩ := call_fine he hv c hc hp w
    rw [h1, h4.eq_of, (dropVec_spec w').1]
    split <;> simp

/-- No call of the history cuts off an element with a panicking destructor by `try_resize_no_copy`; `s` is the state at its
beginning. -/
def CarefulRun (e : Env T) : List (Call T) → St T → Prop
  | [], _ => True
  | c :: cs, s => Careful e s.v.items c ∧ CarefulRun e cs (c.run e s).2

theorem history_fine (he : e.OK) (cs : List (Call T)) : ∀ (_ : ∀ c ∈ cs, c.OK e ∧ c.Owning) (v : RawVec T) (l : List T) (_ : Holds e v l)
    (w : World T) (_ : CarefulRun e cs ⟨v, w⟩),
    ∃ l' w' v' d m, (runCalls e cs ⟨v, w⟩).2 = ⟨v', w'⟩ ∧ Holds e v' l' ∧ w'.aborting = w.aborting ∧ w'.dropped = w.dropped ++ d ∧
      w'.made = w.made ++ m ∧ (l ++ cs.flatMap Call.given ++ m).Perm (l' ++ d ++ (runCalls e cs ⟨v, w⟩).1) := by
  induction cs with
  | nil => intro _ v l hv w _; exact ⟨l, w, v, [], [], rfl, hv, rfl, by simp, by simp, by simp [runCalls]⟩
  | cons c cs ih =>
    intro hc v l hv w hp
    have hp1 := hp.1
    simp only [hv.items] at hp1
    obtain ⟨out, v₁, w₁, h1, h2, h3, l₁, h4, d₁, m₁, h5, h6, h7⟩ := call_fine he hv c (hc c (by simp)).1 hp1 w
    have hp2 := hp.2
    rw [h1] at hp2
    obtain ⟨l', w', v', d, m, g1, g2, g3, g4, g5, g6⟩ := ih (fun c h => hc c (by simp [h])) v₁ l₁ h4 w₁ hp2
    refine ⟨l', w', v', d₁ ++ d, m₁ ++ m, ?_, g2, by rw [g3, h3], by rw [g4, h5]; simp, by rw [g5, h6]; simp, ?_⟩
    · simp only [runCalls, h1, g1]
    · have h7 := h7 (hc c (by simp)).2
      simp only [runCalls, h1, List.flatMap_cons]
      have e1 : (l ++ (c.given ++ cs.flatMap Call.given) ++ (m₁ ++ m)).Perm ((l ++ c.given ++ m₁) ++ (cs.flatMap Call.given ++ m)) := by
        simp only [List.append_assoc]
        refine List.Perm.append_left _ (List.Perm.append_left _ ?_)
        simp only [← List.append_assoc]
        exact List.Perm.append_right _ List.perm_append_comm
      have e2 : ((l₁ ++ d₁ ++ back out) ++ (cs.flatMap Call.given ++ m)).Perm ((l₁ ++ cs.flatMap Call.given ++ m) ++ (d₁ ++ back out)) := by
        simp only [List.append_assoc]
        refine List.Perm.append_left _ ?_
        simp only [← List.append_assoc]
        rw [List.append_assoc (d₁ ++ back out), List.append_assoc (cs.flatMap Call.given ++ m)]
        exact List.perm_append_comm
      have e3 : ((l' ++ d ++ (runCalls e cs ⟨v₁, w₁⟩).1) ++ (d₁ ++ back out)).Perm
          (l' ++ (d₁ ++ d) ++ (back out ++ (runCalls e cs ⟨v₁, w₁⟩).1)) := by
        simp only [List.append_assoc]
        refine List.Perm.append_left _ ?_
        rw [← List.append_assoc d, ← List.append_assoc (d ++ _)]
        refine List.Perm.trans (List.Perm.append_right _ List.perm_append_comm) ?_
        simp only [List.append_assoc]
        refine List.Perm.append_left _ ?_
        refine List.Perm.append_left _ ?_
        exact List.perm_append_comm
      exact e1.trans ((h7.append_right _).trans (e2.trans ((g6.append_right _).trans e3)))

/-- The objects that calls of `next` and `next_back` handed out. -/
def handed (os : List (Option T)) : List T := os.filterMap id

theorem pop_perm (d : Spec.End) (l : List T) : l.Perm (handed [(Spec.pop d l).1] ++ (Spec.pop d l).2) := by
  cases d with
  | front => cases l <;> simp [Spec.pop, handed]
  | back =>
    rcases List.eq_nil_or_concat l with rfl | ⟨l, x, rfl⟩
    · simp [Spec.pop, handed]
    · simp [Spec.pop, handed, List.perm_append_singleton]

theorem pops_perm (es : List Spec.End) (l : List T) : l.Perm (handed (Spec.pops es l).1 ++ (Spec.pops es l).2) := by
  induction es generalizing l with
  | nil => simp [Spec.pops, handed]
  | cons d es ih =>
    have h1 := pop_perm d l
    have h2 := ih (Spec.pop d l).2
    simp only [Spec.pops]
    rw [show handed ((Spec.pop d l).1 :: (Spec.pops es (Spec.pop d l).2).1) =
      handed [(Spec.pop d l).1] ++ handed (Spec.pops es (Spec.pop d l).2).1 by
        simp only [handed, ← List.filterMap_append, List.singleton_append]]
    rw [List.append_assoc]
    exact h1.trans (List.Perm.append_left _ h2)

/-- **C81** A whole life, whatever panics: any history of calls on a fresh vector, the panics being caught, in which no
`try_resize_no_copy` cuts off an element with a panicking destructor.  Then dropping the vector is not undefined behaviour, and
every object ever handed over or produced has been dropped exactly once or handed back. -/
theorem C81_history (he : e.OK) (cs : List (Call T)) (hc : ∀ c ∈ cs, c.OK e ∧ c.Owning) (a : Alloc)
    (hp : CarefulRun e cs ⟨RawVec.new e, ⟨a, 0, [], [], []⟩⟩) {got s'} (hr : runCalls e cs ⟨RawVec.new e, ⟨a, 0, [], [], []⟩⟩ = (got, s')) :
    (dropVec e s').1 ≠ .ub ∧ (dropVec e s').2.w.aborting = 0 ∧
      (cs.flatMap Call.given ++ s'.w.made).Perm ((dropVec e s').2.w.dropped ++ got) := by
  obtain ⟨l', w', v', d, m, h1, h2, h3, h4, h5, h6⟩ := history_fine he cs hc _ [] (.new e) ⟨a, 0, [], [], []⟩ hp
  rw [hr] at h1 h6
  simp only at h1
  subst h1
  simp only [List.nil_append] at h4 h5 h6
  rw [h2.eq_of, (dropVec_spec w').1, (dropVec_spec w').2]
  refine ⟨by split <;> simp, h3, ?_⟩
  simp only [h4, h5]
  exact h6.trans (List.Perm.append_right _ List.perm_append_comm)

/-- **C81** The same life, ended by `into_iter` instead of a drop: the vector is consumed by any sequence of `next` and
`next_back` calls, which hand out its elements from the two ends in order, and the iterator is dropped with what is left. -/
theorem C81_into_iter (he : e.OK) (cs : List (Call T)) (hc : ∀ c ∈ cs, c.OK e ∧ c.Owning) (a : Alloc)
    (hp : CarefulRun e cs ⟨RawVec.new e, ⟨a, 0, [], [], []⟩⟩) {got s'} (hr : runCalls e cs ⟨RawVec.new e, ⟨a, 0, [], [], []⟩⟩ = (got, s'))
    (es : List Spec.End) :
    ∃ it, (intoIter s'.v).run es = .ok ((Spec.pops es s'.v.items).1, it) ∧
      (it.drop e s'.w).1 ≠ .ub ∧ (it.drop e s'.w).2.dropped = s'.w.dropped ++ (Spec.pops es s'.v.items).2 ∧
      (cs.flatMap Call.given ++ s'.w.made).Perm ((it.drop e s'.w).2.dropped ++ got ++ handed (Spec.pops es s'.v.items).1) := by
  obtain ⟨l', w', v', d, m, h1, h2, h3, h4, h5, h6⟩ := history_fine he cs hc _ [] (.new e) ⟨a, 0, [], [], []⟩ hp
  rw [hr] at h1 h6
  simp only at h1
  subst h1
  simp only [List.nil_append] at h4 h5 h6
  obtain ⟨it, g1, g2⟩ := IntoIter.run_spec es (intoIter_has h2)
  simp only [h2.items]
  refine ⟨it, g1, ?_, by rw [IntoIter.drop_spec g2], ?_⟩
  · rw [IntoIter.drop_spec g2]; exact dropsOut_ne
  · rw [IntoIter.drop_spec g2]
    simp only [h4, h5]
    have h7 := pops_perm es l'
    refine h6.trans (((h7.append_right d).append_right got).trans ?_)
    generalize handed (Spec.pops es l').1 = A, (Spec.pops es l').2 = B
    -- A ++ B ++ d ++ got ~ d ++ B ++ got ++ A
    have k1 : (A ++ B ++ d ++ got).Perm ((B ++ d ++ got) ++ A) := by
      have := List.perm_append_comm (l₁ := A) (l₂ := B ++ d ++ got)
      simpa only [List.append_assoc] using this
    exact k1.trans ((List.perm_append_comm.append_right got).append_right A)

/-- What a building function hands over. -/
def built : Exec (Res (RawVec T)) → List T
  | .ok (.ok v) => v.items
  | _ => []

/-- A building function accounts for every object, given or made: in the vector it returns, or dropped. -/
structure Accounts (w : World T) (given : List T) (r : Exec (Res (RawVec T)) × World T) : Prop where
  ub : r.1 ≠ .ub
  aborting : r.2.aborting = w.aborting
  ledger : ∃ made dropped, r.2.made = w.made ++ made ∧ r.2.dropped = w.dropped ++ dropped ∧
    (given ++ made).Perm (built r.1 ++ dropped)

theorem accounts_build {given made drops : List T} {c : Nat} {l : List T} {w w' : World T} {out : Exec (Res Unit)} (hu : out ≠ .ub)
    (h1 : w'.aborting = w.aborting) (h2 : w'.made = w.made ++ made) (h3 : w'.dropped = w.dropped ++ drops)
    (h4 : (given ++ made).Perm (l ++ drops)) : Accounts w given (buildOut e c l w' out) := by
  rcases out with r | _ | m
  · rcases r with er | ⟨⟩
    · refine ⟨?_, h1, made, drops ++ l, h2, by simp [buildOut, World.dropMany, h3], ?_⟩
      · simp only [buildOut]; split <;> simp
      · have : built (buildOut e c l w' (.ok (.error er))).1 = [] := by simp only [buildOut]; split <;> rfl
        rw [this]
        exact h4.trans List.perm_append_comm
    · refine ⟨by simp [buildOut], h1, made, drops, h2, h3, ?_⟩
      simpa [buildOut, built, items_of] using h4
  · exact absurd rfl hu
  · refine ⟨by simp [buildOut], h1, made, drops ++ l, h2, by simp [buildOut, World.dropMany, h3], ?_⟩
    exact h4.trans List.perm_append_comm

/-- **C81** The functions that build a vector, whatever panics (destructors, cloners): nothing undefined, no aborting request,
and every object handed over or cloned is in the vector returned or has been dropped exactly once. -/
theorem C81_builders (he : e.OK) (cl : Cloner T) (x : T) (n : Nat) (xs : List T) (vs : List (List T)) (w : World T) :
    Accounts w [] (tryCloneSlice e cl xs w) ∧ Accounts w [x] (tryFromElem e cl x n w) ∧ Accounts w [] (concat e cl vs w) := by
  refine ⟨?_, ?_, ?_⟩
  · obtain ⟨r, c', a', g1, g2⟩ := tryExtendFromSliceNoCopy_spec he cl (l := []) (.new e) (Nat.zero_le _) xs w
    rw [← new_eq] at g2
    cases r with
    | error er =>
      rw [tryCloneSlice, building_spec (c := c') (l := []) g2]
      exact accounts_build (made := []) (drops := []) (by simp) rfl (by simp) (by simp) (by simp)
    | ok u =>
      rw [tryCloneSlice, building_spec (c := c') (l := (cloneAll cl xs a').1) g2]
      refine accounts_build (made := (cloneAll cl xs a').1) (drops := []) ?_ rfl rfl (by simp) (by simp)
      cases (cloneAll cl xs a').2.1 <;> simp [Stop.out]
  · rcases Nat.eq_zero_or_pos n with rfl | hn
    · rw [tryFromElem_zero]
      refine ⟨?_, rfl, [], [x], by simp [World.drop1], rfl, ?_⟩
      · simp only []; split <;> simp
      · cases e.dropPanics x <;> simp [built, RawVec.new, RawVec.items]
    · obtain ⟨r, c', a', h1, h2⟩ := tryFromElem_spec he cl x hn w
      rw [h2]
      cases r with
      | error er =>
        refine ⟨?_, rfl, [], [x], by simp [World.drop1], rfl, ?_⟩
        · simp only []; split <;> simp
        · cases e.dropPanics x <;> simp [built]
      | ok u =>
        simp only []
        generalize hm : (cloneAll cl (List.replicate (n - 1) x) a').1 = made
        have hmade : (clonedOnto cl (List.replicate (n - 1) x) c' [] { w with alloc := a' }).w.made = w.made ++ made := by rw [← hm]; rfl
        have hdrop : (clonedOnto cl (List.replicate (n - 1) x) c' [] { w with alloc := a' }).w.dropped = w.dropped := rfl
        have hab : (clonedOnto cl (List.replicate (n - 1) x) c' [] { w with alloc := a' }).w.aborting = w.aborting := rfl
        cases (cloneAll cl (List.replicate (n - 1) x) a').2.1 with
        | done =>
          refine ⟨by simp, hab, made, [], hmade, by simp [hdrop], ?_⟩
          simp only [built, items_of, List.append_nil]
          exact List.perm_append_comm
        | failed er =>
          refine ⟨?_, hab, made, x :: made, hmade, by simp [World.drop1, World.dropMany, hdrop], ?_⟩
          · simp only []; split <;> simp
          · have : built (if e.dropPanics x || made.any e.dropPanics then .panic "destructor panicked" else .ok (.error er) :
                Exec (Res (RawVec T))) = [] := by split <;> rfl
            simp only [this]
            exact .refl _
        | panicked m =>
          exact ⟨by simp, hab, made, x :: made, hmade, by simp [World.drop1, World.dropMany, hdrop], by simp [built]⟩
  · unfold Vec.concat
    rcases hs : sumUsize e (vs.map List.length) with size | _ | m
    · simp only []
      obtain ⟨r, c', a', h1, h2⟩ := tryWithCapacity_spec he size w
      rw [h2]
      cases r with
      | error er => exact ⟨by simp, rfl, [], [], by simp, by simp, by simp [built]⟩
      | ok u =>
        have hr := h1.ok rfl
        obtain ⟨r, c₂, m, w₂, g1, g2, g3, g4, g5, g6, g7⟩ := concatLoop_ledger he cl vs (l := []) hr.2.1 (Nat.zero_le _) { w with alloc := a' }
        simp only [List.nil_append] at g1
        simp only []
        rw [building_spec g1]
        exact accounts_build (made := m) (drops := []) g2 g5 g6 (by simp [g7]) (by simp)
    · exfalso
      rw [sumUsize_spec] at hs
      split at hs
      · simp at hs
      · split at hs <;> simp at hs
    · exact ⟨by simp, rfl, [], [], by simp, by simp, by simp [built]⟩

/-- **C81** `try_from_iterator` (and `try_collect`) with an iterator that panics after yielding `xs`, and destructors that may
panic: nothing undefined, no aborting request; the items pulled are all dropped exactly once - there is no vector to return.  The
panic of the iterator gets out, unless an item was refused before (then it is as with an iterator that comes to its end). -/
theorem C81_iterator (he : e.OK) (msg : String) (xs : List T) (w : World T) {r w'} (h : tryFromIteratorPanic e msg xs w = (r, w')) :
    r ≠ .ub ∧ w'.aborting = w.aborting ∧ (∀ v rest, r ≠ .ok (.ok v, rest)) ∧
      ∃ pulled rest dropped, xs = pulled ++ rest ∧ w'.dropped = w.dropped ++ dropped ∧ pulled.Perm dropped ∧ w'.made = w.made ∧
        ((r = .panic msg ∧ rest = []) ∨ tryFromIterator e xs w = (r, w')) := by
  rcases tryFromIteratorPanic_spec he msg xs w with ⟨a', h1⟩ | ⟨ys, y, zs, er, a', h1, h2, h3⟩
  · rw [h1] at h
    obtain ⟨rfl, rfl⟩ := Prod.mk.inj h
    exact ⟨by simp, rfl, by simp, xs, [], xs, by simp, rfl, .refl _, rfl, .inl ⟨rfl, rfl⟩⟩
  · rw [h3]
    rw [h2] at h
    obtain ⟨rfl, rfl⟩ := Prod.mk.inj h
    refine ⟨by split <;> simp, rfl, fun v rest => by split <;> simp, ys ++ [y], zs, y :: ys, by simp [h1],
      by simp [World.dropMany, World.drop1], List.perm_append_comm, rfl, .inr h2⟩

/-- **C81** And with an iterator that comes to its end, destructors panicking or not: the items pulled are in the vector
returned, or all dropped. -/
theorem C81_collect (he : e.OK) (xs : List T) (w : World T) {r w'} (h : tryFromIterator e xs w = (r, w')) :
    r ≠ .ub ∧ w'.aborting = w.aborting ∧ w'.made = w.made ∧
      ((∃ v, r = .ok (.ok v, []) ∧ Holds e v xs ∧ w'.dropped = w.dropped) ∨
        ∃ pulled rest dropped, xs = pulled ++ rest ∧ w'.dropped = w.dropped ++ dropped ∧ pulled.Perm dropped ∧
          ((∃ er, r = .ok (.error er, rest)) ∨ r = .panic "destructor panicked")) := by
  obtain ⟨c', a', hc⟩ := tryFromIterator_spec he xs w
  rcases hc with ⟨h1, h2, h3⟩ | ⟨ys, y, zs, er, c₀, a₀, h1, h2, h3⟩
  · rw [h1] at h
    obtain ⟨rfl, rfl⟩ := Prod.mk.inj h
    exact ⟨by simp, rfl, rfl, .inl ⟨_, rfl, .of h2 h3, rfl⟩⟩
  · rw [h2] at h
    obtain ⟨rfl, rfl⟩ := Prod.mk.inj h
    refine ⟨by split <;> simp, rfl, rfl, .inr ⟨ys ++ [y], zs, y :: ys, by simp [h1], by simp [World.dropMany, World.drop1],
      List.perm_append_comm, ?_⟩⟩
    split
    · exact .inr rfl
    · exact .inl ⟨er, rfl⟩

/-! ### concrete cases: the destructor of 13 panics -/

/-- A history with panicking destructors in an assignment, in `clear`, in a shrinking `try_resize_with`, and a refused push. -/
def hotHistory : List (Call Nat) :=
  [.push 13, .push 1, .push 2, .assign 0 13, .swap 0 2, .assign 7 5, .pop, .push 13, .push 4, .resizeWith 2 (fun _ => .error "boom"),
    .push 6, .clear, .push 8, .push 13, .push 9, .resizeNoCopy failAt5 2 13]

/-- It meets the hypotheses of `C81_history` and `C81_into_iter`. -/
example : (∀ c ∈ hotHistory, c.OK demoEnv ∧ c.Owning) ∧
    CarefulRun demoEnv hotHistory ⟨RawVec.new demoEnv, ⟨fun _ => true, 0, [], [], []⟩⟩ := by
  refine ⟨?_, ?_⟩
  · simp only [hotHistory, List.mem_cons, List.not_mem_nil, or_false]
    rintro c (rfl | rfl | rfl | rfl | rfl | rfl | rfl | rfl | rfl | rfl | rfl | rfl | rfl | rfl | rfl | rfl) <;> exact ⟨trivial, trivial⟩
  · simp only [hotHistory, CarefulRun, Careful, true_and, and_true]
    decide +kernel

/-- What it does: 13 came back from `pop`; the elements left; those dropped. -/
example :
    let r := runCalls demoEnv hotHistory ⟨RawVec.new demoEnv, ⟨fun _ => true, 0, [], [], []⟩⟩
    r.1 = [13] ∧ r.2.v.items = [8, 13] ∧ r.2.w.dropped = [13, 5, 13, 4, 2, 1, 6, 9, 13] ∧
      (dropVec demoEnv r.2).1 = .panic "destructor panicked" := by
  decide +kernel

/-- Not careful: `try_resize_no_copy` cuts off 13, and the next drop is undefined behaviour (both sides of `C81_exact`). -/
example : ¬ Careful demoEnv [1, 13, 3] (.resizeNoCopy failAt5 1 7) ∧
    (dropVec demoEnv ((Call.resizeNoCopy failAt5 1 7).run demoEnv ⟨RawVec.of 3 [1, 13, 3], demoWorld fun _ => true⟩).2).1 = .ub :=
  ⟨fun h => absurd (h 13 (by decide)) (by decide), by decide +kernel⟩

/-- The items a failed `try_from_iterator` did not pull. -/
def notPulled : Exec (Res (RawVec T) × List T) → List T
  | .ok (.error _, rest) => rest
  | _ => []

/-- The message of a panic. -/
def message {α : Type} : Exec α → Option String
  | .panic m => some m
  | _ => none

/-- An iterator that panics after four items, and one whose third item is refused. -/
example : message (tryFromIteratorPanic demoEnv "tired" [1, 13, 3, 4] (demoWorld fun _ => true)).1 = some "tired" ∧
    (tryFromIteratorPanic demoEnv "tired" [1, 13, 3, 4] (demoWorld fun _ => true)).2.dropped = [1, 13, 3, 4] ∧
    notPulled (tryFromIteratorPanic demoEnv "tired" [1, 3, 4, 5] (demoWorld fun n => n < 1)).1 = [4, 5] ∧
    (tryFromIteratorPanic demoEnv "tired" [1, 3, 4, 5] (demoWorld fun n => n < 1)).2.dropped = [3, 1] := by
  decide +kernel

end Verif.Props
