import Verif.Heap.Proofs.Calls
import Verif.Heap.Proofs.LayoutOk
/-
Threads: how they start and what they leave.
-/
namespace Verif.Heap
open Verif
open Verif.BTree (Map)
open Verif.Spec (Op Out)

variable {K V Q α β : Type} {mem : Prop}

variable [Ord K] [Ord Q] {bor : K → Q} {I : Map K V → Prop}

/-- What thread number `j` should leave. -/
def JobPost (bor : K → Q) (mem : Prop) (I : Map K V → Prop) (psh : List (Map K V)) (jobs : List (Job K V Q)) (mss : List (List (Map K V))) (j : Nat)
    (r : List (Out K V) × Bool × List HMap) (w : Cells K V) : Prop :=
  ∀ job mj, jobs[j]? = some job → mss[j]? = some mj → ThreadPost bor mem I psh job.calls mj r w

theorem only_part (s : Heap K V) (hs : List HMap) {x : Addr} {nd : Node K V} (h : s.only hs x = some nd) : s.cells x = some nd := by
  unfold Heap.only at h
  split at h
  · exact h
  · cases h

theorem only_append (s : Heap K V) (a b : List HMap) : s.only (a ++ b) = both (s.only b) (s.only a) := by
  funext x
  unfold both
  by_cases hb : ∃ m ∈ b, ∃ h, NodeOf s m h x
  · have e1 : s.only b x = s.cells x := if_pos hb
    have e2 : s.only (a ++ b) x = s.cells x := if_pos (by obtain ⟨m, hm, h⟩ := hb; exact ⟨m, by simp [hm], h⟩)
    rw [e1, e2]
    cases h : s.cells x with
    | some nd => rfl
    | none =>
      cases h' : s.only a x with
      | none => rfl
      | some nd => rw [only_part s a h'] at h; cases h
  · have e1 : s.only b x = none := if_neg hb
    rw [e1]
    by_cases ha : ∃ m ∈ a, ∃ h, NodeOf s m h x
    · have e2 : s.only a x = s.cells x := if_pos ha
      have e3 : s.only (a ++ b) x = s.cells x := if_pos (by obtain ⟨m, hm, h⟩ := ha; exact ⟨m, by simp [hm], h⟩)
      rw [e2, e3]; rfl
    · have e2 : s.only a x = none := if_neg ha
      have e3 : s.only (a ++ b) x = none := if_neg (by
        rintro ⟨m, hm, h⟩
        rcases List.mem_append.1 hm with hm | hm
        · exact ha ⟨m, hm, h⟩
        · exact hb ⟨m, hm, h⟩)
      rw [e2, e3]; rfl

/-- The nodes of some maps are those that can be reached from them. -/
theorem pool_only {hs : List HMap} {ms : List (Map K V)} {c : Cells K V} {s : Heap K V} (hp : pool hs ms ⟨c, none⟩) (hc : ∀ x nd, c x = some nd → s.cells x = some nd) : c = s.only hs := by
  funext x
  unfold Heap.only
  split
  · next h =>
    obtain ⟨m, hm, k, hn⟩ := h
    obtain ⟨i, hi⟩ := List.mem_iff_getElem?.1 hm
    obtain ⟨nd, hnd⟩ := some_of_ne (pool_part hp (fun x n hx => hc x n hx) hi hn)
    exact hnd.trans (hc x nd hnd).symm
  · next h =>
    cases hx : c x with
    | none => rfl
    | some nd => exact absurd (pool_reach hp (fun x n hx => hc x n hx) hx) h

theorem going_start {d : List HMap → Op K V Q → Prog K V (Out K V × List HMap)} (hd : TakesApart bor d) (hI : Keeps bor mem I) {s : Heap K V} (hg : s.Good) (hmem : mem → s.alloc.Good)
    {sh : List HMap} {jobs : List (Job K V Q)} {ms : List (Map K V)} (hms : ∀ m ∈ ms, I m) (hp : pool (sh ++ moved jobs) ms ⟨s.cells, none⟩) (hok : ∀ job ∈ jobs, ∀ c ∈ job.calls, c.Ok)
    (hsp : ∀ op, Op.copies op = true → ∀ next al' pl', s.next ≤ next → (d sh op).Spares (fun a => s.only sh a ≠ none) ⟨s.only sh, next, al', pl'⟩) :
    ∃ psh mss w, ms = psh ++ mss.flatten ∧ psh.length = sh.length ∧ mss.map List.length = jobs.map (·.maps.length) ∧ pool sh psh ⟨s.only sh, none⟩ ∧
      (∀ (j : Nat) job, jobs[j]? = some job → w j = s.only job.maps) ∧
      Going (s.only sh) mem (Panics (Q := Q) bor mem I) (JobPost bor mem I psh jobs mss) s (spawn d sh jobs) w (spawn d sh jobs) s w := by
  obtain ⟨psh, m2, rfl, hl, h1⟩ := pool_append hp
  obtain ⟨ro, c2, h2, h3, h4, hc⟩ := sep_cells h1
  obtain ⟨mss, w, rfl, e2, e3, e4, e5, e6, e7⟩ := pool_parts h3
  have hlook : ∀ x nd, ro x = some nd → s.cells x = some nd := fun x nd hx => by rw [hc]; unfold both; rw [hx]; rfl
  have hmine : ∀ j x nd, w j x = some nd → s.cells x = some nd := fun j x nd hx => by
    rw [hc]
    unfold both
    rcases h4 x with h | h
    · rw [h, e6 j x nd hx]; rfl
    · rw [e6 j x nd hx] at h; cases h
  have haside : ∀ j x, w j x = none ∨ ro x = none := fun j x => by
    cases hx : w j x with
    | none => exact .inl rfl
    | some nd => exact .inr ((h4 x).resolve_right (by rw [e6 j x nd hx]; simp))
  have hbelow : ∀ c : Cells K V, (∀ x nd, c x = some nd → s.cells x = some nd) → Below c s.next := fun c hcs =>
    have : ∀ x, s.cells x = none → c x = none := fun x hx => by
      cases h : c x with
      | none => rfl
      | some nd => rw [hcs x nd h] at hx; cases hx
    ⟨fun x hx => this x (hg.1 x hx), this _ hg.2.1, hg.2.2⟩
  have hlen : (spawn d sh jobs).length = jobs.length := by simp [spawn]
  have hmsl : mss.length = jobs.length := by
    have := congrArg List.length e2
    simpa using this
  have hro : ro = s.only sh := pool_only h2 hlook
  subst hro
  have hown : ∀ (j : Nat) job mj, jobs[j]? = some job → mss[j]? = some mj → pool job.maps mj ⟨w j, none⟩ := fun j job mj hj hmj =>
    e3 j job.maps mj (by rw [List.getElem?_map, hj]; rfl) hmj
  refine ⟨psh, mss, w, rfl, hl, ?_, h2, fun j job hj => ?_, ?_⟩
  · rw [e2, List.map_map]; rfl
  · have hjl := (List.getElem?_eq_some_iff.1 hj).1
    exact pool_only (hown j job mss[j] hj (by rw [List.getElem?_eq_getElem])) (hmine j)
  · constructor
    · rfl
    · exact hg
    · exact hmem
    · exact Nat.le_refl _
    · intro j t ht
      rw [show (spawn d sh jobs)[j]? = (jobs[j]?).map fun j => thread d sh j.calls j.maps from List.getElem?_map ..] at ht
      obtain ⟨job, hj, rfl⟩ := Option.map_eq_some_iff.1 ht
      have hjl := (List.getElem?_eq_some_iff.1 hj).1
      have hmj : mss[j]? = some mss[j] := by rw [List.getElem?_eq_getElem]
      have hmem' : job ∈ jobs := List.mem_of_getElem? hj
      have hI' : ∀ m ∈ mss[j], I m := fun m hm => hms m (by
        rw [List.mem_append]; exact .inr (List.mem_flatten.2 ⟨mss[j], List.getElem_mem _, hm⟩))
      refine (thread_fine hd hI (fun m hm => hms m (by simp [hm])) h2 (hbelow _ hlook) (fun op hop next al pl hn _ => hsp op hop next al pl hn) job.calls (hok job hmem') hI'
        (hown j job mss[j] hj hmj) ⟨_, hbelow _ (hmine j)⟩ (haside j)).weaken (fun _ h => h) ?_
      intro r w h job' mj' hj' hmj'
      rw [hj] at hj'
      rw [hmj] at hmj'
      cases hj'; cases hmj'
      exact h
    · exact hmine
    · exact hlook
    · exact e4
    · exact haside
    · intro x nd hx
      rw [hc] at hx
      unfold both at hx
      cases hr : s.only sh x with
      | some n => exact .inl (by simp)
      | none =>
        rw [hr] at hx
        exact .inr (e7 x nd hx)
    · intro j x hj
      rw [hlen] at hj
      exact e5 j x (by simpa using hj)
    · intro j t t₀ ht ht0 next' al' pl' hn ha
      rw [ht] at ht0
      cases ht0
      exact ⟨next', al', pl', hn, ha, rfl⟩

/-- A thread by itself is its calls in a row. -/
theorem thread_whole {d : List HMap → Op K V Q → Prog K V (Out K V × List HMap)} (hd : TakesApart bor d) (sh : List HMap) : ∀ (cs : List (Call K V Q)) (p : List HMap),
    (thread d sh cs p).whole = alone bor sh cs p
  | [], p => rfl
  | .shared op :: cs, p => by
    unfold thread alone
    rw [Prog.whole_bind, hd.whole]
    congr 1; funext r
    rw [Prog.whole_bind, thread_whole hd sh cs p]
    rfl
  | .own op :: cs, p => by
    unfold thread alone
    rw [Prog.whole_bind, hd.whole]
    congr 1; funext r
    split
    · rfl
    · rw [Prog.whole_bind, thread_whole hd sh cs r.2]
      rfl
  | .copy op :: cs, p => by
    unfold thread alone
    rw [Prog.whole_bind, hd.whole]
    congr 1; funext r
    rw [Prog.whole_bind, thread_whole hd sh cs _]
    rfl

end Verif.Heap
