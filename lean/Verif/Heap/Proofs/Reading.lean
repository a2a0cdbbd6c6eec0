import Verif.Heap.Proofs.StepsAll
import Verif.Heap.Proofs.UnwindOps
import Verif.Heap.Proofs.UnwindAppend
import Verif.Heap.Proofs.UnwindMap
import Verif.Heap.Proofs.Views
/-
Code that only reads the memory: what it answers, as a refinement of the level-1 model.
-/
namespace Verif.Heap
open Verif
open Verif.BTree (Map)

variable {K V T α β γ δ : Type}

theorem Steps.reads {m : HM K V α} [h : Steps true m] : Reads m := by
  obtain ⟨t, rfl, h0⟩ := h.ex
  have h := h0 rfl
  clear h0
  induction t with
  | done a => exact fun s x s' e => by cases e; rfl
  | ub => exact fun s x s' e => by cases e
  | panic msg => exact fun s x s' e => by cases e
  | read a k ih => exact Reads.seq (Reads.node a) fun n => ih n (h n)
  | write a n k => exact h.elim
  | alloc lay k => exact h.elim
  | free a lay k => exact h.elim

/-- In the state `s`, the code `f` does what `x` says, up to `R`, and leaves the memory as it is. -/
def Refines (s : Heap K V) (f : HM K V α) (x : Exec β) (R : α → β → Prop) : Prop :=
  ∀ b, x = .ok b → ∃ a, f s = .ok (a, s) ∧ R a b

theorem Refines.ret {s : Heap K V} {R : α → β → Prop} {a : α} {b : β} (h : R a b) : Refines s (pure a) (.ok b) R := by
  intro b' e
  obtain rfl := Exec.ok.inj e
  exact ⟨a, rfl, h⟩

theorem Refines.seq {s : Heap K V} {f : HM K V α} {x : Exec β} {R : α → β → Prop} {g : α → HM K V γ} {y : β → Exec δ} {S : γ → δ → Prop}
    (h : Refines s f x R) (hg : ∀ a b, R a b → Refines s (g a) (y b) S) : Refines s (f >>= g) (x >>= y) S := by
  intro d e
  obtain ⟨b, h1, h2⟩ := Exec.bind_eq_ok.1 e
  obtain ⟨a, h3, h4⟩ := h b h1
  obtain ⟨c, h5, h6⟩ := hg a b h4 d h2
  exact ⟨c, by show HM.bind f g s = _; unfold HM.bind; rw [h3]; exact h5, h6⟩

theorem Refines.panics {s : Heap K V} {f : HM K V α} {R : α → β → Prop} {msg : String} : Refines s f (.panic msg) R := by
  intro b e
  cases e

/-- A triple about code that only reads. -/
theorem Refines.ofTriple {s : Heap K V} (hg : s.Good) {P R : HProp K V} (hw : (P ∗ R) s.world) {f : HM K V α} [Steps true f] {x : Exec β} {Rel : α → β → Prop}
    (h : ∀ b, x = .ok b → Triple (fun _ => False) P f (fun a => fact (Rel a b) ∗ P)) : Refines s f x Rel := by
  intro b e
  obtain ⟨a, s', h1, _, h2⟩ := Triple.returns (h b e) hg hw
  have : s' = s := Steps.reads s a s' h1
  subst this
  rw [sep_assoc] at h2
  exact ⟨a, h1, (fact_sep.1 h2).1⟩

/-- The memory has everything in it that `Kn` says. -/
def Knows (s : Heap K V) (Kn : HProp K V → Prop) : Prop := s.Good ∧ ∀ P, Kn P → ∃ F, (P ∗ F) s.world

/-- `m` is the map `M` in memory. -/
def MapAt (Kn : HProp K V → Prop) (M : Map K V) (m : HMap) : Prop := M.WF ∧ m.length = M.len ∧ m.root.height = M.height ∧ ∃ ta, Kn (own m M ta)

/-- An item and the iterator after it. -/
def ItemAt {I J : Type} (R : I → J → Prop) (a : Option T × I) (b : Option T × J) : Prop := a.1 = b.1 ∧ R a.2 b.2

/-- Two maps of a pool, which may be the same: what is known about the memory, and stays so as long as the two are left alone. -/
theorem pool_known {p : List HMap} {ms : List (Map K V)} {al : Alloc} {w : World K V} (hp : ∀ m ∈ ms, m.WF) (hw : (pool p ms ∗ sched al) w) (hl : p.length = ms.length)
    {i j : Nat} {m n : HMap} (hi : p[i]? = some m) (hj : p[j]? = some n) :
    ∃ M N, ms[i]? = some M ∧ ms[j]? = some N ∧ ∃ (A R : HProp K V) (Kn : HProp K V → Prop), MapAt Kn M m ∧ MapAt Kn N n ∧ (A ∗ sched al ∗ R) w ∧
      ∀ {s : Heap K V} {F}, s.Good → (A ∗ F) s.world → Knows s Kn := by
  have hlt : i < ms.length := by rw [← hl]; exact (List.getElem?_eq_some_iff.1 hi).1
  have hlt' : j < ms.length := by rw [← hl]; exact (List.getElem?_eq_some_iff.1 hj).1
  have hM : ms[i]? = some ms[i] := List.getElem?_eq_getElem hlt
  have hN : ms[j]? = some ms[j] := List.getElem?_eq_getElem hlt'
  have facts : ∀ {m : HMap} {M : Map K V} {ta : ATree K V} {F : HProp K V}, (own m M ta ∗ F) w → m.length = M.length ∧ m.root.height = M.height := fun h => by
    have := Ent.frame own_length _ _ h
    rw [sep_assoc] at this
    exact (fact_sep.1 this).1
  refine ⟨ms[i], ms[j], hM, hN, ?_⟩
  by_cases hij : i = j
  · subst hij
    rw [hi] at hj
    obtain rfl := Option.some.inj hj
    obtain ⟨hm, F, e1, e2, _⟩ := pool_split hl hM
    rw [hi] at e1
    obtain rfl := Option.some.inj e1
    rw [e2, rep, hex_sep, hex_sep] at hw
    obtain ⟨ta, hw⟩ := hw
    rw [sep_assoc] at hw
    obtain ⟨f1, f2⟩ := facts hw
    refine ⟨own m ms[i] ta, F, (· = own m ms[i] ta), ⟨hp _ (List.getElem_mem hlt), f1, f2, ta, rfl⟩, ⟨hp _ (List.getElem_mem hlt), f1, f2, ta, rfl⟩, ?_, ?_⟩
    · rw [sep_comm (sched al)]; exact hw
    · rintro s F hg h
      exact ⟨hg, by rintro P rfl; exact ⟨F, h⟩⟩
  · obtain ⟨F, e2, _⟩ := pool_two hl hM hN hi hj hij
    rw [e2, rep, rep, hex_sep, hex_sep] at hw
    obtain ⟨ta, hw⟩ := hw
    rw [sep_assoc, hex_sep, hex_sep, sep_hex] at hw
    obtain ⟨tb, hw⟩ := hw
    have h1 := facts hw
    have e : (own m ms[i] ta ∗ (own n ms[j] tb ∗ F) ∗ sched al) = (own n ms[j] tb ∗ own m ms[i] ta ∗ F ∗ sched al) := by ac_rfl
    have h2 := facts (e ▸ hw)
    refine ⟨own m ms[i] ta ∗ own n ms[j] tb, F, (fun P => P = own m ms[i] ta ∨ P = own n ms[j] tb), ⟨hp _ (List.getElem_mem hlt), h1.1, h1.2, ta, .inl rfl⟩,
      ⟨hp _ (List.getElem_mem hlt'), h2.1, h2.2, tb, .inr rfl⟩, ?_, ?_⟩
    · have e : (own m ms[i] ta ∗ (own n ms[j] tb ∗ F) ∗ sched al) = ((own m ms[i] ta ∗ own n ms[j] tb) ∗ sched al ∗ F) := by ac_rfl
      rw [← e]; exact hw
    · rintro s F hg h
      refine ⟨hg, ?_⟩
      rintro P (rfl | rfl)
      · rw [sep_assoc] at h; exact ⟨_, h⟩
      · rw [sep_comm (own m ms[i] ta), sep_assoc] at h; exact ⟨_, h⟩

end Verif.Heap
