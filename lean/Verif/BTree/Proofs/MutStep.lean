import Verif.BTree.Proofs.Mut
import Verif.SpecMut
/-
One step of a mutable iteration at a time.
-/
namespace Verif.BTree
open Verif Verif.Spec

variable {K V : Type}

theorem MutInv.take {S : Type} {rng : S → Range} {len : S → Nat → Prop} {step : Map K V → End → S → Exec (Option Handle × S)} (hstep : StepOK rng len step)
    {x : Nat} {m : Map K V} {it : S} {refs : List Handle} {c : Cursor K V} (hi : MutInv x rng m it refs c) (hlen : len it (c.hi - c.lo)) (e : End) :
    ∃ hd it', step m e it = .ok (hd, it') ∧ m.readOpt hd = .ok (c.act (.take e)).1 ∧ MutInv x rng m it' (refs ++ hd.toList) (c.act (.take e)).2 ∧
      len it' ((c.act (.take e)).2.hi - (c.act (.take e)).2.lo) := by
  obtain ⟨wf, items, le, ⟨lo, mid, hh, w, hlo, hhi⟩, hrefs⟩ := hi
  obtain ⟨hd, it', s1, s2, s3, s4⟩ := hstep m it lo mid hh e wf.below w (by
    rw [show mid.length = c.hi - c.lo by omega]; exact hlen)
  have hread := s2.read
  refine ⟨hd, it', s1, ?_⟩
  by_cases hm : mid = []
  · subst hm
    have hlohi : ¬ c.lo < c.hi := by simp at hhi; omega
    have hd0 : hd = none := by cases e <;> exact s2
    subst hd0
    have hact : c.act (.take e) = (none, c) := by cases e <;> simp [Cursor.act, hlohi]
    rw [hact]
    refine ⟨by simp [Map.readOpt], ⟨wf, items, le, ⟨_, _, _, s4, by cases e <;> simpa [shift] using hlo, by cases e <;> simpa [shift, pop] using hhi⟩, by simpa using hrefs⟩, ?_⟩
    have : c.hi - c.lo = (pop e ([] : List (K × V))).2.length := by cases e <;> simp [pop] <;> omega
    rw [this]; exact s3
  · have hmid : 0 < mid.length := by cases mid <;> simp_all
    have hlohi : c.lo < c.hi := by omega
    cases e with
    | front =>
      cases mid with
      | nil => exact absurd rfl hm
      | cons kv mid =>
      obtain ⟨k, rfl, hat⟩ := s2.front
      have hkv : c.items[c.lo]? = some kv := by
        rw [← items, w.all, ← hlo]; simp
      have hact : c.act (.take .front) = (some kv, { c with lo := c.lo + 1, refs := c.refs ++ [c.lo] }) := by
        simp [Cursor.act, hlohi, hkv]
      simp only [pop] at hread s3 s4
      simp only [List.length_cons] at hhi
      rw [hact]
      refine ⟨hread, ⟨wf, items, hlohi, ⟨_, _, _, s4, by simp [shift, hlo], by simp [shift]; omega⟩, hrefs.append ⟨hlo ▸ hat, trivial⟩⟩, ?_⟩
      have : c.hi - (c.lo + 1) = mid.length := by omega
      simp only [this]; exact s3
    | back =>
      rcases List.eq_nil_or_concat mid with rfl | ⟨mid, kv, rfl⟩
      · exact absurd rfl hm
      simp only [List.concat_eq_append] at *
      obtain ⟨k, rfl, hat⟩ := s2.back
      simp only [List.length_append, List.length_cons, List.length_nil] at hhi
      have hix : c.hi - 1 = lo.length + mid.length := by omega
      have hkv : c.items[c.hi - 1]? = some kv := by
        rw [← items, w.all, hix]
        simp [List.getElem?_append]
      have hact : c.act (.take .back) = (some kv, { c with hi := c.hi - 1, refs := c.refs ++ [c.hi - 1] }) := by
        simp [Cursor.act, hlohi, hkv]
      simp only [pop, List.getLast?_append, List.getLast?_singleton, Option.some_or, List.dropLast_concat] at hread s3 s4
      rw [hact]
      refine ⟨hread, ⟨wf, items, by simp only; omega, ⟨_, _, _, s4, by simp [shift, hlo], by simp [shift]; omega⟩, hrefs.append ⟨hix ▸ hat, trivial⟩⟩, ?_⟩
      have : c.hi - 1 - c.lo = mid.length := by omega
      simp only [this]; exact s3

theorem All2.at {α β : Type} {R : α → β → Prop} : ∀ {l : List α} {r : List β}, All2 R l r → ∀ {i : Nat} {b : β}, r[i]? = some b → ∃ a, l[i]? = some a ∧ R a b
  | [], [], _, i, b, h => by simp at h
  | [], _ :: _, h, _, _, _ => h.elim
  | _ :: _, [], h, _, _, _ => h.elim
  | a :: l, b' :: r, h, i, b, hb => by
    cases i with
    | zero => simp at hb; subst hb; exact ⟨a, rfl, h.1⟩
    | succ i => simpa using All2.at h.2 (by simpa using hb)

theorem MutInv.write {S : Type} {rng : S → Range} {x : Nat} {m : Map K V} {it : S} {refs : List Handle} {c : Cursor K V} (hi : MutInv x rng m it refs c) (i : Nat) (f : V → V) :
    match refs[i]? with
    | none => (c.act (.write i f)).2 = c
    | some hd => ∃ kv m' old, m.kvAt hd = .ok kv ∧ m.setVal hd (f kv.2) = .ok (m', old) ∧ MutInv x rng m' it refs (c.act (.write i f)).2 ∧
        (c.act (.write i f)).2.lo = c.lo ∧ (c.act (.write i f)).2.hi = c.hi ∧ m'.length = m.length := by
  obtain ⟨wf, items, le, ⟨lo, mid, hh, w, hlo, hhi⟩, hrefs⟩ := hi
  cases hr : c.refs[i]? with
  | none =>
    have hr' : refs[i]? = none := by
      rw [List.getElem?_eq_none_iff] at hr ⊢
      rw [hrefs.length]; exact hr
    rw [hr']
    simp [Cursor.act, hr]
  | some n =>
    obtain ⟨hd, hr', hat⟩ := All2.at hrefs hr
    rw [hr']
    dsimp only
    obtain ⟨m1, e1, e2, e3, e4, e5, e6⟩ := Map.setVal_at wf hat (f (m.toList[n]'hat.lt).2)
    obtain ⟨lo', mid', hi', w', l1, l2⟩ := e6 _ _ _ _ w
    have hit : m1.toList = c.items.modify n (fun kv => (kv.1, f kv.2)) := by
      have hlt := hat.lt
      rw [e4, ← items, List.modify_eq_take_cons_drop hlt, List.modify_eq_take_cons_drop hlt]
    have hact : (c.act (.write i f)).2 = { c with items := c.items.modify n (fun kv => (kv.1, f kv.2)) } := by simp [Cursor.act, hr]
    rw [hact]
    exact ⟨_, m1, _, hat.kvAt, e1, ⟨e2, hit, le, ⟨lo', mid', hi', w', l1.trans hlo, by simp only; omega⟩, hrefs.mono (fun a b hab => e5 a b hab)⟩, rfl, rfl, e3⟩

theorem MutInv.pending {S : Type} {rng : S → Range} {x : Nat} {m : Map K V} {it : S} {refs : List Handle} {c : Cursor K V} (hi : MutInv x rng m it refs c) :
    (∃ lo hi, Window m (rng it) lo c.pending hi) ∧ c.pending.length = c.hi - c.lo := by
  obtain ⟨wf, items, le, ⟨lo, mid, hh, w, hlo, hhi⟩, hrefs⟩ := hi
  have : c.pending = mid := by
    unfold Cursor.pending
    rw [← items, w.all, ← hhi, ← hlo, ← List.append_assoc, List.take_left' (by simp), List.drop_left' rfl]
  rw [this]
  exact ⟨⟨lo, hh, w⟩, by omega⟩

end Verif.BTree
