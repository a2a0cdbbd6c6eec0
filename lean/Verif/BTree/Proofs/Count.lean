import Verif.BTree.Count
import Verif.BTree.Proofs.ReachInv
/-
Proofs about node occupancy, height and the number of comparisons.
-/
namespace Verif.BTree
open Verif Verif.Spec

variable {K V Q : Type}

theorem Reach.any [Ord K] {m : Map K V} (h : Reach m) : ReachAny m := by
  induction h with
  | new => exact .new
  | insert _ e ih => exact .insert ih e
  | remove _ _ e ih => exact .remove ih e
  | getMut _ _ e e' ih => exact .getMut ih e e'
  | entry _ e ih => exact .entry ih e
  | occupied _ e e' ih => exact .occupied ih e e'
  | occupiedRemove _ e e' ih => exact .occupiedRemove ih e e'
  | orInsert _ e e' e'' ih => exact .orInsert ih e e' e''
  | extend _ e ih => exact .extend ih e
  | appendSelf _ _ e ih ih' => exact .appendSelf ih ih' e
  | appendOther _ _ e ih ih' => exact .appendOther ih ih' e
  | splitSelf _ _ e ih => exact .splitSelf ih e
  | splitRight _ _ e ih => exact .splitRight ih e
  | clone _ _ e ih => exact .clone ih e
  | iterMut _ e e' ih => exact .iterMut ih e e'
  | rangeMut _ _ e e' ih => exact .rangeMut ih e e'

theorem nodeAt_shape {h : Nat} {t : Tree K V} (hb : Below h t) (hl : t.len ≤ 11) {p : List Nat} {hn n}
    (e : nodeAt h t p = .ok (hn, n)) :
    n.len ≤ 11 ∧ (p ≠ [] → 4 ≤ n.len) ∧ Below hn n ∧ p.length + hn = h := by
  induction p generalizing h t with
  | nil =>
    cases h <;> simp [nodeAt] at e <;> obtain ⟨rfl, rfl⟩ := e <;> exact ⟨hl, by simp, hb, by simp⟩
  | cons i p ih =>
    cases h with
    | zero => simp [nodeAt] at e
    | succ h =>
      obtain ⟨c, h1, h2⟩ := Exec.bind_eq_ok.1 e
      have hc := List.mem_of_getElem? (getE_eq_ok.1 h1)
      have hi := hb.2 c hc
      obtain ⟨g1, g2, g3, g4⟩ := ih hi.2.2 hi.2.1 h2
      refine ⟨g1, fun _ => ?_, g3, by simp; omega⟩
      cases p with
      | nil => cases h <;> simp [nodeAt] at h2 <;> obtain ⟨rfl, rfl⟩ := h2 <;> exact hi.1
      | cons => exact g2 (by simp)

theorem sum_ge {X : List (Tree K V)} {h k : Nat} (hX : ∀ c ∈ X, k ≤ (toList h c).length) :
    X.length * k ≤ ((X.map (toList h)).map List.length).sum := by
  induction X with
  | nil => simp
  | cons c X ih =>
    have h1 := hX c (by simp)
    have h2 := ih fun c hc => hX c (by simp [hc])
    simp [Nat.add_mul] at h2 ⊢
    omega

theorem Inner.size {h : Nat} {t : Tree K V} (hi : Inner h t) : 5 ^ (h + 1) ≤ (toList h t).length + 1 := by
  induction h generalizing t with
  | zero => have := hi.1; simp [Tree.len] at this ⊢; omega
  | succ h ih =>
    have hb := hi.2.2
    have h1 := sum_ge (X := t.edges) (h := h) (k := 5 ^ (h + 1) - 1)
      fun c hc => by have := ih (hb.2 c hc); omega
    rw [toList_succ, length_inter_ge (by simpa [Tree.len] using hb.1)]
    rw [hb.1] at h1
    have h4 := hi.1
    have hp : 1 ≤ 5 ^ (h + 1) := Nat.pos_of_ne_zero (by simp)
    have h5 : (t.len + 1) * (5 ^ (h + 1) - 1) + (t.len + 1) = (t.len + 1) * 5 ^ (h + 1) := by
      rw [Nat.mul_sub]
      have : (t.len + 1) * 1 ≤ (t.len + 1) * 5 ^ (h + 1) := Nat.mul_le_mul_left _ hp
      omega
    have h6 : 5 * 5 ^ (h + 1) ≤ (t.len + 1) * 5 ^ (h + 1) := Nat.mul_le_mul_right _ (by omega)
    have h7 : 5 ^ (h + 1 + 1) = 5 * 5 ^ (h + 1) := by rw [Nat.pow_succ]; omega
    simp only [Tree.len] at *
    omega

theorem RootOK.size {h : Nat} {t : Tree K V} (hi : RootOK h t) (hh : 0 < h) : 2 * 5 ^ h ≤ (toList h t).length + 1 := by
  cases h with
  | zero => omega
  | succ h =>
    have hb := hi.2.2
    have h1 := sum_ge (X := t.edges) (h := h) (k := 5 ^ (h + 1) - 1)
      fun c hc => by have := Inner.size (hb.2 c hc); omega
    rw [toList_succ, length_inter_ge (by simpa [Tree.len] using hb.1)]
    rw [hb.1] at h1
    have h4 := hi.2.1 hh
    have hp : 1 ≤ 5 ^ (h + 1) := Nat.pos_of_ne_zero (by simp)
    have h5 : (t.len + 1) * (5 ^ (h + 1) - 1) + (t.len + 1) = (t.len + 1) * 5 ^ (h + 1) := by
      rw [Nat.mul_sub]
      have : (t.len + 1) * 1 ≤ (t.len + 1) * 5 ^ (h + 1) := Nat.mul_le_mul_left _ hp
      omega
    have h6 : 2 * 5 ^ (h + 1) ≤ (t.len + 1) * 5 ^ (h + 1) := Nat.mul_le_mul_right _ (by omega)
    simp only [Tree.len] at *
    omega

theorem searchFromC_spec [Ord Q] (bor : K → Q) (q : Q) (kvs : List (K × V)) (i n : Nat) :
    ∃ k, searchFromC bor q i kvs n = (searchFrom bor q i kvs, n + k) ∧ k ≤ kvs.length := by
  induction kvs generalizing i n with
  | nil => exact ⟨0, rfl, by simp⟩
  | cons kv rest ih =>
    simp only [searchFromC, searchFrom]
    cases compare q (bor kv.1) with
    | gt =>
      obtain ⟨k, h1, h2⟩ := ih (i + 1) (n + 1)
      exact ⟨k + 1, by simp only [h1]; rw [Nat.add_assoc, Nat.add_comm 1 k], by simpa using h2⟩
    | eq => exact ⟨1, rfl, by simp⟩
    | lt => exact ⟨1, rfl, by simp⟩

theorem searchTreeC_spec [Ord Q] (bor : K → Q) (q : Q) {h : Nat} {t : Tree K V} (hb : Below h t) (hl : t.len ≤ 11)
    (up : List Nat) (n : Nat) {r} (hr : searchTree bor q h t up = .ok r) :
    ∃ k, searchTreeC bor q h t up n = .ok (r, n + k) ∧ k ≤ 11 * (h + 1) := by
  induction h generalizing t up n with
  | zero =>
    obtain ⟨k, h1, h2⟩ := searchFromC_spec bor q t.kvs 0 n
    simp only [searchTreeC, h1]
    simp only [searchTree, searchLinear] at hr
    simp only [Tree.len] at hl
    split at hr <;> simp_all <;> omega
  | succ h ih =>
    obtain ⟨k, h1, h2⟩ := searchFromC_spec bor q t.kvs 0 n
    simp only [searchTreeC, h1]
    simp only [searchTree, searchLinear] at hr
    simp only [Tree.len] at hl
    split at hr
    · simp_all
      omega
    · rename_i i hs
      obtain ⟨c, g1, g2⟩ := Exec.bind_eq_ok.1 hr
      have hi := hb.2 c (List.mem_of_getElem? (getE_eq_ok.1 g1))
      obtain ⟨k', e1, e2⟩ := ih hi.2.2 hi.2.1 (i :: up) (n + k) g2
      exact ⟨k + k', by simp only [hs, g1, Exec.ok_bind, e1, Nat.add_assoc], by omega⟩

theorem Map.getC_spec [Ord Q] {m : Map K V} (h : m.WF) (bor : K → Q) (q : Q) :
    ∃ r n, m.getC bor q = .ok (r, n) ∧ m.get bor q = .ok r ∧ n ≤ 11 * (m.height + 1) := by
  rcases Map.search_wf h bor q with ⟨hd, A, kv, B, h1, h2, _⟩ | ⟨hd, A, B, h1, h2⟩
  · obtain ⟨k, g1, g2⟩ := searchTreeC_spec bor q h.below h.shape.1 [] 0 h1
    rw [Nat.zero_add] at g1
    exact ⟨some kv.2, k, by simp only [Map.getC, Map.searchC, g1, Exec.ok_bind, h2.kvAt],
      by simp only [Map.get, h1, Exec.ok_bind, h2.kvAt], g2⟩
  · obtain ⟨k, g1, g2⟩ := searchTreeC_spec bor q h.below h.shape.1 [] 0 h1
    rw [Nat.zero_add] at g1
    exact ⟨none, k, by simp [Map.getC, Map.searchC, g1], by simp [Map.get, h1], g2⟩

end Verif.BTree
