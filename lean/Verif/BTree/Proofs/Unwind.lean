import Verif.BTree.Unwind
import Verif.BTree.Proofs.ReachInv
import Verif.BTree.Proofs.Append
/-
Calls that unwind out of a comparison: what is left behind.
-/
namespace Verif.BTree
open Verif Verif.Spec

variable {K V Q : Type}

/-! ### search -/

theorem searchFromP_some [Ord Q] {bor : K → Q} {q : Q} {kvs : List (K × V)} {i fuel x f}
    (h : searchFromP bor q i kvs fuel = some (x, f)) : searchFrom bor q i kvs = x ∧ f ≤ fuel ∧ fuel ≤ f + kvs.length := by
  induction kvs generalizing i fuel with
  | nil => simp [searchFromP] at h; simp [searchFrom, h]
  | cons kv kvs ih =>
    cases fuel with
    | zero => simp [searchFromP] at h
    | succ fuel =>
      simp only [searchFromP] at h
      simp only [searchFrom]
      cases hc : compare q (bor kv.1) <;> simp only [hc] at h ⊢
      · simp at h; exact ⟨h.1, by omega, by simp; omega⟩
      · simp at h; exact ⟨h.1, by omega, by simp; omega⟩
      · obtain ⟨h1, h2, h3⟩ := ih h
        exact ⟨h1, by omega, by simp; omega⟩

theorem searchFromP_total [Ord Q] (bor : K → Q) (q : Q) (kvs : List (K × V)) (i fuel : Nat) (hf : kvs.length ≤ fuel) :
    ∃ x, searchFromP bor q i kvs fuel = some x := by
  induction kvs generalizing i fuel with
  | nil => exact ⟨((i, false), fuel), by simp [searchFromP]⟩
  | cons kv kvs ih =>
    cases fuel with
    | zero => simp at hf
    | succ fuel =>
      simp only [searchFromP]
      split
      · exact ih (i + 1) fuel (by simpa using hf)
      · exact ⟨_, rfl⟩
      · exact ⟨_, rfl⟩

theorem searchTreeP_some [Ord Q] {bor : K → Q} {q : Q} {h : Nat} {t : Tree K V} {up fuel r f}
    (e : searchTreeP bor q h t up fuel = .ok (some (r, f))) : searchTree bor q h t up = .ok r ∧ f ≤ fuel := by
  induction h generalizing t up fuel with
  | zero =>
    unfold searchTreeP at e
    split at e
    · simp at e
    · rename_i i f' hs
      obtain ⟨h1, h2, h3⟩ := searchFromP_some hs
      simp at e
      simp [searchTree, searchLinear, h1, e]; omega
    · rename_i i f' hs
      obtain ⟨h1, h2, h3⟩ := searchFromP_some hs
      simp at e
      simp [searchTree, searchLinear, h1, e]; omega
  | succ h ih =>
    unfold searchTreeP at e
    split at e
    · simp at e
    · rename_i i f' hs
      obtain ⟨h1, h2, h3⟩ := searchFromP_some hs
      simp at e
      simp [searchTree, searchLinear, h1, e]; omega
    · rename_i i f' hs
      obtain ⟨h1, h2, h3⟩ := searchFromP_some hs
      obtain ⟨c, hc, e⟩ := Exec.bind_eq_ok.1 e
      obtain ⟨h4, h5⟩ := ih e
      simp [searchTree, searchLinear, h1, hc, h4]; omega

/-- A search with a panicking comparison stops or answers; it does nothing else. -/
theorem searchTreeP_safe [Ord Q] {bor : K → Q} {q : Q} {h : Nat} {t : Tree K V} {up r} (fuel : Nat)
    (e : searchTree bor q h t up = .ok r) : ∃ o, searchTreeP bor q h t up fuel = .ok o := by
  induction h generalizing t up fuel with
  | zero =>
    unfold searchTreeP
    split <;> exact ⟨_, rfl⟩
  | succ h ih =>
    unfold searchTreeP
    split
    · exact ⟨_, rfl⟩
    · exact ⟨_, rfl⟩
    · rename_i i f' hs
      obtain ⟨h1, h2, h3⟩ := searchFromP_some hs
      simp only [searchTree, searchLinear, h1] at e
      obtain ⟨c, hc, e⟩ := Exec.bind_eq_ok.1 e
      obtain ⟨o, g⟩ := ih f' e
      exact ⟨o, by simp [hc, g]⟩

/-- With one comparison for every pair of each node on the way a search always answers. -/
theorem searchTreeP_total [Ord Q] {bor : K → Q} {q : Q} {lo h : Nat} {t : Tree K V} {up r} (fuel : Nat)
    (hb : BelowN lo h t) (hl : t.len ≤ 11) (hf : 11 * (h + 1) ≤ fuel)
    (e : searchTree bor q h t up = .ok r) : ∃ f, searchTreeP bor q h t up fuel = .ok (some (r, f)) := by
  induction h generalizing t up fuel with
  | zero =>
    obtain ⟨x, hx⟩ := searchFromP_total bor q t.kvs 0 fuel (by simp [Tree.len] at hl; omega)
    obtain ⟨⟨i, b⟩, f⟩ := x
    obtain ⟨h1, _⟩ := searchFromP_some hx
    refine ⟨f, ?_⟩
    unfold searchTreeP
    cases b <;> simp_all [searchTree, searchLinear]
  | succ h ih =>
    obtain ⟨x, hx⟩ := searchFromP_total bor q t.kvs 0 fuel (by simp [Tree.len] at hl; omega)
    obtain ⟨⟨i, b⟩, f⟩ := x
    obtain ⟨h1, h2, h3⟩ := searchFromP_some hx
    cases b with
    | true =>
      refine ⟨f, ?_⟩
      unfold searchTreeP
      simp_all [searchTree, searchLinear]
    | false =>
      simp only [searchTree, searchLinear, h1] at e
      obtain ⟨c, hc, e⟩ := Exec.bind_eq_ok.1 e
      have hmem : c ∈ t.edges := by
        unfold getE at hc
        split at hc
        · rename_i x hx; simp at hc; subst hc; exact List.mem_of_getElem? hx
        · simp at hc
      obtain ⟨f', g⟩ := ih f (hb.2 c hmem).2.2 (hb.2 c hmem).2.1 (by simp [Tree.len] at hl; omega) e
      refine ⟨f', ?_⟩
      unfold searchTreeP
      simp [hx, hc, g]

/-! ### try_entry, try_insert, remove, extend -/

theorem Map.tryEntryP_done [Ord K] {m : Map K V} {k a fuel r f} (h : m.tryEntryP k a fuel = .ok (.done (r, f))) :
    m.tryEntry k a = .ok r := by
  unfold Map.tryEntryP at h
  unfold Map.tryEntry
  generalize m.ensureRootIsOwned a = own at h ⊢
  obtain ⟨r0, m0, a0⟩ := own
  cases r0 with
  | error e => simp at h; simp [h.1]
  | ok u =>
    obtain ⟨o, h1, h2⟩ := Exec.bind_eq_ok.1 h
    cases o with
    | none => simp at h2
    | some x =>
      obtain ⟨sr, f'⟩ := x
      obtain ⟨h3, _⟩ := searchTreeP_some h1
      have h3 : m0.search id k = .ok sr := h3
      simp only [h3, Exec.ok_bind]
      cases sr <;> (simp at h2; simp [h2.1])

/-- If `try_entry` unwinds, the map is what `try_entry` without the panic leaves behind (with its entry dropped). -/
theorem Map.tryEntryP_unwound [Ord K] {lo rt x : Nat} {m m' : Map K V} {k a fuel w} (hm : m.ShapedN lo rt x)
    (h : m.tryEntryP k a fuel = .ok (.unwound m' w)) :
    w = .cmp ∧ m'.ShapedN lo rt x ∧ m'.toList = m.toList ∧ ∃ e a', m.tryEntry k a = .ok (.ok e, m', a') := by
  obtain ⟨r, m0, a0, h1, h2, h3, h4, h5, h6, h7⟩ := Map.ensureRoot_spec hm a
  unfold Map.tryEntryP at h
  simp only [h1] at h
  unfold Map.tryEntry
  simp only [h1]
  cases r with
  | error e => simp at h
  | ok u =>
    obtain ⟨o, g1, g2⟩ := Exec.bind_eq_ok.1 h
    cases o with
    | some x => obtain ⟨sr, f'⟩ := x; cases sr <;> simp at g2
    | none =>
      simp at g2
      obtain ⟨rfl, rfl⟩ := g2
      refine ⟨rfl, h2, h3, ?_⟩
      rcases Map.search_wf h2 id k with ⟨hd, A, kv, B, k1, _⟩ | ⟨hd, A, B, k1, _⟩
      · exact ⟨.occupied hd, a0, by simp only [k1, Exec.ok_bind]⟩
      · exact ⟨.vacant k hd, a0, by simp only [k1, Exec.ok_bind]⟩

/-- `try_entry` never runs into undefined behaviour, wherever its comparison panics. -/
theorem Map.tryEntryP_safe [Ord K] {lo rt x : Nat} {m : Map K V} (hm : m.ShapedN lo rt x) (k : K) (a : Alloc) (fuel : Nat) :
    ∃ o, m.tryEntryP k a fuel = .ok o := by
  obtain ⟨r, m0, a0, h1, h2, h3, h4, h5, h6, h7⟩ := Map.ensureRoot_spec hm a
  unfold Map.tryEntryP
  simp only [h1]
  cases r with
  | error e => exact ⟨_, rfl⟩
  | ok u =>
    have : ∃ sr, m0.search id k = .ok sr := by
      rcases Map.search_wf h2 id k with ⟨hd, A, kv, B, k1, _⟩ | ⟨hd, A, B, k1, _⟩ <;> exact ⟨_, k1⟩
    obtain ⟨sr, hs⟩ := this
    obtain ⟨o, g⟩ := searchTreeP_safe (bor := id) (q := k) fuel hs
    have g : m0.searchP id k fuel = .ok o := g
    simp only [g, Exec.ok_bind]
    rcases o with _ | ⟨sr, f⟩
    · exact ⟨_, rfl⟩
    · cases sr <;> exact ⟨_, rfl⟩

/-- With enough comparisons `try_entry` returns. -/
theorem Map.tryEntryP_total [Ord K] {lo rt x : Nat} {m : Map K V} (hm : m.ShapedN lo rt x) (k : K) (a : Alloc) (fuel : Nat)
    (hf : 11 * (m.height + 1) ≤ fuel) : ∃ r f, m.tryEntryP k a fuel = .ok (.done (r, f)) := by
  obtain ⟨r, m0, a0, h1, h2, h3, h4, h5, h6, h7⟩ := Map.ensureRoot_spec hm a
  have hh : m0.height ≤ m.height := by
    unfold Map.ensureRootIsOwned at h1
    cases hs : m.shared <;> cases hr : a.request with | mk g a1 => cases g <;> (simp [hs, hr] at h1; rw [← h1.2.1]; simp)
  unfold Map.tryEntryP
  simp only [h1]
  cases r with
  | error e => exact ⟨_, _, rfl⟩
  | ok u =>
    have : ∃ sr, m0.search id k = .ok sr := by
      rcases Map.search_wf h2 id k with ⟨hd, A, kv, B, k1, _⟩ | ⟨hd, A, B, k1, _⟩ <;> exact ⟨_, k1⟩
    obtain ⟨sr, hs⟩ := this
    obtain ⟨f, g⟩ := searchTreeP_total (bor := id) (q := k) fuel h2.below h2.shape.1
      (Nat.le_trans (Nat.mul_le_mul_left 11 (Nat.succ_le_succ hh)) hf) hs
    have g : m0.searchP id k fuel = .ok (some (sr, f)) := g
    simp only [g, Exec.ok_bind]
    cases sr <;> exact ⟨_, _, rfl⟩

theorem Map.tryInsertP_done [Ord K] {m : Map K V} {k v a fuel r f} (h : m.tryInsertP k v a fuel = .ok (.done (r, f))) :
    m.tryInsert k v a = .ok r := by
  unfold Map.tryInsertP at h
  obtain ⟨o, h1, h2⟩ := Exec.bind_eq_ok.1 h
  rcases o with ⟨⟨r0, m0, a0⟩, f0⟩ | ⟨m0, w⟩
  · have he := Map.tryEntryP_done h1
    unfold Map.tryInsert
    simp only [he, Exec.ok_bind]
    rcases r0 with e | e
    · simp at h2; simp [h2.1]
    · cases e with
      | occupied hd =>
        obtain ⟨⟨m1, old⟩, g1, g2⟩ := Exec.bind_eq_ok.1 h2
        simp at g2
        simp [g1, g2.1]
      | vacant k' hd =>
        obtain ⟨⟨r1, m1, a1⟩, g1, g2⟩ := Exec.bind_eq_ok.1 h2
        simp only [g1, Exec.ok_bind]
        cases r1 <;> (simp at g2; simp [g2.1])
  · simp at h2

theorem Map.tryInsertP_unwound [Ord K] {m m' : Map K V} {k v a fuel w} (h : m.tryInsertP k v a fuel = .ok (.unwound m' w)) :
    m.tryEntryP k a fuel = .ok (.unwound m' w) := by
  unfold Map.tryInsertP at h
  obtain ⟨o, h1, h2⟩ := Exec.bind_eq_ok.1 h
  rcases o with ⟨⟨r0, m0, a0⟩, f0⟩ | ⟨m0, w⟩
  · rcases r0 with e | e
    · simp at h2
    · cases e with
      | occupied hd =>
        obtain ⟨⟨m1, old⟩, g1, g2⟩ := Exec.bind_eq_ok.1 h2
        simp at g2
      | vacant k' hd =>
        obtain ⟨⟨r1, m1, a1⟩, g1, g2⟩ := Exec.bind_eq_ok.1 h2
        cases r1 <;> simp at g2
  · simp at h2
    rw [h1, h2.1, h2.2]

/-- `try_insert` either unwinds out of its search or does what it always does. -/
theorem Map.tryInsertP_cases [Ord K] {lo rt x : Nat} {m : Map K V} (hm : m.ShapedN lo rt x) (k : K) (v : V) (a : Alloc) (fuel : Nat)
    (hf : lo ≤ 4 ∧ rt ≤ 1 := by decide) :
    (∃ m', m.tryInsertP k v a fuel = .ok (.unwound m' .cmp)) ∨ (∃ r f, m.tryInsertP k v a fuel = .ok (.done (r, f))) := by
  obtain ⟨o, h1⟩ := Map.tryEntryP_safe hm k a fuel
  rcases o with ⟨⟨r0, m0, a0⟩, f0⟩ | ⟨m0, w⟩
  · right
    have he := Map.tryEntryP_done h1
    obtain ⟨r, m', a', g1, g2, g3⟩ := Map.tryInsert_wf hm k v a hf
    unfold Map.tryInsert at g1
    simp only [he, Exec.ok_bind] at g1
    unfold Map.tryInsertP
    simp only [h1, Exec.ok_bind]
    rcases r0 with e | e
    · exact ⟨_, _, rfl⟩
    · cases e with
      | occupied hd =>
        obtain ⟨⟨m1, old⟩, k1, k2⟩ := Exec.bind_eq_ok.1 g1
        exact ⟨_, _, by simp only [k1, Exec.ok_bind]; rfl⟩
      | vacant k' hd =>
        obtain ⟨⟨r1, m1, a1⟩, k1, k2⟩ := Exec.bind_eq_ok.1 g1
        simp only [k1, Exec.ok_bind]
        cases r1 <;> exact ⟨_, _, rfl⟩
  · left
    obtain ⟨rfl, _⟩ := Map.tryEntryP_unwound hm h1
    exact ⟨m0, by simp [Map.tryInsertP, h1]⟩

theorem Map.removeEntryP_done [Ord Q] {m : Map K V} {bor : K → Q} {q fuel r f}
    (h : m.removeEntryP bor q fuel = .ok (.done (r, f))) : m.removeEntry bor q = .ok r := by
  unfold Map.removeEntryP at h
  unfold Map.removeEntry
  obtain ⟨o, h1, h2⟩ := Exec.bind_eq_ok.1 h
  rcases o with _ | ⟨sr, f'⟩
  · simp at h2
  · obtain ⟨h3, _⟩ := searchTreeP_some h1
    have h3 : m.search bor q = .ok sr := h3
    simp only [h3, Exec.ok_bind]
    cases sr with
    | found hd =>
      obtain ⟨⟨kv, m1⟩, g1, g2⟩ := Exec.bind_eq_ok.1 h2
      simp at g2
      simp [g1, g2.1]
    | goDown hd => simp at h2; simp [h2.1]

theorem Map.removeEntryP_unwound [Ord Q] {m m' : Map K V} {bor : K → Q} {q fuel w}
    (h : m.removeEntryP bor q fuel = .ok (.unwound m' w)) : w = .cmp ∧ m' = m := by
  unfold Map.removeEntryP at h
  obtain ⟨o, h1, h2⟩ := Exec.bind_eq_ok.1 h
  rcases o with _ | ⟨sr, f'⟩
  · simp at h2; exact ⟨h2.2.symm, h2.1.symm⟩
  · cases sr with
    | found hd =>
      obtain ⟨⟨kv, m1⟩, g1, g2⟩ := Exec.bind_eq_ok.1 h2
      simp at g2
    | goDown hd => simp at h2

theorem Map.removeEntryP_cases [Ord Q] {x : Nat} {m : Map K V} (hm : m.Shaped x) (bor : K → Q) (q : Q) (fuel : Nat) :
    m.removeEntryP bor q fuel = .ok (.unwound m .cmp) ∨ (∃ r f, m.removeEntryP bor q fuel = .ok (.done (r, f))) := by
  obtain ⟨r, m', h1, _⟩ := Map.removeEntry_wf hm bor q
  have : ∃ sr, m.search bor q = .ok sr := by
    rcases Map.search_wf hm bor q with ⟨hd, A, kv, B, k1, _⟩ | ⟨hd, A, B, k1, _⟩ <;> exact ⟨_, k1⟩
  obtain ⟨sr, hs⟩ := this
  obtain ⟨o, g⟩ := searchTreeP_safe (bor := bor) (q := q) fuel hs
  have g : m.searchP bor q fuel = .ok o := g
  unfold Map.removeEntryP
  simp only [g, Exec.ok_bind]
  rcases o with _ | ⟨sr', f⟩
  · exact .inl rfl
  · right
    obtain ⟨h3, _⟩ := searchTreeP_some g
    have h3 : m.search bor q = .ok sr' := h3
    unfold Map.removeEntry at h1
    simp only [h3, Exec.ok_bind] at h1
    cases sr' with
    | found hd =>
      obtain ⟨⟨kv, m1⟩, g1, g2⟩ := Exec.bind_eq_ok.1 h1
      exact ⟨_, _, by simp only [g1, Exec.ok_bind]; rfl⟩
    | goDown hd => exact ⟨_, _, rfl⟩

theorem Map.extendP_done [Ord K] {l : List (K × V)} {m : Map K V} {a fuel r f} (h : m.extendP l a fuel = .ok (.done (r, f))) :
    m.extend l a = .ok r := by
  induction l generalizing m a fuel with
  | nil => simp [Map.extendP] at h; simp [Map.extend, h.1]
  | cons kv l ih =>
    obtain ⟨k, v⟩ := kv
    simp only [Map.extendP] at h
    obtain ⟨o, h1, h2⟩ := Exec.bind_eq_ok.1 h
    rcases o with ⟨⟨r0, m0, a0⟩, f0⟩ | ⟨m0, w⟩
    · have h1' := Map.tryInsertP_done h1
      rcases r0 with e | e
      · simp at h2
      · simp only at h2
        simp [Map.extend, h1', ih h2]
    · simp at h2

/-- If `extend` unwinds, some first part of the pairs has been inserted; the comparison that panicked belongs to the insertion of the next pair, or
the next insertion was refused memory. -/
theorem Map.extendP_unwound [Ord K] {l : List (K × V)} {m m' : Map K V} {a fuel w} (h : m.extendP l a fuel = .ok (.unwound m' w)) :
    ∃ l1 k v l2 m1 a1 fuel1, l = l1 ++ (k, v) :: l2 ∧ m.extend l1 a = .ok (m1, a1) ∧
      (m1.tryInsertP k v a1 fuel1 = .ok (.unwound m' w) ∨
        w = .mem ∧ ∃ e a', m1.tryInsert k v a1 = .ok (.error e, m', a')) := by
  induction l generalizing m a fuel with
  | nil => simp [Map.extendP] at h
  | cons kv l ih =>
    obtain ⟨k, v⟩ := kv
    simp only [Map.extendP] at h
    obtain ⟨o, h1, h2⟩ := Exec.bind_eq_ok.1 h
    rcases o with ⟨⟨r0, m0, a0⟩, f0⟩ | ⟨m0, w⟩
    · have h1' := Map.tryInsertP_done h1
      rcases r0 with e | e
      · simp at h2
        obtain ⟨rfl, rfl⟩ := h2
        exact ⟨[], k, v, l, m, a, fuel, rfl, rfl, .inr ⟨rfl, e, a0, h1'⟩⟩
      · simp only at h2
        obtain ⟨l1, k1, v1, l2, m1, a1, f1, rfl, g2, g3⟩ := ih h2
        exact ⟨(k, v) :: l1, k1, v1, l2, m1, a1, f1, rfl, by simp [Map.extend, h1', g2], g3⟩
    · simp at h2
      obtain ⟨rfl, rfl⟩ := h2
      exact ⟨[], k, v, l, m, a, fuel, rfl, rfl, .inl h1⟩

theorem Map.extendP_safe [Ord K] {lo rt x : Nat} (l : List (K × V)) {m : Map K V} (hm : m.ShapedN lo rt x) (a : Alloc) (fuel : Nat)
    (hf : lo ≤ 4 ∧ rt ≤ 1 := by decide) : ∃ o, m.extendP l a fuel = .ok o := by
  induction l generalizing m a fuel with
  | nil => exact ⟨_, rfl⟩
  | cons kv l ih =>
    obtain ⟨k, v⟩ := kv
    simp only [Map.extendP]
    rcases Map.tryInsertP_cases hm k v a fuel hf with ⟨m', h1⟩ | ⟨⟨r, m', a'⟩, f, h1⟩
    · exact ⟨_, by simp only [h1, Exec.ok_bind]; rfl⟩
    · simp only [h1, Exec.ok_bind]
      have h1' := Map.tryInsertP_done h1
      obtain ⟨r0, m0, a0, g1, g2, g3⟩ := Map.tryInsert_wf hm k v a hf
      obtain ⟨rfl, rfl, rfl⟩ := by simpa using Exec.ok_unique h1' g1
      cases r with
      | error e => exact ⟨_, rfl⟩
      | ok old => exact ih g2.1 a' f

/-! ### append -/

theorem mergeIterP_prefix [Ord K] (fuel : Nat) (l r : List (K × V)) : (mergeIterP fuel l r).1 <+: mergeIter l r := by
  fun_induction mergeIterP fuel l r with
  | case1 fuel r => rw [mergeIter_nil_left]; exact List.prefix_refl _
  | case2 fuel a l => rw [mergeIter_nil_right]; exact List.prefix_refl _
  | case3 => exact List.nil_prefix
  | case4 fuel a l b r hc x ih => rw [mergeIter]; simp only [hc]; exact (List.prefix_cons_inj a).2 ih
  | case5 fuel a l b r hc x ih => rw [mergeIter]; simp only [hc]; exact (List.prefix_cons_inj b).2 ih
  | case6 fuel a l b r hc x ih => rw [mergeIter]; simp only [hc]; exact (List.prefix_cons_inj b).2 ih

theorem mergeIterP_done [Ord K] (fuel : Nat) (l r : List (K × V)) {f} (h : (mergeIterP fuel l r).2 = some f) :
    (mergeIterP fuel l r).1 = mergeIter l r := by
  fun_induction mergeIterP fuel l r with
  | case1 fuel r => rw [mergeIter_nil_left]
  | case2 fuel a l => rw [mergeIter_nil_right]
  | case3 => simp at h
  | case4 fuel a l b r hc x ih => rw [mergeIter]; simp only [hc]; rw [ih h]
  | case5 fuel a l b r hc x ih => rw [mergeIter]; simp only [hc]; rw [ih h]
  | case6 fuel a l b r hc x ih => rw [mergeIter]; simp only [hc]; rw [ih h]

theorem mergeIterP_total [Ord K] (fuel : Nat) (l r : List (K × V)) (hf : l.length + r.length ≤ fuel) :
    ∃ f, (mergeIterP fuel l r).2 = some f := by
  fun_induction mergeIterP fuel l r with
  | case1 fuel r => exact ⟨_, rfl⟩
  | case2 fuel a l => exact ⟨_, rfl⟩
  | case3 => simp at hf
  | case4 fuel a l b r hc x ih => exact ih (by simp at hf ⊢; omega)
  | case5 fuel a l b r hc x ih => exact ih (by simp at hf ⊢; omega)
  | case6 fuel a l b r hc x ih => exact ih (by simp at hf ⊢; omega)

/-- When the comparison panics, every comparison before it handed out exactly one pair. -/
theorem mergeIterP_len [Ord K] (fuel : Nat) (l r : List (K × V)) (h : (mergeIterP fuel l r).2 = none) :
    (mergeIterP fuel l r).1.length = fuel := by
  fun_induction mergeIterP fuel l r with
  | case1 fuel r => simp at h
  | case2 fuel a l => simp at h
  | case3 => rfl
  | case4 fuel a l b r hc x ih => exact congrArg (· + 1) (ih h)
  | case5 fuel a l b r hc x ih => exact congrArg (· + 1) (ih h)
  | case6 fuel a l b r hc x ih => exact congrArg (· + 1) (ih h)

theorem Build.loose {h : Nat} {t : Tree K V} (hb : Build h t) : BelowN 0 h t := by
  have full : ∀ {h : Nat} {t : Tree K V}, Full h t → BelowN 0 h t := by
    intro h
    induction h with
    | zero => intro t hf; cases hf; rfl
    | succ h ih =>
      intro t hf
      cases hf with
      | node ks es hl he hes => exact ⟨by simp [hl, he], fun d hd => ⟨by omega, by rw [(hes d hd).len]; omega, ih (hes d hd)⟩⟩
  induction h generalizing t with
  | zero => cases hb; rfl
  | succ h ih =>
    cases hb with
    | node ks X c hX hXi hlen hc =>
      refine ⟨by simp [hX], fun d hd => ?_⟩
      rcases List.mem_append.1 hd with hd | hd
      · exact ⟨by omega, by rw [(hXi d hd).len]; omega, full (hXi d hd)⟩
      · rw [List.mem_singleton.1 hd]; exact ⟨by omega, hlen, ih hc⟩

/-- The building loop, unwinding or not: a tree with the pairs pushed so far, and an exact length. -/
theorem fromSortedP_spec (l : List (K × V)) {h : Nat} {t : Tree K V} (hb : Build h t) (hl : t.len ≤ 11)
    (h1 : 0 < h → 1 ≤ t.len) (len : Nat) (hlen : len = (toList h t).length) (a : Alloc) :
    (∃ m', fromSortedP (h, t) len l a = .ok (.unwound m' .mem) ∧ ¬ a.Good ∧ m'.ShapedN 0 0 0 ∧ m'.shared = false ∧
      (∃ l1, l1 <+: l ∧ m'.toList = toList h t ++ l1)) ∨
    ∃ h' t' a', fromSortedP (h, t) len l a = .ok (.done ((h', t'), a')) ∧
      fromSortedLoop (h, t) l a = .ok ((h', t'), a') ∧ Build h' t' ∧ t'.len ≤ 11 ∧ (0 < h' → 1 ≤ t'.len) ∧
      toList h' t' = toList h t ++ l := by
  induction l generalizing h t a len with
  | nil => exact .inr ⟨h, t, a, rfl, rfl, hb, hl, h1, by simp⟩
  | cons kv rest ih =>
    have here : (⟨h, t, false, len⟩ : Map K V).ShapedN 0 0 0 ∧ (⟨h, t, false, len⟩ : Map K V).toList = toList h t :=
      ⟨⟨⟨hl, fun _ => Nat.zero_le _, hb.loose⟩, hlen, by simp, by simp⟩, rfl⟩
    rcases pushSorted_spec hb hl kv a with ⟨g1, g2⟩ | ⟨r, a', g1, g2, g3⟩
    · left
      refine ⟨⟨h, t, false, len⟩, by simp [fromSortedP, g1], g2, here.1, rfl, [], List.nil_prefix, by simp [here.2]⟩
    · cases r with
      | some t' =>
        obtain ⟨k1, k2, k3, k4⟩ := g3
        rcases ih k1 k2 (fun h0 => by have := h1 h0; omega) (len + 1) (by simp [k4, hlen]) a' with
          ⟨m', m1, m2, m3, m4, l1, m5, m6⟩ | ⟨h', t2, a2, m1, m2, m3⟩
        · refine .inl ⟨m', by simp [fromSortedP, g1, m1], fun hg => m2 (g2 hg), m3, m4, kv :: l1, ?_, ?_⟩
          · exact (List.prefix_cons_inj kv).2 m5
          · rw [m6, k4]; simp
        · refine .inr ⟨h', t2, a2, by simp [fromSortedP, g1, m1], by simp [fromSortedLoop, g1, m2], m3.1, m3.2.1, m3.2.2.1, ?_⟩
          rw [m3.2.2.2, k4]; simp
      | none =>
        cases hr1 : a'.request with
        | mk gr1 a2 =>
        have hgr1 : a.Good → gr1 = true ∧ a2.Good := fun hg => by
          have e1 := (g2 hg).head; have e2 := (g2 hg).tail
          rw [hr1] at e1 e2; exact ⟨e1, e2⟩
        cases gr1 with
        | false =>
          left
          refine ⟨⟨h, t, false, len⟩, by simp [fromSortedP, g1, hr1], fun hg => absurd (hgr1 hg).1 (by simp), here.1, rfl, [],
            List.nil_prefix, by simp [here.2]⟩
        | true =>
        cases hr2 : Alloc.requests (h + 1) a2 with
        | mk gr2 a3 =>
        have hgr2 : a.Good → gr2 = true ∧ a3.Good := fun hg => by
          have := requests_good (hgr1 hg).2 (h + 1)
          rwa [hr2] at this
        cases gr2 with
        | false =>
          left
          have e : toList (h + 1) (⟨[], [t]⟩ : Tree K V) = toList h t := by simp [toList_succ, inter]
          refine ⟨⟨h + 1, ⟨[], [t]⟩, false, len⟩, by simp [fromSortedP, g1, hr1, hr2], fun hg => absurd (hgr2 hg).1 (by simp),
            ⟨⟨by simp, fun _ => Nat.zero_le _, by simp, ?_⟩, ?_, by simp, by simp⟩, rfl, [], List.nil_prefix, ?_⟩
          · intro d hd
            simp at hd
            subst hd
            exact ⟨Nat.zero_le _, hl, hb.loose⟩
          · simp only [Map.toList, e]; simpa using hlen
          · simp only [Map.toList, e]; simp
        | true =>
          have hb2 : Build (h + 1) (⟨[kv], [t] ++ [emptySpine h]⟩ : Tree K V) :=
            .node [kv] [t] _ rfl (by simpa using g3) (by simp [emptySpine_len]) (Build.emptySpine h)
          have hstep : fromSortedP (h, t) len (kv :: rest) a =
              fromSortedP (h + 1, ⟨[kv], [t] ++ [emptySpine h]⟩) (len + 1) rest a3 := by
            simp [fromSortedP, g1, hr1, hr2, Tree.pushInternal, Tree.len]
          have hstep' : fromSortedLoop (h, t) (kv :: rest) a =
              fromSortedLoop (h + 1, ⟨[kv], [t] ++ [emptySpine h]⟩) rest a3 := by
            simp [fromSortedLoop, g1, hr1, hr2, Tree.pushInternal, Tree.len]
          have htl : toList (h + 1) (⟨[kv], [t] ++ [emptySpine h]⟩ : Tree K V) = toList h t ++ [kv] := by
            rw [toList_last rfl]; simp
          rw [hstep, hstep']
          rcases ih hb2 (by simp) (by simp) (len + 1) (by rw [htl]; simp [hlen]) a3 with
            ⟨m', m1, m2, m3, m4, l1, m5, m6⟩ | ⟨h', t2, a4, m1, m2, m3⟩
          · exact .inl ⟨m', m1, fun hg => m2 (hgr2 hg).2, m3, m4, kv :: l1, (List.prefix_cons_inj kv).2 m5, by rw [m6, htl]; simp⟩
          · exact .inr ⟨h', t2, a4, m1, m2, m3.1, m3.2.1, m3.2.2.1, by rw [m3.2.2.2, htl]; simp⟩

/-- `append`, unwinding or not, for maps that are themselves only loosely filled. -/
theorem Map.appendP_spec [Ord K] {lo rt : Nat} {m o : Map K V} (hm : m.ShapedN lo rt 0) (ho : o.ShapedN lo rt 0) (a : Alloc) (fuel : Nat) :
    (∃ m' w, m.appendP o a fuel = .ok (.unwound (m', Map.new) w) ∧ m'.ShapedN 0 0 0 ∧ m'.toList <+: mergeIter m.toList o.toList ∧
      m.toList ≠ [] ∧ o.toList ≠ [] ∧ (w = .mem → ¬ a.Good) ∧ (w = .cmp → fuel < m.toList.length + o.toList.length ∧ m'.toList.length = fuel)) ∨
    (∃ m' o' a' f, m.appendP o a fuel = .ok (.done ((m', o', a'), f)) ∧ m.append o a = .ok (m', o', a')) := by
  have h0 : ∀ {m : Map K V}, m.ShapedN lo rt 0 → (m.len = 0 ↔ m.toList = []) := by
    intro m hm
    have := hm.len
    simp only [Map.len, this, Nat.add_zero, List.length_eq_zero_iff]
  unfold Map.append Map.appendP
  by_cases ho0 : o.len = 0
  · exact .inr ⟨m, o, a, fuel, by simp [ho0], by simp [ho0]⟩
  by_cases hm0 : m.len = 0
  · exact .inr ⟨o, m, a, fuel, by simp [ho0, hm0], by simp [ho0, hm0]⟩
  have hne : m.toList ≠ [] ∧ o.toList ≠ [] := ⟨fun h => hm0 ((h0 hm).2 h), fun h => ho0 ((h0 ho).2 h)⟩
  simp only [ho0, hm0, if_false, Map.toListE_spec hm, Map.toListE_spec ho, Exec.ok_bind]
  obtain ⟨r, m0, a0, h1, h2, h3, h4, h5, h6, h7⟩ := Map.ensureRoot_spec (Map.WF_new (K := K) (V := V)) a
  unfold Map.ofSorted
  simp only [h1]
  cases r with
  | error e =>
    have := h6 e rfl
    subst this
    refine .inl ⟨Map.new, .mem, rfl, ?_, by simp, hne.1, hne.2, fun _ hg => by simp at h7; exact h7 hg, by simp⟩
    exact ⟨⟨by simp [Map.new, emptyLeaf], by simp, rfl⟩, rfl, fun _ => ⟨rfl, rfl⟩, fun _ => rfl⟩
  | ok u =>
    have hm0' : m0 = ⟨0, emptyLeaf, false, 0⟩ := by
      unfold Map.ensureRootIsOwned at h1
      cases hr : a.request with
      | mk g a1 =>
        simp [Map.new, hr] at h1
        cases g <;> simp at h1
        obtain ⟨rfl, _⟩ := h1
        rfl
    subst hm0'
    simp only
    have hpre := mergeIterP_prefix fuel m.toList o.toList
    rcases fromSortedP_spec (mergeIterP fuel m.toList o.toList).1 (Build.leaf (K := K) (V := V) []) (by simp) (by simp) 0 (by simp) a0 with
      ⟨m', g1, g2, g3, g4, l1, g5, g6⟩ | ⟨h', t', a', g1, g2, g3, g4, g5, g6⟩
    · left
      refine ⟨m', .mem, ?_, g3, ?_, hne.1, hne.2, fun _ hg => g2 (h7 hg).2, by simp⟩
      · simp only [emptyLeaf, g1, Exec.ok_bind]
      · rw [g6]; simpa using g5.trans hpre
    · simp only [emptyLeaf, g1, Exec.ok_bind]
      cases hf : (mergeIterP fuel m.toList o.toList).2 with
      | none =>
        left
        refine ⟨_, .cmp, rfl, ⟨⟨g4, fun _ => Nat.zero_le _, g3.loose⟩, ?_, by simp, by simp⟩, ?_, hne.1, hne.2, by simp, fun _ => ?_⟩
        · simp [Map.toList, g6]
        · simpa [Map.toList, g6] using hpre
        · refine ⟨Nat.lt_of_not_le fun hle => ?_, by simpa [Map.toList, g6] using mergeIterP_len _ _ _ hf⟩
          obtain ⟨f, hf'⟩ := mergeIterP_total fuel m.toList o.toList hle
          simp [hf] at hf'
      | some f =>
        right
        obtain ⟨t2, k1, k2, k3, k4⟩ := fixRightEdge_spec g3 g5
        have he := mergeIterP_done fuel m.toList o.toList hf
        rw [he] at g2
        refine ⟨_, _, _, f, by simp only [k1, Exec.ok_bind]; rfl, ?_⟩
        simp only [g2, Exec.ok_bind, k1, he]

/-! ### split_off -/

theorem BelowN.mono {lo lo' h : Nat} {t : Tree K V} (hle : lo' ≤ lo) (hb : BelowN lo h t) : BelowN lo' h t := by
  induction h generalizing t with
  | zero => exact hb
  | succ h ih => exact ⟨hb.1, fun c hc => ⟨Nat.le_trans hle (hb.2 c hc).1, (hb.2 c hc).2.1, ih (hb.2 c hc).2.2⟩⟩

/-- The cutting loop, unwinding or not: when it unwinds the left tree is a first part of what was there, still well formed. -/
theorem splitLoopP_spec [Ord Q] (bor : K → Q) (q : Q) {lo h : Nat} {t : Tree K V} (hb : BelowN lo h t) (hl : t.len ≤ 11) (fuel : Nat) :
    (∃ l r, splitLoopP bor q h t (emptySpine h) fuel = .ok (.unwound (l, r) .cmp) ∧ BelowN 0 h l ∧ l.len ≤ 11 ∧
      toList h t = toList h l ++ toList h r ∧ (∀ lr, splitLoop bor q h t (emptySpine h) = .ok lr → toList h r <:+ toList h lr.2)) ∨
    (∃ lr f, splitLoopP bor q h t (emptySpine h) fuel = .ok (.done (lr, f)) ∧ splitLoop bor q h t (emptySpine h) = .ok lr) := by
  induction h generalizing t fuel with
  | zero =>
    unfold splitLoopP
    cases hs : searchFromP bor q 0 t.kvs fuel with
    | none => exact .inl ⟨t, emptySpine 0, rfl, hb.mono (Nat.zero_le _), hl, by simp, by simp⟩
    | some x =>
      obtain ⟨⟨i, b⟩, f⟩ := x
      obtain ⟨e, _⟩ := searchFromP_some hs
      obtain ⟨A, C, hf⟩ := searchLinear_spec bor q t.kvs
      have hi := hf.idx_le
      simp only [searchLinear, e] at hi
      right
      refine ⟨(⟨t.kvs.take i, t.edges.take (i + 1)⟩, ⟨t.kvs.drop i, [] ++ t.edges.drop (i + 1)⟩), f, ?_, ?_⟩
      rotate_left
      · simp only [splitLoop, searchLinear, e, Tree.moveSuffix]
        simp only [Tree.len, hi, emptySpine, emptyLeaf, decide_true, require_true, Exec.ok_bind, List.length_nil]
      · simp only [Tree.moveSuffix]
        simp only [Tree.len, hi, emptySpine, emptyLeaf, decide_true, require_true, Exec.ok_bind, List.length_nil]
  | succ h ih =>
    cases hs : searchFromP bor q 0 t.kvs fuel with
    | none =>
      refine .inl ⟨t, emptySpine (h + 1), ?_, hb.mono (Nat.zero_le _), hl, by simp, by simp⟩
      unfold splitLoopP
      simp only [hs]
    | some x =>
      obtain ⟨⟨i, b⟩, f⟩ := x
      obtain ⟨e, _⟩ := searchFromP_some hs
      have e' : (searchLinear bor q t.kvs).1 = i := by simp [searchLinear, e]
      obtain ⟨A', C', hf⟩ := searchLinear_spec bor q t.kvs
      obtain ⟨A, C, X, c, Y, rfl, hA, hX, hY⟩ := split_edge hb.1 (i := (searchLinear bor q t.kvs).1) hf.idx_le
      obtain ⟨hXi, hci, hYi⟩ := mem_edges_split hb.2
      have hX' : X.length = A.length := by omega
      have hstep : splitLoopP bor q (h + 1) ⟨A ++ C, X ++ c :: Y⟩ (emptySpine (h + 1)) fuel =
          (splitLoopP bor q h c (emptySpine h) f >>= fun o => match o with
            | .done (lr, f) => .ok (.done ((⟨A, X ++ [lr.1]⟩, ⟨C, lr.2 :: Y⟩), f))
            | .unwound lr w => .ok (.unwound (⟨A, X ++ [lr.1]⟩, ⟨C, lr.2 :: Y⟩) w)) := by
        have hiA : i = A.length := by omega
        subst hiA
        have t1 : (A ++ C).take A.length = A := by simp
        have t2 : (A ++ C).drop A.length = C := by simp
        have t3 : (X ++ c :: Y).take (A.length + 1) = X ++ [c] := by
          rw [← hX', List.take_append, List.take_of_length_le (Nat.le_succ _)]; simp
        have t4 : (X ++ c :: Y).drop (A.length + 1) = Y := by
          rw [← hX', List.drop_append, List.drop_eq_nil_of_le (Nat.le_succ _)]; simp
        have t5 : getE (X ++ [c]) A.length = .ok c := by rw [← hX']; simp
        have t6 : ∀ d, setE (X ++ [c]) A.length d = .ok (X ++ [d]) := by intro d; rw [← hX']; simp
        have t7 : ∀ d : Tree K V, getE (d :: Y) 0 = .ok d := fun _ => rfl
        have t8 : ∀ d d' : Tree K V, setE (d :: Y) 0 d' = .ok (d' :: Y) := by intro d d'; simpa using setE_append [] d d' Y
        conv => lhs; unfold splitLoopP
        simp only [hs]
        simp only [Tree.moveSuffix, emptySpine, Tree.len, List.length_nil, List.length_append, Nat.le_add_right, decide_true,
          require_true, Exec.ok_bind, t1, t2, t3, t4, t5, List.cons_append, List.nil_append, t7]
        congr 1
        funext o
        rcases o with ⟨⟨cl, cr⟩, f'⟩ | ⟨⟨cl, cr⟩, w⟩ <;> simp only [t6, t8, Exec.ok_bind]
      rcases ih hci.2.2 hci.2.1 f with ⟨l, r, g1, g2, g3, g4, g5⟩ | ⟨lr, f', g1, g2⟩
      · left
        refine ⟨⟨A, X ++ [l]⟩, ⟨C, r :: Y⟩, by rw [hstep, g1]; rfl, ⟨by simp [hX'], ?_⟩, by simp at hl ⊢; omega, ?_, ?_⟩
        · intro d hd
          rcases List.mem_append.1 hd with hd | hd
          · have := hXi d hd; exact ⟨Nat.zero_le _, this.2.1, BelowN.mono (Nat.zero_le _) this.2.2⟩
          · rw [List.mem_singleton.1 hd]; exact ⟨Nat.zero_le _, g3, g2⟩
        · have e1 := toList_split (h := h) (A := A) (C := []) (X := X) (Y := []) (c := l) hX'
          have e2 := toList_split (h := h) (A := []) (C := C) (X := []) (Y := Y) (c := r) rfl
          simp only [postT_nil, preT_nil, List.append_nil, List.nil_append] at e1 e2
          rw [e1, e2, toList_split hX', g4]; simp
        · intro lr h0
          rw [splitLoop_succ bor q hA hX'] at h0
          obtain ⟨lr', h1, h0⟩ := Exec.bind_eq_ok.1 h0
          obtain rfl := by simpa using h0.symm
          have e1 := toList_split (h := h) (A := []) (C := C) (X := []) (Y := Y) (c := lr'.2) rfl
          have e2 := toList_split (h := h) (A := []) (C := C) (X := []) (Y := Y) (c := r) rfl
          simp only [preT_nil, List.nil_append] at e1 e2
          obtain ⟨p, hp⟩ := g5 lr' h1
          rw [e1, e2, ← hp]
          exact ⟨p, by simp⟩
      · right
        refine ⟨(⟨A, X ++ [lr.1]⟩, ⟨C, lr.2 :: Y⟩), f', by rw [hstep, g1]; rfl, ?_⟩
        rw [splitLoop_succ bor q hA hX', g2]; rfl

theorem splitLoopP_total [Ord Q] (bor : K → Q) (q : Q) {lo h : Nat} {t : Tree K V} (hb : BelowN lo h t) (hl : t.len ≤ 11) (r : Tree K V) (fuel : Nat)
    (hf : 11 * (h + 1) ≤ fuel) (s w) : splitLoopP bor q h t r fuel ≠ .ok (.unwound s w) := by
  induction h generalizing t r fuel s w with
  | zero =>
    obtain ⟨⟨⟨i, b⟩, f⟩, hs⟩ := searchFromP_total bor q t.kvs 0 fuel (by simp [Tree.len] at hl; omega)
    unfold splitLoopP
    simp only [hs]
    intro h
    obtain ⟨lr, _, h⟩ := Exec.bind_eq_ok.1 h
    simp at h
  | succ h ih =>
    obtain ⟨⟨⟨i, b⟩, f⟩, hs⟩ := searchFromP_total bor q t.kvs 0 fuel (by simp [Tree.len] at hl; omega)
    have hff := searchFromP_some hs
    unfold splitLoopP
    simp only [hs]
    intro e
    obtain ⟨⟨l1, r1⟩, e1, e⟩ := Exec.bind_eq_ok.1 e
    obtain ⟨cl, e2, e⟩ := Exec.bind_eq_ok.1 e
    obtain ⟨cr, e3, e⟩ := Exec.bind_eq_ok.1 e
    obtain ⟨o, e4, e⟩ := Exec.bind_eq_ok.1 e
    have hm : cl ∈ t.edges := by
      simp only [Tree.moveSuffix] at e1
      obtain ⟨_, _, e1⟩ := Exec.bind_eq_ok.1 e1
      obtain ⟨_, _, e1⟩ := Exec.bind_eq_ok.1 e1
      obtain ⟨rfl, _⟩ := by simpa using e1
      have : cl ∈ t.edges.take (i + 1) := by
        unfold getE at e2
        split at e2
        · rename_i x hx; obtain rfl := by simpa using e2
          exact List.mem_of_getElem? hx
        · simp at e2
      exact List.mem_of_mem_take this
    have hc := hb.2 cl hm
    rcases o with ⟨⟨l2, r2⟩, f'⟩ | ⟨lr, w'⟩
    · obtain ⟨_, _, e⟩ := Exec.bind_eq_ok.1 e
      obtain ⟨_, _, e⟩ := Exec.bind_eq_ok.1 e
      simp at e
    · refine ih hc.2.2 hc.2.1 cr f ?_ lr w' e4
      simp only [Tree.len] at hl
      omega

/-- `split_off`, unwinding or not. -/
theorem Map.splitOffP_spec [Ord Q] {x : Nat} {m : Map K V} (h : m.Shaped x) (bor : K → Q) (q : Q) (a : Alloc) (fuel : Nat) :
    (∃ m' rest, m.splitOffP bor q a fuel = .ok (.unwound m' .cmp) ∧ m'.ShapedN 0 0 (x + rest.length) ∧ m'.length = m.length ∧
      m.toList = m'.toList ++ rest ∧ fuel < 11 * (m.height + 1) ∧ m'.shared = m.shared ∧
      ∃ right m2 a2, m.splitOff bor q a = .ok (.ok right, m2, a2) ∧ rest <:+ right.toList) ∨
    (∃ r f, m.splitOffP bor q a fuel = .ok (.done (r, f)) ∧ m.splitOff bor q a = .ok r) := by
  obtain ⟨r0, m0, a0, k1, k2, _⟩ := Map.splitOff_wf h bor q a
  unfold Map.splitOffP
  unfold Map.splitOff at k1 ⊢
  by_cases h0 : m.isEmpty = true
  · exact .inr ⟨_, fuel, by simp only [h0, if_true]; rfl, by simp [h0]⟩
  · obtain ⟨s1, s2, s3⟩ := h.shape
    cases hreq : Alloc.requests (m.height + 1) a with
    | mk granted a1 =>
    cases granted with
    | false => exact .inr ⟨(.error .allocError, m, a1), fuel, by simp [h0], by simp [h0]⟩
    | true =>
      simp only [h0, Bool.false_eq_true, if_false, if_true, hreq] at k1 ⊢
      rcases splitLoopP_spec bor q s3 s1 fuel with ⟨l, r, g1, g2, g3, g4, g5⟩ | ⟨⟨l, r⟩, f, g1, g2⟩
      · left
        have ht : m.toList = BTree.toList m.height l ++ BTree.toList m.height r := g4
        refine ⟨{ m with root := l }, BTree.toList m.height r, by simp only [g1, Exec.ok_bind], ⟨⟨g3, by simp, g2⟩, ?_, ?_, ?_⟩, rfl, ht, ?_⟩
        · have := h.len
          rw [ht] at this
          simp at this
          show m.length = (BTree.toList m.height l).length + _
          omega
        · intro hs
          obtain ⟨k1, k2⟩ := h.shared hs
          have : m.toList = [] := by simp [Map.toList, k1, k2, emptyLeaf]
          rw [this] at ht
          have hl := (List.append_eq_nil_iff.1 ht.symm).1
          refine ⟨k1, ?_⟩
          show l = emptyLeaf
          rw [k1] at hl g2
          obtain ⟨lk, le⟩ := l
          simp at hl
          have : le = [] := g2
          subst hl this; rfl
        · intro hs
          obtain ⟨k1, k2⟩ := h.shared hs
          have : m.toList = [] := by simp [Map.toList, k1, k2, emptyLeaf]
          rw [this] at ht
          rw [h.tidy hs, (List.append_eq_nil_iff.1 ht.symm).2]; rfl
        · refine ⟨Nat.lt_of_not_le fun hle => splitLoopP_total bor q s3 s1 _ fuel hle _ _ g1, rfl, ?_⟩
          have hok : ∃ right, r0 = .ok right := by
            have k3 := k1
            obtain ⟨_, _, k3⟩ := Exec.bind_eq_ok.1 k3
            obtain ⟨_, _, k3⟩ := Exec.bind_eq_ok.1 k3
            obtain ⟨_, _, k3⟩ := Exec.bind_eq_ok.1 k3
            split at k3
            · obtain ⟨_, _, k3⟩ := Exec.bind_eq_ok.1 k3
              obtain ⟨_, _, k3⟩ := Exec.bind_eq_ok.1 k3
              simp only [Exec.ok.injEq, Prod.mk.injEq] at k3
              exact ⟨_, k3.1.symm⟩
            · obtain ⟨_, _, k3⟩ := Exec.bind_eq_ok.1 k3
              obtain ⟨_, _, k3⟩ := Exec.bind_eq_ok.1 k3
              simp only [Exec.ok.injEq, Prod.mk.injEq] at k3
              exact ⟨_, k3.1.symm⟩
          obtain ⟨right, rfl⟩ := hok
          refine ⟨right, m0, a0, k1, ?_⟩
          rcases k2.2.2 with k2 | ⟨l2, r2, k2, _, k4⟩
          · rw [k2] at ht
            rw [(List.append_eq_nil_iff.1 ht.symm).2]
            exact List.nil_suffix
          · rw [k4]
            exact g5 _ k2
      · right
        simp only [g1, g2, Exec.ok_bind] at k1 ⊢
        obtain ⟨l', e1, k1⟩ := Exec.bind_eq_ok.1 k1
        obtain ⟨r', e2, k1⟩ := Exec.bind_eq_ok.1 k1
        simp only [e1, e2, Exec.ok_bind]
        split at k1
        · rename_i hlt
          obtain ⟨ll, e3, k1⟩ := Exec.bind_eq_ok.1 k1
          obtain ⟨u, e4, k1⟩ := Exec.bind_eq_ok.1 k1
          simp only [hlt, if_true, e3, Exec.ok_bind, e4]
          exact ⟨_, f, rfl, rfl⟩
        · rename_i hlt
          obtain ⟨ll, e3, k1⟩ := Exec.bind_eq_ok.1 k1
          obtain ⟨u, e4, k1⟩ := Exec.bind_eq_ok.1 k1
          simp only [hlt, if_false, e3, Exec.ok_bind, e4]
          exact ⟨_, f, rfl, rfl⟩

end Verif.BTree
