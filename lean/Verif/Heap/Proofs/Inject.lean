import Verif.Heap.Proofs.IterNext
/-
Different paths of a tree in memory lead to different addresses.
-/
namespace Verif.Heap
open Verif
open Verif.BTree (B MIN_LEN CAPACITY Tree Handle Map emptyLeaf)

variable {K V Q α β : Type} {E : String → Prop}

theorem sep_cell_left {P Q : HProp K V} {w : World K V} (h : (P ∗ Q) w) {a : Addr} (hP : ∀ w, P w → (w.cells a).isSome) :
    (w.cells a).isSome := by
  obtain ⟨w₁, w₂, _, rfl, h1, _⟩ := h
  have := hP w₁ h1
  show ((w₁.cells a).or (w₂.cells a)).isSome = true
  cases hw : w₁.cells a with
  | none => rw [hw] at this; cases this
  | some n => rfl

/-- The address of every node of a tree is allocated. -/
theorem tree_cell {l : Link} {h : Nat} {t n : ATree K V} {p : List Nat} {w : World K V} (hw : tree l h t w) (hp : t.at p = some n)
    (hl : p.length ≤ h) : (w.cells n.addr).isSome := by
  obtain ⟨l', F, e, _⟩ := focus_self l hp hl
  rw [e] at hw
  unfold tree at hw
  rw [sep_assoc] at hw
  refine sep_cell_left hw ?_
  rintro w ⟨_, rfl⟩
  simp

theorem sep_ne {P Q : HProp K V} {w : World K V} (h : (P ∗ Q) w) {a b : Addr} (hP : ∀ w, P w → (w.cells a).isSome)
    (hQ : ∀ w, Q w → (w.cells b).isSome) : a ≠ b := by
  obtain ⟨w₁, w₂, hd, rfl, h1, h2⟩ := h
  rintro rfl
  have h1 := hP _ h1
  have h2 := hQ _ h2
  rcases hd.1 a with e | e
  · rw [e] at h1; cases h1
  · rw [e] at h2; cases h2

theorem kids_cell {h : Nat} {a : Addr} {c n : ATree K V} {p : List Nat} (hp : c.at p = some n) (hl : p.length ≤ h) :
    ∀ {es : List (ATree K V)} {i j : Nat} {w : World K V}, kids h a i es w → es[j]? = some c → (w.cells n.addr).isSome
  | [], i, j, w, _, hj => by simp at hj
  | d :: es, i, 0, w, hw, hj => by
    simp only [List.getElem?_cons_zero, Option.some.injEq] at hj
    subst hj
    rw [kids_cons] at hw
    exact sep_cell_left hw fun w hw => tree_cell hw hp hl
  | d :: es, i, j + 1, w, hw, hj => by
    simp only [List.getElem?_cons_succ] at hj
    rw [kids_cons, sep_comm] at hw
    exact sep_cell_left hw fun w hw => kids_cell hp hl hw hj

theorem kids_ne {h : Nat} {a : Addr} {c d n m : ATree K V} {p q : List Nat} (hp : c.at p = some n) (hl : p.length ≤ h)
    (hq : d.at q = some m) (hl' : q.length ≤ h) :
    ∀ {es : List (ATree K V)} {i j k : Nat} {w : World K V}, kids h a i es w → es[j]? = some c → es[k]? = some d → j ≠ k → n.addr ≠ m.addr
  | [], i, j, k, w, _, hj, _, _ => by simp at hj
  | d' :: es, i, 0, 0, w, hw, hj, hk, hne => absurd rfl hne
  | d' :: es, i, 0, k + 1, w, hw, hj, hk, hne => by
    simp only [List.getElem?_cons_zero, List.getElem?_cons_succ, Option.some.injEq] at hj hk
    subst hj
    rw [kids_cons] at hw
    exact sep_ne hw (fun w hw => tree_cell hw hp hl) fun w hw => kids_cell hq hl' hw hk
  | d' :: es, i, j + 1, 0, w, hw, hj, hk, hne => by
    simp only [List.getElem?_cons_zero, List.getElem?_cons_succ, Option.some.injEq] at hj hk
    subst hk
    rw [kids_cons, sep_comm] at hw
    exact sep_ne hw (fun w hw => kids_cell hp hl hw hj) fun w hw => tree_cell hw hq hl'
  | d' :: es, i, j + 1, k + 1, w, hw, hj, hk, hne => by
    simp only [List.getElem?_cons_succ] at hj hk
    rw [kids_cons] at hw
    obtain ⟨w₁, w₂, _, rfl, _, hw⟩ := hw
    exact kids_ne hp hl hq hl' hw hj hk (by omega)

theorem at_get {t n : ATree K V} {i : Nat} {p : List Nat} (h : t.at (i :: p) = some n) : ∃ c, t.edges[i]? = some c ∧ c.at p = some n := by
  simp only [ATree.at] at h
  split at h
  · next c hc => exact ⟨c, hc, h⟩
  · cases h

/-- The address determines the path. -/
theorem tree_inj : ∀ {h : Nat} {l : Link} {t n m : ATree K V} {p q : List Nat} {w : World K V}, tree l h t w → t.at p = some n → t.at q = some m →
    p.length ≤ h → q.length ≤ h → n.addr = m.addr → p = q
  | h, l, t, n, m, [], [], w, _, _, _, _, _, _ => rfl
  | 0, l, t, n, m, i :: p, q, w, _, _, _, hl, _, _ => by simp at hl
  | 0, l, t, n, m, p, j :: q, w, _, _, _, _, hl, _ => by simp at hl
  | h + 1, l, t, n, m, [], j :: q, w, hw, hp, hq, hl, hl', ha => by
    simp only [ATree.at, Option.some.injEq] at hp
    subst hp
    obtain ⟨c, hc, hq⟩ := at_get hq
    rw [tree_succ] at hw
    have hw := (fact_sep.1 hw).2
    exact absurd ha (sep_ne hw (by rintro w ⟨_, rfl⟩; simp) fun w hw => kids_cell hq (by simpa using hl') hw hc)
  | h + 1, l, t, n, m, i :: p, [], w, hw, hp, hq, hl, hl', ha => by
    simp only [ATree.at, Option.some.injEq] at hq
    subst hq
    obtain ⟨c, hc, hp⟩ := at_get hp
    rw [tree_succ] at hw
    have hw := (fact_sep.1 hw).2
    exact absurd ha.symm (sep_ne hw (by rintro w ⟨_, rfl⟩; simp) fun w hw => kids_cell hp (by simpa using hl) hw hc)
  | h + 1, l, t, n, m, i :: p, j :: q, w, hw, hp, hq, hl, hl', ha => by
    obtain ⟨c, hc, hp'⟩ := at_get hp
    obtain ⟨d, hd, hq'⟩ := at_get hq
    simp only [List.length_cons, Nat.add_le_add_iff_right] at hl hl'
    by_cases hij : i = j
    · subst hij
      rw [hc] at hd
      simp only [Option.some.injEq] at hd
      subst hd
      have hat : t.at [i] = some c := by simp [ATree.at, hc]
      obtain ⟨l', F, e, _⟩ := focus_self l hat (h := h + 1) (by simp)
      rw [e] at hw
      obtain ⟨w₁, w₂, _, rfl, hw, _⟩ := hw
      rw [tree_inj (h := h) hw hp' hq' hl hl' ha]
    · rw [tree_succ] at hw
      have hw := (fact_sep.1 hw).2
      obtain ⟨w₁, w₂, _, rfl, _, hw⟩ := hw
      exact absurd ha (kids_ne hp' hl hq' hl' hw hc hd hij)

/-- Comparing node pointer and index compares handles. -/
theorem tree_handles {l : Link} {h : Nat} {t : ATree K V} {a b : Handle} {ra rb : HRef} (ha : HandleAt h t a ra) (hb : HandleAt h t b rb) :
    Ent (tree l h t) (fact (a = b ↔ ra.node = rb.node ∧ ra.idx = rb.idx) ∗ tree l h t) := by
  intro w hw
  refine fact_sep.2 ⟨?_, hw⟩
  obtain ⟨n, hn, hl, rfl⟩ := ha
  obtain ⟨m, hm, hl', rfl⟩ := hb
  constructor
  · rintro rfl
    rw [hn] at hm
    simp only [Option.some.injEq] at hm
    subst hm
    exact ⟨rfl, rfl⟩
  · rintro ⟨h1, h2⟩
    have := tree_inj hw hn hm (by simpa using hl) (by simpa using hl') h1
    obtain ⟨u, i⟩ := a
    obtain ⟨v, j⟩ := b
    simp only [List.reverse_inj] at this h2
    subst this h2
    rfl

end Verif.Heap
