import Verif.Heap.Proofs.LayoutOk
import Verif.BTree.Proofs.Budget
/-
How many nodes are allocated.
-/
namespace Verif.Heap
open Verif
open Verif.BTree (Map nodesOf)

variable {K V : Type}

/-- The piece of memory has exactly `n` nodes. -/
def Covers (w : World K V) (n : Nat) : Prop := ∃ L : List Addr, L.Nodup ∧ L.length = n ∧ ∀ x, w.cells x ≠ none ↔ x ∈ L

theorem covers_empty : Covers (World.empty : World K V) 0 := ⟨[], .nil, rfl, by simp [World.empty]⟩

theorem covers_union {w₁ w₂ : World K V} {n m : Nat} (hd : World.Disj w₁ w₂) (h1 : Covers w₁ n) (h2 : Covers w₂ m) : Covers (World.union w₁ w₂) (n + m) := by
  obtain ⟨L, a1, a2, a3⟩ := h1
  obtain ⟨M, b1, b2, b3⟩ := h2
  refine ⟨L ++ M, List.nodup_append.2 ⟨a1, b1, ?_⟩, by simp [a2, b2], ?_⟩
  · intro x hx y hy e
    subst e
    rcases hd.1 x with h | h
    · exact (a3 x).2 hx h
    · exact (b3 x).2 hy h
  · intro x
    rw [List.mem_append, ← a3, ← b3]
    simp only [World.union, ne_eq, World.or_none_iff]
    by_cases h : w₁.cells x = none <;> simp [h]

theorem covers_pts {a : Addr} {n : Node K V} {w : World K V} (h : pts a n w) : Covers w 1 := by
  obtain ⟨_, rfl⟩ := h
  refine ⟨[a], by simp, rfl, fun x => ?_⟩
  by_cases hx : x = a <;> simp [hx]

theorem covers_kids {h : Nat} {a : Addr} (ih : ∀ {l : Link} {t : ATree K V} {w : World K V}, tree l h t w → Covers w (nodesOf h t.erase)) :
    ∀ {cs : List (ATree K V)} {i : Nat} {w : World K V}, kids h a i cs w → Covers w (cs.map fun c => nodesOf h c.erase).sum
  | [], i, w, hw => by
    rw [kids_nil] at hw
    rw [show w = World.empty from hw]
    exact covers_empty
  | c :: cs, i, w, hw => by
    rw [kids_cons] at hw
    obtain ⟨u, v, hd, rfl, hu, hv⟩ := hw
    simp only [List.map_cons, List.sum_cons]
    exact covers_union hd (ih hu) (covers_kids ih hv)

theorem covers_tree : ∀ {h : Nat} {l : Link} {t : ATree K V} {w : World K V}, tree l h t w → Covers w (nodesOf h t.erase)
  | 0, l, t, w, hw => by
    rw [tree_zero] at hw
    obtain ⟨_, hw⟩ := fact_sep.1 hw
    exact covers_pts hw
  | h + 1, l, t, w, hw => by
    rw [tree_succ] at hw
    obtain ⟨_, u, v, hd, rfl, hu, hv⟩ := fact_sep.1 hw
    have h1 := covers_union hd (covers_pts hu) (covers_kids (fun e => covers_tree e) hv)
    have e : nodesOf (h + 1) t.erase = 1 + (t.edges.map fun c => nodesOf h c.erase).sum := by
      simp [nodesOf, List.map_map, Function.comp_def]
    rw [e]
    exact h1

theorem covers_rep {hm : HMap} {M : Map K V} {w : World K V} (hw : rep hm M w) : Covers w M.nodes ∧ hm.length = M.length := by
  obtain ⟨ta, hw⟩ := hw
  unfold Map.nodes
  cases hs : M.shared with
  | true =>
    unfold own at hw
    rw [hs, if_pos rfl] at hw
    rw [hw.2, hw.1.1]
    exact ⟨covers_empty, rfl⟩
  | false =>
    rw [own_owned hs] at hw
    obtain ⟨pi, hw⟩ := hw
    obtain ⟨⟨h1, rfl⟩, hw2⟩ := fact_sep.1 hw
    rw [← h1]
    exact ⟨covers_tree hw2, rfl⟩

theorem covers_pool : ∀ {hs : List HMap} {ms : List (Map K V)} {w : World K V}, pool hs ms w →
    Covers w (ms.map Map.nodes).sum ∧ hs.map (·.length) = ms.map (·.length)
  | [], [], w, hw => by rw [show w = World.empty from hw]; exact ⟨covers_empty, rfl⟩
  | [], _ :: _, _, hw => hw.1.elim
  | _ :: _, [], _, hw => hw.1.elim
  | h :: hs, m :: ms, w, hw => by
    obtain ⟨u, v, hd, rfl, hu, hv⟩ := hw
    obtain ⟨h1, h2⟩ := covers_rep hu
    obtain ⟨h3, h4⟩ := covers_pool hv
    simp only [List.map_cons, List.sum_cons, h2, h4]
    exact ⟨covers_union hd h1 h3, trivial⟩

end Verif.Heap
