import Verif.Heap.Proofs.Rebalance
/-
Paths into trees in memory: the node at the end of a path, and the rest of the tree around it.
-/
namespace Verif.Heap
open Verif
open Verif.BTree (B MIN_LEN CAPACITY Tree Handle setE sliceInsert sliceRemove)

variable {K V α β : Type} {E : String → Prop}

theorem getE_ok {l : List α} {i : Nat} {x : α} (h : getE l i = .ok x) : ∃ X Y, l = X ++ x :: Y ∧ X.length = i := by
  unfold Verif.getE at h
  split at h
  · next hx =>
    simp only [Exec.ok.injEq] at h
    subst h
    obtain ⟨hi, hx⟩ := List.getElem?_eq_some_iff.1 hx
    refine ⟨l.take i, l.drop (i + 1), ?_, by simp; omega⟩
    rw [← hx, List.getElem_cons_drop, List.take_append_drop]
  · cases h

theorem getE_map_ok {f : α → β} {l : List α} {i : Nat} {y : β} (h : getE (l.map f) i = .ok y) :
    ∃ X x Y, l = X ++ x :: Y ∧ X.length = i ∧ f x = y := by
  obtain ⟨X', Y', e, hi⟩ := getE_ok h
  obtain ⟨X, l2, rfl, rfl, e2⟩ := List.map_eq_append_iff.1 e
  obtain ⟨x, Y, rfl, rfl, rfl⟩ := List.map_eq_cons_iff.1 e2
  exact ⟨X, x, Y, rfl, by simpa using hi, rfl⟩

theorem setE_mid {X Y : List α} {x y : α} {i : Nat} (hi : X.length = i) :
    setE (X ++ x :: Y) i y = .ok (X ++ y :: Y) := by
  subst hi
  simp [Verif.BTree.setE]

theorem getE_mid {X Y : List α} {x : α} {i : Nat} (hi : X.length = i) : getE (X ++ x :: Y) i = .ok x := by
  subst hi
  simp [Verif.getE]

/-- The node at the end of a path of edge indices (outermost first). -/
def ATree.at : ATree K V → List Nat → Option (ATree K V)
  | t, [] => some t
  | t, i :: p =>
    match t.edges[i]? with
    | some c => c.at p
    | none => none

/-- Replace the node at the end of a path. -/
def ATree.put : ATree K V → List Nat → ATree K V → ATree K V
  | _, [], n => n
  | t, i :: p, n =>
    match t.edges[i]? with
    | some c => { t with edges := t.edges.set i (c.put p n) }
    | none => t

theorem ATree.put_addr {t n n' : ATree K V} {p : List Nat} (h : t.at p = some n) (ha : n'.addr = n.addr) :
    (t.put p n').addr = t.addr := by
  cases p with
  | nil => simp only [ATree.at, Option.some.injEq] at h; subst h; exact ha
  | cons i p => simp only [ATree.put]; split <;> rfl

theorem ATree.at_cons {a : Addr} {kvs : List (K × V)} {X Y : List (ATree K V)} {c : ATree K V} {i : Nat} {p : List Nat}
    (hi : X.length = i) : (⟨a, kvs, X ++ c :: Y⟩ : ATree K V).at (i :: p) = c.at p := by
  subst hi; simp [ATree.at]

theorem ATree.put_cons {a : Addr} {kvs : List (K × V)} {X Y : List (ATree K V)} {c n : ATree K V} {i : Nat} {p : List Nat}
    (hi : X.length = i) : (⟨a, kvs, X ++ c :: Y⟩ : ATree K V).put (i :: p) n = ⟨a, kvs, X ++ c.put p n :: Y⟩ := by
  subst hi; simp [ATree.put]

theorem ATree.at_split {t n : ATree K V} {i : Nat} {p : List Nat} (h : t.at (i :: p) = some n) :
    ∃ X c Y, t.edges = X ++ c :: Y ∧ X.length = i ∧ c.at p = some n := by
  simp only [ATree.at] at h
  split at h
  · next hc =>
    obtain ⟨hi, hx⟩ := List.getElem?_eq_some_iff.1 hc
    refine ⟨t.edges.take i, _, t.edges.drop (i + 1), ?_, by simp; omega, h⟩
    rw [← hx, List.getElem_cons_drop, List.take_append_drop]
  · cases h

theorem ATree.at_append {t n : ATree K V} {p q : List Nat} (h : t.at p = some n) : t.at (p ++ q) = n.at q := by
  induction p generalizing t with
  | nil => simp only [ATree.at, Option.some.injEq] at h; subst h; rfl
  | cons i p ih =>
    obtain ⟨X, c, Y, e, hi, hc⟩ := ATree.at_split h
    obtain ⟨a, kvs, es⟩ := t
    dsimp only at e; subst e
    rw [List.cons_append, ATree.at_cons hi]
    exact ih hc

theorem tree_internal' (l : Link) (h : Nat) (a : Addr) (kvs : List (K × V)) (X Y : List (ATree K V)) (c : ATree K V) :
    tree l (h + 1) ⟨a, kvs, X ++ c :: Y⟩ =
      (fact (X.length + Y.length + 1 = kvs.length + 1 ∧ kvs.length ≤ CAPACITY) ∗
      pts a (nd .internal l kvs (addrs X ++ c.addr :: addrs Y)) ∗ kids h a 0 X ∗ tree (some a, some X.length) h c ∗
        kids h a (X.length + 1) Y) := by
  rw [tree_internal, kids_append, kids_cons, Nat.zero_add]
  simp only [addrs, List.map_append, List.map_cons, List.length_append, List.length_cons, Nat.add_assoc]

/-- A tree is the subtree at a path and the rest. -/
theorem focus {p : List Nat} {h : Nat} {t n : ATree K V} (l : Link) (hp : t.at p = some n) (hl : p.length ≤ h) :
    ∃ l' F, ∀ n', n'.addr = n.addr → tree l h (t.put p n') = (tree l' (h - p.length) n' ∗ F) := by
  induction p generalizing h t l with
  | nil => exact ⟨l, emp, fun n' _ => by simp [ATree.put]⟩
  | cons i p ih =>
    obtain ⟨X, c, Y, e, hi, hc⟩ := ATree.at_split hp
    obtain ⟨a, kvs, es⟩ := t
    dsimp only at e; subst e
    cases h with
    | zero => simp at hl
    | succ h =>
      obtain ⟨l', F, hF⟩ := ih (h := h) (some a, some X.length) hc (by simpa using hl)
      refine ⟨l', fact (X.length + Y.length + 1 = kvs.length + 1 ∧ kvs.length ≤ CAPACITY) ∗
        pts a (nd .internal l kvs (addrs X ++ c.addr :: addrs Y)) ∗ kids h a 0 X ∗ F ∗ kids h a (X.length + 1) Y, fun n' hn => ?_⟩
      rw [ATree.put_cons hi, tree_internal', hF n' hn, ATree.put_addr hc hn]
      simp only [List.length_cons, Nat.add_sub_add_right]
      ac_rfl

theorem ATree.put_self {t n : ATree K V} {p : List Nat} (h : t.at p = some n) : t.put p n = t := by
  induction p generalizing t with
  | nil => simp only [ATree.at, Option.some.injEq] at h; exact h.symm
  | cons i p ih =>
    obtain ⟨X, c, Y, e, hi, hc⟩ := ATree.at_split h
    obtain ⟨a, kvs, es⟩ := t
    dsimp only at e; subst e
    rw [ATree.put_cons hi, ih hc]

theorem ATree.at_put {t n n' : ATree K V} {p : List Nat} (h : t.at p = some n) : (t.put p n').at p = some n' := by
  induction p generalizing t with
  | nil => rfl
  | cons i p ih =>
    obtain ⟨X, c, Y, e, hi, hc⟩ := ATree.at_split h
    obtain ⟨a, kvs, es⟩ := t
    dsimp only at e; subst e
    rw [ATree.put_cons hi, ATree.at_cons hi, ih hc]

/-! ### level 1 along a path -/

theorem nodeAt_erase {p : List Nat} {h : Nat} {t : ATree K V} {x : Nat × Tree K V} (hx : BTree.nodeAt h t.erase p = .ok x) :
    ∃ n, t.at p = some n ∧ p.length ≤ h ∧ x = (h - p.length, n.erase) := by
  induction p generalizing h t with
  | nil =>
    simp only [BTree.nodeAt, Exec.ok.injEq] at hx
    exact ⟨t, rfl, by simp, hx.symm⟩
  | cons i p ih =>
    cases h with
    | zero => simp [BTree.nodeAt] at hx
    | succ h =>
      simp only [BTree.nodeAt] at hx
      obtain ⟨c, hc, hx⟩ := Exec.bind_eq_ok.1 hx
      rw [ATree.erase_edges] at hc
      obtain ⟨X, c, Y, e, hi, rfl⟩ := getE_map_ok hc
      obtain ⟨n, hn, hl, rfl⟩ := ih hx
      obtain ⟨a, kvs, es⟩ := t
      dsimp only at e; subst e
      exact ⟨n, by rw [ATree.at_cons hi, hn], by simpa using hl, by simp⟩

theorem modifyAt_erase {f : Nat → Tree K V → Exec (Tree K V × β)} {p : List Nat} {h : Nat} {t : ATree K V} {t' : Tree K V} {b : β}
    (hx : BTree.modifyAt f h t.erase p = .ok (t', b)) :
    ∃ n n', t.at p = some n ∧ p.length ≤ h ∧ f (h - p.length) n.erase = .ok (n', b) ∧
      ∀ na : ATree K V, na.erase = n' → (t.put p na).erase = t' := by
  induction p generalizing h t t' with
  | nil =>
    simp only [BTree.modifyAt] at hx
    exact ⟨t, t', rfl, by simp, hx, fun na hna => hna⟩
  | cons i p ih =>
    cases h with
    | zero => simp [BTree.modifyAt] at hx
    | succ h =>
      simp only [BTree.modifyAt] at hx
      obtain ⟨c, hc, hx⟩ := Exec.bind_eq_ok.1 hx
      obtain ⟨⟨c', b'⟩, hm, hx⟩ := Exec.bind_eq_ok.1 hx
      obtain ⟨es', hs, hx⟩ := Exec.bind_eq_ok.1 hx
      simp only [Exec.ok.injEq, Prod.mk.injEq] at hx
      obtain ⟨rfl, rfl⟩ := hx
      rw [ATree.erase_edges] at hc
      obtain ⟨X, c, Y, e, hi, rfl⟩ := getE_map_ok hc
      obtain ⟨n, n', hn, hl, hf, hput⟩ := ih hm
      obtain ⟨a, kvs, es⟩ := t
      dsimp only at e; subst e
      refine ⟨n, n', by rw [ATree.at_cons hi, hn], by simpa using hl, by simpa using hf, fun na hna => ?_⟩
      rw [ATree.put_cons hi, ATree.erase_mk]
      simp only [ATree.erase_edges, List.map_append, List.map_cons] at hs ⊢
      rw [setE_mid (by simpa using hi)] at hs
      simp only [Exec.ok.injEq] at hs
      rw [← hs, ATree.erase_kvs, hput na hna]

/-- A level-1 handle into a tree of height `h` and the pointer it stands for. -/
def HandleAt (h : Nat) (t : ATree K V) (hd : Handle) (r : HRef) : Prop :=
  ∃ n, t.at hd.up.reverse = some n ∧ hd.up.length ≤ h ∧ r = ⟨h - hd.up.length, n.addr, hd.idx⟩

theorem HandleAt.nil {h : Nat} {t : ATree K V} {i : Nat} : HandleAt h t ⟨[], i⟩ ⟨h, t.addr, i⟩ :=
  ⟨t, rfl, by simp, by simp⟩

theorem HandleAt.under {h : Nat} {a : Addr} {kvs : List (K × V)} {X Y : List (ATree K V)} {c : ATree K V} {i : Nat} {hd : Handle} {r : HRef}
    (hh : HandleAt h c hd r) (hi : X.length = i) : HandleAt (h + 1) ⟨a, kvs, X ++ c :: Y⟩ (hd.under i) r := by
  obtain ⟨n, h1, h2, rfl⟩ := hh
  refine ⟨n, ?_, by simp [Handle.under]; exact h2, by simp [Handle.under]⟩
  rw [Handle.under, List.reverse_append, List.reverse_singleton, List.singleton_append, ATree.at_cons hi, h1]

end Verif.Heap
