import Verif.BTree.Budget
import Verif.BTree.Proofs.Clone
import Verif.BTree.Proofs.Append
import Verif.BTree.Proofs.Count
import Verif.BTree.Proofs.Calls
/-
How often the calls ask the allocator, and how many nodes a tree has.
-/
namespace Verif.BTree
open Verif

variable {K V Q : Type}

theorem Asked.refl (a : Alloc) : Asked a a 0 true := ⟨rfl, by simp⟩

theorem Asked.trans {a b c : Alloc} {n m : Nat} {g : Bool} (h : Asked a b n true) (h' : Asked b c m g) : Asked a c (n + m) g := by
  obtain ⟨rfl, h1⟩ := h
  obtain ⟨rfl, h2⟩ := h'
  simp only [if_true] at h1
  refine ⟨by funext i; simp only [Nat.add_assoc, Nat.add_comm m n], ?_⟩
  cases g with
  | true =>
    simp only [if_true] at h2 ⊢
    intro i hi
    by_cases h : i < n
    · exact h1 i h
    · have := h2 (i - n) (by omega)
      rwa [show i - n + n = i by omega] at this
  | false =>
    simp only [Bool.false_eq_true, if_false] at h2 ⊢
    obtain ⟨j, rfl, h3, h4⟩ := h2
    refine ⟨n + j, by omega, ?_, by rw [Nat.add_comm]; exact h4⟩
    intro i hi
    by_cases h : i < n
    · exact h1 i h
    · have := h3 (i - n) (by omega)
      rwa [show i - n + n = i by omega] at this

theorem Asked.yes {a : Alloc} (h : a.request.1 = true) : Asked a a.request.2 1 true :=
  ⟨rfl, by simp only [if_true]; intro i hi; rw [show i = 0 by omega]; exact h⟩
theorem Asked.no {a : Alloc} (h : a.request.1 = false) : Asked a a.request.2 1 false :=
  ⟨rfl, by simp only [Bool.false_eq_true, if_false]; exact ⟨0, rfl, by simp, h⟩⟩

theorem requests_asked : ∀ {n : Nat} {a : Alloc}, ∃ k, k ≤ n ∧ ((Alloc.requests n a).1 = true → k = n) ∧
    Asked a (Alloc.requests n a).2 k (Alloc.requests n a).1
  | 0, a => ⟨0, Nat.le_refl _, fun _ => rfl, Asked.refl a⟩
  | n + 1, a => by
    unfold Alloc.requests
    cases h : a.request.1 with
    | false =>
      refine ⟨1, by omega, ?_, ?_⟩ <;> simp only [h, Bool.false_eq_true, if_false]
      · simp
      · exact Asked.no h
    | true =>
      simp only [h, if_true]
      obtain ⟨k, h1, h2, h3⟩ := requests_asked (n := n) (a := a.request.2)
      exact ⟨1 + k, by omega, fun g => by have := h2 g; omega, (Asked.yes h).trans h3⟩

theorem nodesOf_pos {h : Nat} {t : Tree K V} : 1 ≤ nodesOf h t := by
  cases h <;> simp [nodesOf]

theorem getE_ok {α : Type} {l : List α} {i : Nat} {x : α} (h : getE l i = .ok x) : ∃ A B, l = A ++ x :: B ∧ A.length = i := by
  unfold getE at h
  cases hx : l[i]? with
  | none => rw [hx] at h; cases h
  | some y =>
    rw [hx] at h
    simp only [Exec.ok.injEq] at h
    subst h
    obtain ⟨hi, e⟩ := List.getElem?_eq_some_iff.1 hx
    exact ⟨l.take i, l.drop (i + 1), by rw [← e]; simp, by simp; omega⟩

theorem setE_ok {α : Type} {A B : List α} {x y : α} {l' : List α} (h : setE (A ++ x :: B) A.length y = .ok l') : l' = A ++ y :: B := by
  unfold setE at h
  split at h
  · simp only [Exec.ok.injEq] at h
    rw [← h]; simp
  · cases h

theorem sliceInsert_sum {h : Nat} {l l' : List (Tree K V)} {i : Nat} {x : Tree K V} (e : sliceInsert l i x = .ok l') :
    (l'.map (nodesOf h)).sum = (l.map (nodesOf h)).sum + nodesOf h x := by
  unfold sliceInsert at e
  split at e
  · simp only [Exec.ok.injEq] at e
    subst e
    have : (l.map (nodesOf h)).sum = ((l.take i ++ l.drop i).map (nodesOf h)).sum := by rw [List.take_append_drop]
    rw [this]
    simp only [List.map_append, List.sum_append, List.map_cons, List.sum_cons]
    omega
  · cases e

theorem insertFitInternal_nodes {h : Nat} {t t' : Tree K V} {i : Nat} {kv : K × V} {e : Tree K V} (hr : t.insertFitInternal i kv e = .ok t') :
    nodesOf (h + 1) t' = nodesOf (h + 1) t + nodesOf h e := by
  unfold Tree.insertFitInternal at hr
  obtain ⟨_, _, hr⟩ := Exec.bind_eq_ok.1 hr
  obtain ⟨kvs, _, hr⟩ := Exec.bind_eq_ok.1 hr
  obtain ⟨es, h1, hr⟩ := Exec.bind_eq_ok.1 hr
  simp only [Exec.ok.injEq] at hr
  subst hr
  simp only [nodesOf, sliceInsert_sum h1]
  omega

theorem pushInternal_nodes {h : Nat} {t t' : Tree K V} {kv : K × V} {e : Tree K V} (hr : t.pushInternal kv e = .ok t') :
    nodesOf (h + 1) t' = nodesOf (h + 1) t + nodesOf h e := by
  unfold Tree.pushInternal at hr
  obtain ⟨_, _, hr⟩ := Exec.bind_eq_ok.1 hr
  simp only [Exec.ok.injEq] at hr
  subst hr
  simp only [nodesOf, List.map_append, List.sum_append, List.map_cons, List.map_nil, List.sum_cons, List.sum_nil]
  omega

/-- What an insertion step asked for. -/
def InsertRes.Paid (h : Nat) (told : Tree K V) (a a' : Alloc) : InsertRes K V → Prop
  | .fit t _ => ∃ n, n ≤ h ∧ Asked a a' n true ∧ nodesOf h t = nodesOf h told + n
  | .split l _ r _ _ => ∃ n, n = h + 1 ∧ Asked a a' n true ∧ nodesOf h l + nodesOf h r = nodesOf h told + n
  | .oom _ _ => ∃ n, n ≤ h + 1 ∧ Asked a a' n false

theorem leafInsert_paid {t : Tree K V} {idx : Nat} {kv : K × V} {a a' : Alloc} {r : InsertRes K V} (hr : leafInsert t idx kv a = .ok (r, a')) :
    r.Paid 0 t a a' := by
  unfold leafInsert at hr
  split at hr
  · obtain ⟨t', _, hr⟩ := Exec.bind_eq_ok.1 hr
    simp only [Exec.ok.injEq, Prod.mk.injEq] at hr
    obtain ⟨rfl, rfl⟩ := hr
    exact ⟨0, Nat.le_refl _, Asked.refl a, rfl⟩
  · cases hg : a.request.1 with
    | false =>
      simp only [hg, Bool.false_eq_true, if_false, Exec.ok.injEq, Prod.mk.injEq] at hr
      obtain ⟨rfl, rfl⟩ := hr
      exact ⟨1, Nat.le_refl _, Asked.no hg⟩
    | true =>
      simp only [hg, if_true] at hr
      obtain ⟨⟨l, mid, r'⟩, _, hr⟩ := Exec.bind_eq_ok.1 hr
      dsimp only at hr
      split at hr
      all_goals
        obtain ⟨t', _, hr⟩ := Exec.bind_eq_ok.1 hr
        simp only [Exec.ok.injEq, Prod.mk.injEq] at hr
        obtain ⟨rfl, rfl⟩ := hr
        exact ⟨1, rfl, Asked.yes hg, rfl⟩

theorem splitInternal_nodes {h : Nat} {t l r : Tree K V} {i : Nat} {mid : K × V} (hr : t.splitInternal i = .ok (l, mid, r)) :
    nodesOf (h + 1) l + nodesOf (h + 1) r = nodesOf (h + 1) t + 1 := by
  unfold Tree.splitInternal at hr
  obtain ⟨_, _, hr⟩ := Exec.bind_eq_ok.1 hr
  obtain ⟨_, _, hr⟩ := Exec.bind_eq_ok.1 hr
  simp only [Exec.ok.injEq, Prod.mk.injEq] at hr
  obtain ⟨rfl, _, rfl⟩ := hr
  have : (t.edges.map (nodesOf h)).sum = ((t.edges.take (i + 1) ++ t.edges.drop (i + 1)).map (nodesOf h)).sum := by rw [List.take_append_drop]
  rw [List.map_append, List.sum_append] at this
  simp only [nodesOf]
  omega

theorem internalInsert_paid {h : Nat} {t : Tree K V} {i : Nat} {kv : K × V} {e : Tree K V} {b : Bool} {loc : Handle} {a0 a a' : Alloc} {r : InsertRes K V}
    {told : Tree K V} (hr : internalInsert t i kv e b loc a = .ok (r, a')) (ha : Asked a0 a (h + 1) true)
    (hn : nodesOf (h + 1) t + nodesOf h e = nodesOf (h + 1) told + (h + 1)) : r.Paid (h + 1) told a0 a' := by
  unfold internalInsert at hr
  dsimp only at hr
  split at hr
  · obtain ⟨t', h1, hr⟩ := Exec.bind_eq_ok.1 hr
    simp only [Exec.ok.injEq, Prod.mk.injEq] at hr
    obtain ⟨rfl, rfl⟩ := hr
    exact ⟨h + 1, Nat.le_refl _, ha, by rw [insertFitInternal_nodes h1, hn]⟩
  · cases hg : a.request.1 with
    | false =>
      simp only [hg, Bool.false_eq_true, if_false, Exec.ok.injEq, Prod.mk.injEq] at hr
      obtain ⟨rfl, rfl⟩ := hr
      exact ⟨h + 1 + 1, Nat.le_refl _, ha.trans (Asked.no hg)⟩
    | true =>
      simp only [hg, if_true] at hr
      obtain ⟨⟨l, mid, r'⟩, h1, hr⟩ := Exec.bind_eq_ok.1 hr
      have h2 := splitInternal_nodes (h := h) h1
      dsimp only at hr
      split at hr
      all_goals
        obtain ⟨t', h3, hr⟩ := Exec.bind_eq_ok.1 hr
        simp only [Exec.ok.injEq, Prod.mk.injEq] at hr
        obtain ⟨rfl, rfl⟩ := hr
        refine ⟨h + 1 + 1, rfl, ha.trans (Asked.yes hg), ?_⟩
        rw [insertFitInternal_nodes h3]
        omega

theorem insertRec_paid : ∀ {h : Nat} {t : Tree K V} {p : List Nat} {idx : Nat} {kv : K × V} {a a' : Alloc} {r : InsertRes K V},
    insertRec h t p idx kv a = .ok (r, a') → r.Paid h t a a'
  | 0, t, [], idx, kv, a, a', r, hr => leafInsert_paid hr
  | 0, t, _ :: _, idx, kv, a, a', r, hr => by simp [insertRec] at hr
  | h + 1, t, [], idx, kv, a, a', r, hr => by simp [insertRec] at hr
  | h + 1, t, i :: p, idx, kv, a, a', r, hr => by
    unfold insertRec at hr
    obtain ⟨c, hc, hr⟩ := Exec.bind_eq_ok.1 hr
    obtain ⟨⟨r1, a1⟩, h1, hr⟩ := Exec.bind_eq_ok.1 hr
    have ih := insertRec_paid h1
    obtain ⟨A, B, hAB, hi⟩ := getE_ok hc
    subst hi
    have key : ∀ {c' : Tree K V} {es}, setE t.edges A.length c' = .ok es →
        nodesOf (h + 1) { t with edges := es } + nodesOf h c = nodesOf (h + 1) t + nodesOf h c' := by
      intro c' es he
      rw [hAB] at he
      have := setE_ok he
      subst this
      simp only [nodesOf, hAB, List.map_append, List.sum_append, List.map_cons, List.sum_cons]
      omega
    cases r1 with
    | fit c' loc =>
      obtain ⟨n, h2, h3, h4⟩ := ih
      dsimp only at hr
      obtain ⟨es, he, hr⟩ := Exec.bind_eq_ok.1 hr
      simp only [Exec.ok.injEq, Prod.mk.injEq] at hr
      obtain ⟨rfl, rfl⟩ := hr
      exact ⟨n, by omega, h3, by have := key he; omega⟩
    | oom c' =>
      obtain ⟨n, h2, h3⟩ := ih
      dsimp only at hr
      obtain ⟨es, he, hr⟩ := Exec.bind_eq_ok.1 hr
      simp only [Exec.ok.injEq, Prod.mk.injEq] at hr
      obtain ⟨rfl, rfl⟩ := hr
      exact ⟨n, by omega, h3⟩
    | split l mid rr b loc =>
      obtain ⟨n, h2, h3, h4⟩ := ih
      dsimp only at hr
      obtain ⟨es, he, hr⟩ := Exec.bind_eq_ok.1 hr
      subst h2
      exact internalInsert_paid hr h3 (by have := key he; omega)

theorem vacantInsert_paid {m m' : Map K V} {hd : Handle} {k : K} {v : V} {a a' : Alloc} {r : Res Handle}
    (hr : m.vacantInsert hd k v a = .ok (r, m', a')) :
    ∃ n, n ≤ m.height + 2 ∧ m'.shared = m.shared ∧
      match r with
      | .ok _ => Asked a a' n true ∧ (m.shared = false → m'.nodes = m.nodes + n)
      | .error _ => Asked a a' n false := by
  unfold Map.vacantInsert at hr
  obtain ⟨⟨r1, a1⟩, h1, hr⟩ := Exec.bind_eq_ok.1 hr
  have hp := insertRec_paid h1
  cases r1 with
  | fit t loc =>
    obtain ⟨n, h2, h3, h4⟩ := hp
    simp only [Exec.ok.injEq, Prod.mk.injEq] at hr
    obtain ⟨rfl, rfl, rfl⟩ := hr
    exact ⟨n, by omega, rfl, h3, fun hs => by simp only [Map.nodes, hs, Bool.false_eq_true, if_false, h4]⟩
  | oom t =>
    obtain ⟨n, h2, h3⟩ := hp
    simp only [Exec.ok.injEq, Prod.mk.injEq] at hr
    obtain ⟨rfl, rfl, rfl⟩ := hr
    exact ⟨n, by omega, rfl, h3⟩
  | split l mid rr b loc =>
    obtain ⟨n, h2, h3, h4⟩ := hp
    dsimp only at hr
    obtain ⟨_, _, hr⟩ := Exec.bind_eq_ok.1 hr
    cases hg : a1.request.1 with
    | false =>
      simp only [hg, Bool.false_eq_true, if_false, Exec.ok.injEq, Prod.mk.injEq] at hr
      obtain ⟨rfl, rfl, rfl⟩ := hr
      exact ⟨n + 1, by omega, rfl, h3.trans (Asked.no hg)⟩
    | true =>
      simp only [hg, if_true] at hr
      obtain ⟨top, h5, hr⟩ := Exec.bind_eq_ok.1 hr
      simp only [Exec.ok.injEq, Prod.mk.injEq] at hr
      obtain ⟨rfl, rfl, rfl⟩ := hr
      refine ⟨n + 1, by omega, rfl, h3.trans (Asked.yes hg), fun hs => ?_⟩
      simp only [Map.nodes, hs, Bool.false_eq_true, if_false]
      rw [pushInternal_nodes h5]
      simp only [nodesOf, List.map_cons, List.map_nil, List.sum_cons, List.sum_nil]
      omega

theorem ensureRoot_paid {m : Map K V} {a : Alloc} (hz : m.shared = true → m.height = 0) :
    ∃ n, n ≤ 1 ∧ (n = 0 ↔ m.shared = false) ∧ (m.ensureRootIsOwned a).2.1.height = m.height ∧
      match (m.ensureRootIsOwned a).1 with
      | .ok _ => (m.ensureRootIsOwned a).2.1.shared = false ∧ Asked a (m.ensureRootIsOwned a).2.2 n true ∧ (m.ensureRootIsOwned a).2.1.nodes = m.nodes + n
      | .error _ => Asked a (m.ensureRootIsOwned a).2.2 n false ∧ (m.ensureRootIsOwned a).2.1 = m := by
  unfold Map.ensureRootIsOwned
  cases hs : m.shared with
  | false => exact ⟨0, by omega, by simp, rfl, by simp [hs, Asked.refl]⟩
  | true =>
    cases hg : a.request.1 with
    | false => exact ⟨1, by omega, by simp, by simp [hg], by simp [hg]; exact Asked.no hg⟩
    | true => exact ⟨1, by omega, by simp, by simp [hg, hz hs], by simp [hg, Map.nodes, hs, nodesOf]; exact Asked.yes hg⟩

theorem modifyAt_nodes {β : Type} {f : (h : Nat) → Tree K V → Exec (Tree K V × β)} (hf : ∀ h t t' b, f h t = .ok (t', b) → nodesOf h t' = nodesOf h t) :
    ∀ {h : Nat} {t t' : Tree K V} {p : List Nat} {b : β}, modifyAt f h t p = .ok (t', b) → nodesOf h t' = nodesOf h t
  | h, t, t', [], b, hr => by
    unfold modifyAt at hr
    exact hf _ _ _ _ hr
  | 0, t, t', _ :: _, b, hr => by simp [modifyAt] at hr
  | h + 1, t, t', i :: p, b, hr => by
    unfold modifyAt at hr
    obtain ⟨c, hc, hr⟩ := Exec.bind_eq_ok.1 hr
    obtain ⟨⟨c', b'⟩, h1, hr⟩ := Exec.bind_eq_ok.1 hr
    obtain ⟨es, h2, hr⟩ := Exec.bind_eq_ok.1 hr
    simp only [Exec.ok.injEq, Prod.mk.injEq] at hr
    obtain ⟨rfl, rfl⟩ := hr
    have ih := modifyAt_nodes hf h1
    obtain ⟨A, B, hAB, rfl⟩ := getE_ok hc
    rw [hAB] at h2
    have := setE_ok h2
    subst this
    simp only [nodesOf, hAB, List.map_append, List.sum_append, List.map_cons, List.sum_cons, ih]

theorem replaceKv_nodes {h : Nat} {t t' : Tree K V} {p : List Nat} {idx : Nat} {kv old : K × V} (hr : replaceKv h t p idx kv = .ok (t', old)) :
    nodesOf h t' = nodesOf h t := by
  unfold replaceKv at hr
  refine modifyAt_nodes ?_ hr
  intro h t t' b hf
  obtain ⟨_, _, hf⟩ := Exec.bind_eq_ok.1 hf
  obtain ⟨_, _, hf⟩ := Exec.bind_eq_ok.1 hf
  simp only [Exec.ok.injEq, Prod.mk.injEq] at hf
  obtain ⟨rfl, rfl⟩ := hf
  cases h <;> rfl

/-- The same nodes, at the same height. -/
def Map.SameNodes (m' m : Map K V) : Prop := m'.nodes = m.nodes ∧ m'.height = m.height ∧ m'.shared = m.shared

theorem setVal_nodes {m m' : Map K V} {hd : Handle} {v old : V} (hr : m.setVal hd v = .ok (m', old)) : m'.SameNodes m := by
  unfold Map.setVal at hr
  obtain ⟨⟨k, _⟩, _, hr⟩ := Exec.bind_eq_ok.1 hr
  obtain ⟨⟨t, o⟩, h1, hr⟩ := Exec.bind_eq_ok.1 hr
  simp only [Exec.ok.injEq, Prod.mk.injEq] at hr
  obtain ⟨rfl, rfl⟩ := hr
  exact ⟨by simp only [Map.nodes, replaceKv_nodes h1], rfl, rfl⟩

theorem setKey_nodes {m m' : Map K V} {hd : Handle} {k old : K} (hr : m.setKey hd k = .ok (m', old)) : m'.SameNodes m := by
  unfold Map.setKey at hr
  obtain ⟨⟨_, v⟩, _, hr⟩ := Exec.bind_eq_ok.1 hr
  obtain ⟨⟨t, o⟩, h1, hr⟩ := Exec.bind_eq_ok.1 hr
  simp only [Exec.ok.injEq, Prod.mk.injEq] at hr
  obtain ⟨rfl, rfl⟩ := hr
  exact ⟨by simp only [Map.nodes, replaceKv_nodes h1], rfl, rfl⟩

theorem occUpdate_nodes {m m' : Map K V} {hd : Handle} {f : V → V} (hr : m.occUpdate hd f = .ok m') : m'.SameNodes m := by
  unfold Map.occUpdate at hr
  obtain ⟨kv, _, hr⟩ := Exec.bind_eq_ok.1 hr
  obtain ⟨⟨m1, o⟩, h1, hr⟩ := Exec.bind_eq_ok.1 hr
  simp only [Exec.ok.injEq] at hr
  subst hr
  exact setVal_nodes h1

/-- A call that made `n ≤ b` requests, all granted and each for a new node of the map, or failed at the last one. -/
def Paid (b : Nat) (m m' : Map K V) (a a' : Alloc) (good : Bool) : Prop :=
  ∃ n, n ≤ b ∧ Asked a a' n good ∧ (good = true → m'.nodes = m.nodes + n)

theorem tryEntry_paid [Ord K] {m m' : Map K V} {k : K} {a a' : Alloc} {r : Res (Entry K)} (hz : m.shared = true → m.height = 0)
    (hr : m.tryEntry k a = .ok (r, m', a')) :
    m'.height = m.height ∧ (r.isOk = true → m'.shared = false) ∧ (r.isOk = false → m' = m ∧ m.shared = true) ∧
      Paid (if m.shared then 1 else 0) m m' a a' r.isOk := by
  obtain ⟨n, h1, h2, h3, h4⟩ := ensureRoot_paid (m := m) (a := a) hz
  have h5 : n ≤ if m.shared then 1 else 0 := by
    split
    · exact h1
    · next hs => have := h2.2 (by simpa using hs); omega
  unfold Map.tryEntry at hr
  generalize m.ensureRootIsOwned a = x at *
  obtain ⟨r1, m1, a1⟩ := x
  dsimp only at h2 h3 h4 hr
  cases r1 with
  | error e =>
    simp only [Exec.ok.injEq, Prod.mk.injEq] at hr
    obtain ⟨rfl, rfl, rfl⟩ := hr
    refine ⟨h3, by simp [Except.isOk, Except.toBool], fun _ => ⟨h4.2, ?_⟩, n, h5, h4.1, by simp [Except.isOk, Except.toBool]⟩
    cases hs : m.shared with
    | true => rfl
    | false =>
      obtain ⟨j, e', _⟩ := h4.1.2
      have := h2.2 hs
      omega
  | ok u =>
    dsimp only at hr h4
    obtain ⟨sr, _, hr⟩ := Exec.bind_eq_ok.1 hr
    cases sr with
    | found hd =>
      simp only [Exec.ok.injEq, Prod.mk.injEq] at hr
      obtain ⟨rfl, rfl, rfl⟩ := hr
      exact ⟨h3, fun _ => h4.1, by simp [Except.isOk, Except.toBool], n, h5, h4.2.1, fun _ => h4.2.2⟩
    | goDown hd =>
      simp only [Exec.ok.injEq, Prod.mk.injEq] at hr
      obtain ⟨rfl, rfl, rfl⟩ := hr
      exact ⟨h3, fun _ => h4.1, by simp [Except.isOk, Except.toBool], n, h5, h4.2.1, fun _ => h4.2.2⟩

theorem Paid.trans {m m1 m2 : Map K V} {a a1 a2 : Alloc} {b c : Nat} {g : Bool} (h : Paid b m m1 a a1 true) (h' : Paid c m1 m2 a1 a2 g) :
    Paid (b + c) m m2 a a2 g := by
  obtain ⟨n, h1, h2, h3⟩ := h
  obtain ⟨k, h4, h5, h6⟩ := h'
  exact ⟨n + k, by omega, h2.trans h5, fun hg => by rw [h6 hg, h3 rfl]; omega⟩

theorem Paid.mono {m m1 : Map K V} {a a1 : Alloc} {b c : Nat} {g : Bool} (h : Paid b m m1 a a1 g) (hbc : b ≤ c) : Paid c m m1 a a1 g := by
  obtain ⟨n, h1, h2⟩ := h
  exact ⟨n, by omega, h2⟩

theorem Paid.same {m m1 m2 : Map K V} {a a1 : Alloc} {b : Nat} {g : Bool} (h : Paid b m m1 a a1 g) (hs : m2.SameNodes m1) : Paid b m m2 a a1 g := by
  obtain ⟨n, h1, h2, h3⟩ := h
  exact ⟨n, h1, h2, fun hg => by rw [hs.1]; exact h3 hg⟩

theorem vacantInsert_paid' {m m' : Map K V} {hd : Handle} {k : K} {v : V} {a a' : Alloc} {r : Res Handle} (hs : m.shared = false)
    (hr : m.vacantInsert hd k v a = .ok (r, m', a')) : Paid (m.height + 2) m m' a a' r.isOk := by
  obtain ⟨n, h1, _, h3⟩ := vacantInsert_paid hr
  cases r with
  | ok x => exact ⟨n, h1, h3.1, fun _ => h3.2 hs⟩
  | error e => exact ⟨n, h1, h3, by simp [Except.isOk, Except.toBool]⟩

theorem vacantInsert_empty {m m' : Map K V} {hd : Handle} {k : K} {v : V} {a a' : Alloc} {r : Res Handle} (hs : m.shared = false) (h0 : m.height = 0)
    (hl : m.root.len < CAPACITY) (hr : m.vacantInsert hd k v a = .ok (r, m', a')) : Paid 0 m m' a a' r.isOk := by
  unfold Map.vacantInsert at hr
  obtain ⟨⟨r1, a1⟩, h1, hr⟩ := Exec.bind_eq_ok.1 hr
  rw [h0] at h1
  have hp := insertRec_paid h1
  cases hu : hd.up.reverse with
  | cons x y => rw [hu] at h1; simp [insertRec] at h1
  | nil =>
    rw [hu] at h1
    simp only [insertRec, leafInsert, hl, if_true] at h1
    obtain ⟨t, _, h1⟩ := Exec.bind_eq_ok.1 h1
    simp only [Exec.ok.injEq, Prod.mk.injEq] at h1
    obtain ⟨rfl, rfl⟩ := h1
    simp only [Exec.ok.injEq, Prod.mk.injEq] at hr
    obtain ⟨rfl, rfl, rfl⟩ := hr
    exact ⟨0, Nat.le_refl _, Asked.refl _, fun _ => by simp [Map.nodes, hs, h0, nodesOf]⟩

theorem tryEntry_shared [Ord K] {m m' : Map K V} {k : K} {a a' : Alloc} {e : Entry K} (hs : m.shared = true)
    (hr : m.tryEntry k a = .ok (.ok e, m', a')) : m'.height = 0 ∧ m'.root = emptyLeaf := by
  unfold Map.tryEntry Map.ensureRootIsOwned at hr
  rw [if_pos hs] at hr
  cases hg : a.request.1 with
  | false => simp only [hg, Bool.false_eq_true, if_false, Exec.ok.injEq, Prod.mk.injEq] at hr; cases hr.1
  | true =>
    simp only [hg, if_true] at hr
    obtain ⟨sr, _, hr⟩ := Exec.bind_eq_ok.1 hr
    cases sr with
    | found hd =>
      simp only [Exec.ok.injEq, Prod.mk.injEq] at hr
      obtain ⟨_, rfl, _⟩ := hr
      exact ⟨rfl, rfl⟩
    | goDown hd =>
      simp only [Exec.ok.injEq, Prod.mk.injEq] at hr
      obtain ⟨_, rfl, _⟩ := hr
      exact ⟨rfl, rfl⟩

@[simp] theorem isOk_ok {α : Type} {x : α} : (Except.ok x : Res α).isOk = true := rfl
@[simp] theorem isOk_error {α : Type} {e : TryReserveError} : (Except.error e : Res α).isOk = false := rfl

/-- `try_entry` followed by the insertion of a vacant entry. -/
theorem entry_insert_paid [Ord K] {m m1 m2 : Map K V} {k k' : K} {v : V} {hd : Handle} {a a1 a2 : Alloc} {r : Res Handle}
    (hz : m.shared = true → m.height = 0) (h1 : m.tryEntry k a = .ok (.ok (.vacant k' hd), m1, a1)) (h2 : m1.vacantInsert hd k' v a1 = .ok (r, m2, a2)) :
    Paid m.growth m m2 a a2 r.isOk := by
  obtain ⟨e1, e2, _, e4⟩ := tryEntry_paid hz h1
  simp only [isOk_ok, true_implies] at e2 e4
  unfold Map.growth
  cases hs : m.shared with
  | true =>
    obtain ⟨f1, f2⟩ := tryEntry_shared hs h1
    simp only [hs, if_true] at e4 ⊢
    exact e4.trans (vacantInsert_empty e2 f1 (by rw [f2]; simp [emptyLeaf, Tree.len]) h2)
  | false =>
    simp only [hs, Bool.false_eq_true, if_false] at e4 ⊢
    have := e4.trans (vacantInsert_paid' e2 h2)
    rw [e1, Nat.zero_add] at this
    exact this

theorem growth_pos {m : Map K V} : (if m.shared then 1 else 0) ≤ m.growth := by unfold Map.growth; split <;> omega

theorem tryInsert_paid [Ord K] {m m' : Map K V} {k : K} {v : V} {a a' : Alloc} {r : Res (Option V)} (hz : m.shared = true → m.height = 0)
    (hr : m.tryInsert k v a = .ok (r, m', a')) : Paid m.growth m m' a a' r.isOk := by
  unfold Map.tryInsert at hr
  obtain ⟨⟨r1, m1, a1⟩, h1, hr⟩ := Exec.bind_eq_ok.1 hr
  obtain ⟨_, _, _, e4⟩ := tryEntry_paid hz h1
  dsimp only at hr
  cases r1 with
  | error e =>
    simp only [Exec.ok.injEq, Prod.mk.injEq] at hr
    obtain ⟨rfl, rfl, rfl⟩ := hr
    exact e4.mono growth_pos
  | ok e =>
    cases e with
    | occupied hd =>
      dsimp only at hr
      obtain ⟨⟨m2, old⟩, h2, hr⟩ := Exec.bind_eq_ok.1 hr
      simp only [Exec.ok.injEq, Prod.mk.injEq] at hr
      obtain ⟨rfl, rfl, rfl⟩ := hr
      exact (e4.same (setVal_nodes h2)).mono growth_pos
    | vacant k' hd =>
      dsimp only at hr
      obtain ⟨⟨r2, m2, a2⟩, h2, hr⟩ := Exec.bind_eq_ok.1 hr
      have := entry_insert_paid hz h1 h2
      cases r2 with
      | error e =>
        simp only [Exec.ok.injEq, Prod.mk.injEq] at hr
        obtain ⟨rfl, rfl, rfl⟩ := hr
        exact this
      | ok hd2 =>
        simp only [Exec.ok.injEq, Prod.mk.injEq] at hr
        obtain ⟨rfl, rfl, rfl⟩ := hr
        exact this

theorem replaceKey_paid [Ord K] {m m' : Map K V} {k : K} {v : V} {a a' : Alloc} {r : Res (Option K)} (hz : m.shared = true → m.height = 0)
    (hr : m.replaceKey k v a = .ok (r, m', a')) : Paid m.growth m m' a a' r.isOk := by
  unfold Map.replaceKey at hr
  dsimp only at hr
  cases h0 : (m.ensureRootIsOwned a).1 with
  | error e =>
    rw [h0] at hr
    simp only [Exec.ok.injEq, Prod.mk.injEq] at hr
    obtain ⟨rfl, rfl, rfl⟩ := hr
    have h1 : m.tryEntry k a = .ok (.error e, (m.ensureRootIsOwned a).2.1, (m.ensureRootIsOwned a).2.2) := by
      unfold Map.tryEntry
      rw [show m.ensureRootIsOwned a = (.error e, (m.ensureRootIsOwned a).2) by rw [← h0]]
    obtain ⟨_, _, _, e4⟩ := tryEntry_paid hz h1
    exact e4.mono growth_pos
  | ok u =>
    rw [h0] at hr
    dsimp only at hr
    obtain ⟨sr, hs, hr⟩ := Exec.bind_eq_ok.1 hr
    cases sr with
    | found hd =>
      dsimp only at hr
      have h1 : m.tryEntry k a = .ok (.ok (.occupied hd), (m.ensureRootIsOwned a).2.1, (m.ensureRootIsOwned a).2.2) := by
        unfold Map.tryEntry
        rw [show m.ensureRootIsOwned a = (.ok u, (m.ensureRootIsOwned a).2) by rw [← h0]]
        dsimp only
        rw [hs]
        rfl
      obtain ⟨_, _, _, e4⟩ := tryEntry_paid hz h1
      obtain ⟨p, h2, hr⟩ := Exec.bind_eq_ok.1 hr
      simp only [Exec.ok.injEq, Prod.mk.injEq] at hr
      obtain ⟨rfl, rfl, rfl⟩ := hr
      exact (e4.same (setKey_nodes h2)).mono growth_pos
    | goDown hd =>
      dsimp only at hr
      have h1 : m.tryEntry k a = .ok (.ok (.vacant k hd), (m.ensureRootIsOwned a).2.1, (m.ensureRootIsOwned a).2.2) := by
        unfold Map.tryEntry
        rw [show m.ensureRootIsOwned a = (.ok u, (m.ensureRootIsOwned a).2) by rw [← h0]]
        dsimp only
        rw [hs]
        rfl
      obtain ⟨_, _, _, e4⟩ := tryEntry_paid hz h1
      obtain ⟨p, h2, hr⟩ := Exec.bind_eq_ok.1 hr
      have := entry_insert_paid hz h1 h2
      obtain ⟨p1, p2, p3⟩ := p
      cases p1 with
      | error e =>
        simp only [Exec.ok.injEq, Prod.mk.injEq] at hr
        obtain ⟨rfl, rfl, rfl⟩ := hr
        exact this
      | ok hd2 =>
        simp only [Exec.ok.injEq, Prod.mk.injEq] at hr
        obtain ⟨rfl, rfl, rfl⟩ := hr
        exact this

theorem extend_paid [Ord K] : ∀ {l : List (K × V)} {m m' : Map K V} {a a' : Alloc}, m.WF → m.extend l a = .ok (m', a') →
    ∃ n, Asked a a' n true ∧ m'.nodes = m.nodes + n
  | [], m, m', a, a', _, hr => by
    simp only [Map.extend, Exec.ok.injEq, Prod.mk.injEq] at hr
    obtain ⟨rfl, rfl⟩ := hr
    exact ⟨0, Asked.refl a, rfl⟩
  | (k, v) :: l, m, m', a, a', hw, hr => by
    unfold Map.extend at hr
    obtain ⟨⟨r, m1, a1⟩, h1, hr⟩ := Exec.bind_eq_ok.1 hr
    obtain ⟨n, _, h2, h3⟩ := tryInsert_paid (fun h => (hw.shared h).1) h1
    cases r with
    | error e => cases hr
    | ok old =>
      obtain ⟨r2, m2, a2, g1, g2, _⟩ := Map.tryInsert_wf hw k v a
      obtain ⟨rfl, rfl, rfl⟩ := by simpa using Exec.ok_unique h1 g1
      obtain ⟨n', h4, h5⟩ := extend_paid g2.1 hr
      exact ⟨n + n', h2.trans h4, by rw [h5, h3 rfl]; omega⟩

theorem splitOff_asked [Ord Q] {m m' : Map K V} {bor : K → Q} {q : Q} {a a' : Alloc} {r : Res (Map K V)} (hr : m.splitOff bor q a = .ok (r, m', a')) :
    ∃ n, n ≤ m.height + 1 ∧ Asked a a' n r.isOk ∧ (m.len = 0 → n = 0) ∧ (m.len ≠ 0 → r.isOk = true → n = m.height + 1) := by
  unfold Map.splitOff at hr
  split at hr
  · next h =>
    simp only [Exec.ok.injEq, Prod.mk.injEq] at hr
    obtain ⟨rfl, rfl, rfl⟩ := hr
    exact ⟨0, by omega, Asked.refl a, fun _ => rfl, fun g => absurd (by simpa [Map.isEmpty] using h) g⟩
  · next h =>
    have hne : m.len ≠ 0 := by simpa [Map.isEmpty] using h
    obtain ⟨k, h1, h2, h3⟩ := requests_asked (n := m.height + 1) (a := a)
    generalize Alloc.requests (m.height + 1) a = x at *
    obtain ⟨g, a1⟩ := x
    dsimp only at hr h2 h3
    cases g with
    | false =>
      simp only [Bool.false_eq_true, if_false, Exec.ok.injEq, Prod.mk.injEq] at hr
      obtain ⟨rfl, rfl, rfl⟩ := hr
      exact ⟨k, h1, h3, fun g => absurd g hne, fun _ g => absurd g (by simp)⟩
    | true =>
      simp only [if_true] at hr
      obtain ⟨⟨l, r'⟩, _, hr⟩ := Exec.bind_eq_ok.1 hr
      obtain ⟨l1, _, hr⟩ := Exec.bind_eq_ok.1 hr
      obtain ⟨r1, _, hr⟩ := Exec.bind_eq_ok.1 hr
      split at hr
      all_goals
        obtain ⟨ll, _, hr⟩ := Exec.bind_eq_ok.1 hr
        obtain ⟨_, _, hr⟩ := Exec.bind_eq_ok.1 hr
        simp only [Exec.ok.injEq, Prod.mk.injEq] at hr
        obtain ⟨rfl, rfl, rfl⟩ := hr
        exact ⟨k, h1, h3, fun g => absurd g hne, fun _ _ => h2 rfl⟩

/-! ### cloning -/

/-- The clone loops: the requests made, when they return at all.  On success one per node; a failure is a refusal, or an element that could
not be cloned. -/
def ClonePaid {α : Type} (a a' : Alloc) (n0 : Nat) (r : Res α) (nodes : α → Nat) (b : Nat) : Prop :=
  match r with
  | .ok x => ∃ n, Asked a a' n true ∧ nodes x = n0 + n ∧ n ≤ b
  | .error _ => ∃ n g, Asked a a' n g ∧ n ≤ b

theorem cloneLeafLoop_quiet {ck : Cloner K} {cv : Cloner V} (hk : Quiet ck) (hv : Quiet cv) :
    ∀ {kvs : List (K × V)} {out : Tree K V} {a a' : Alloc} {r : Res (Tree K V)}, cloneLeafLoop ck cv kvs out a = .ok (r, a') → a' = a
  | [], out, a, a', r, hr => by
    simp only [cloneLeafLoop, Exec.ok.injEq, Prod.mk.injEq] at hr
    exact hr.2.symm
  | (k, v) :: kvs, out, a, a', r, hr => by
    unfold cloneLeafLoop at hr
    have h1 := hk k a
    generalize ck k a = x at hr h1
    obtain ⟨rk, ak⟩ := x
    dsimp only at h1
    subst h1
    cases rk with
    | error e =>
      simp only [Exec.ok.injEq, Prod.mk.injEq] at hr
      exact hr.2.symm
    | ok k' =>
      dsimp only at hr
      have h1 := hv v ak
      generalize cv v ak = x at hr h1
      obtain ⟨rv, av⟩ := x
      dsimp only at h1
      subst h1
      cases rv with
      | error e =>
        simp only [Exec.ok.injEq, Prod.mk.injEq] at hr
        exact hr.2.symm
      | ok v' =>
        dsimp only at hr
        obtain ⟨o, _, hr⟩ := Exec.bind_eq_ok.1 hr
        exact cloneLeafLoop_quiet hk hv hr

theorem cloneInternalLoop_paid {ck : Cloner K} {cv : Cloner V} (hk : Quiet ck) (hv : Quiet cv) {h : Nat}
    {rec : Tree K V → Alloc → Exec (Res (Tree K V × Nat) × Alloc)}
    (ih : ∀ t a r a', rec t a = .ok (r, a') → ClonePaid a a' 0 r (fun x => nodesOf h x.1) (nodesOf h t)) :
    ∀ {kvs : List (K × V)} {es : List (Tree K V)} {out : Tree K V} {len : Nat} {a a' : Alloc} {r : Res (Tree K V × Nat)},
    cloneInternalLoop ck cv rec kvs es out len a = .ok (r, a') →
      ClonePaid a a' (nodesOf (h + 1) out) r (fun x => nodesOf (h + 1) x.1) (es.map (nodesOf h)).sum
  | [], es, out, len, a, a', r, hr => by
    simp only [cloneInternalLoop, Exec.ok.injEq, Prod.mk.injEq] at hr
    obtain ⟨rfl, rfl⟩ := hr
    exact ⟨0, Asked.refl a, rfl, Nat.zero_le _⟩
  | _ :: _, [], out, len, a, a', r, hr => by simp [cloneInternalLoop] at hr
  | (k, v) :: kvs, e :: es, out, len, a, a', r, hr => by
    unfold cloneInternalLoop at hr
    have h1 := hk k a
    generalize ck k a = x at hr h1
    obtain ⟨rk, ak⟩ := x
    dsimp only at h1
    subst h1
    cases rk with
    | error e =>
      simp only [Exec.ok.injEq, Prod.mk.injEq] at hr
      obtain ⟨rfl, rfl⟩ := hr
      exact ⟨0, true, Asked.refl _, Nat.zero_le _⟩
    | ok k' =>
      dsimp only at hr
      have h1 := hv v ak
      generalize cv v ak = x at hr h1
      obtain ⟨rv, av⟩ := x
      dsimp only at h1
      subst h1
      cases rv with
      | error e =>
        simp only [Exec.ok.injEq, Prod.mk.injEq] at hr
        obtain ⟨rfl, rfl⟩ := hr
        exact ⟨0, true, Asked.refl _, Nat.zero_le _⟩
      | ok v' =>
        dsimp only at hr
        obtain ⟨⟨r1, a1⟩, h2, hr⟩ := Exec.bind_eq_ok.1 hr
        have h3 := ih _ _ _ _ h2
        simp only [List.map_cons, List.sum_cons]
        cases r1 with
        | error e =>
          simp only [Exec.ok.injEq, Prod.mk.injEq] at hr
          obtain ⟨rfl, rfl⟩ := hr
          obtain ⟨n, g, h4, h5⟩ := h3
          exact ⟨n, g, h4, by omega⟩
        | ok x =>
          obtain ⟨sub, sl⟩ := x
          obtain ⟨n, h4, h5, h6⟩ := h3
          dsimp only at hr h5
          obtain ⟨out', h7, hr⟩ := Exec.bind_eq_ok.1 hr
          have h8 := pushInternal_nodes (h := h) h7
          have h9 := cloneInternalLoop_paid hk hv ih hr
          cases r with
          | error e =>
            obtain ⟨n', g, g1, g2⟩ := h9
            exact ⟨n + n', g, h4.trans g1, by omega⟩
          | ok y =>
            obtain ⟨n', g1, g2, g3⟩ := h9
            dsimp only at g2
            exact ⟨n + n', h4.trans g1, by dsimp only; omega, by omega⟩

theorem cloneSubtree_paid {ck : Cloner K} {cv : Cloner V} (hk : Quiet ck) (hv : Quiet cv) :
    ∀ {h : Nat} {t : Tree K V} {a a' : Alloc} {r : Res (Tree K V × Nat)}, cloneSubtree ck cv h t a = .ok (r, a') →
      ClonePaid a a' 0 r (fun x => nodesOf h x.1) (nodesOf h t)
  | 0, t, a, a', r, hr => by
    unfold cloneSubtree at hr
    cases hg : a.request.1 with
    | false =>
      simp only [hg, Bool.false_eq_true, if_false, Exec.ok.injEq, Prod.mk.injEq] at hr
      obtain ⟨rfl, rfl⟩ := hr
      exact ⟨1, false, Asked.no hg, Nat.le_refl _⟩
    | true =>
      simp only [hg, if_true] at hr
      obtain ⟨⟨r1, a1⟩, h1, hr⟩ := Exec.bind_eq_ok.1 hr
      have := cloneLeafLoop_quiet hk hv h1
      subst this
      cases r1 with
      | error e =>
        simp only [Exec.ok.injEq, Prod.mk.injEq] at hr
        obtain ⟨rfl, rfl⟩ := hr
        exact ⟨1, true, Asked.yes hg, Nat.le_refl _⟩
      | ok x =>
        simp only [Exec.ok.injEq, Prod.mk.injEq] at hr
        obtain ⟨rfl, rfl⟩ := hr
        exact ⟨1, Asked.yes hg, rfl, Nat.le_refl _⟩
  | h + 1, t, a, a', r, hr => by
    unfold cloneSubtree at hr
    obtain ⟨c, hc, hr⟩ := Exec.bind_eq_ok.1 hr
    obtain ⟨⟨r1, a1⟩, h1, hr⟩ := Exec.bind_eq_ok.1 hr
    have ih := cloneSubtree_paid hk hv h1
    obtain ⟨A, B, hAB, hA⟩ := getE_ok hc
    obtain rfl : A = [] := List.eq_nil_of_length_eq_zero hA
    rw [List.nil_append] at hAB
    have hn : nodesOf (h + 1) t = 1 + (nodesOf h c + (B.map (nodesOf h)).sum) := by
      simp only [nodesOf, hAB, List.map_cons, List.sum_cons]
    cases r1 with
    | error e =>
      simp only [Exec.ok.injEq, Prod.mk.injEq] at hr
      obtain ⟨rfl, rfl⟩ := hr
      obtain ⟨n, g, h4, h5⟩ := ih
      exact ⟨n, g, h4, by omega⟩
    | ok x =>
      obtain ⟨first, len⟩ := x
      obtain ⟨n, h4, h5, h6⟩ := ih
      dsimp only at hr h5
      cases hg : a1.request.1 with
      | false =>
        simp only [hg, Bool.false_eq_true, if_false, Exec.ok.injEq, Prod.mk.injEq] at hr
        obtain ⟨rfl, rfl⟩ := hr
        exact ⟨n + 1, false, h4.trans (Asked.no hg), by omega⟩
      | true =>
        simp only [hg, if_true] at hr
        have h7 := cloneInternalLoop_paid hk hv (fun t a r a' e => cloneSubtree_paid hk hv e) hr
        rw [hAB, List.tail_cons] at h7
        have h8 : nodesOf (h + 1) (⟨[], [first]⟩ : Tree K V) = 1 + nodesOf h first := by
          simp [nodesOf]
        rw [h8] at h7
        have h9 := h4.trans (Asked.yes hg)
        cases r with
        | error e =>
          obtain ⟨n', g, g1, g2⟩ := h7
          exact ⟨n + 1 + n', g, h9.trans g1, by omega⟩
        | ok y =>
          obtain ⟨n', g1, g2, g3⟩ := h7
          dsimp only at g2
          exact ⟨n + 1 + n', h9.trans g1, by dsimp only; omega, by omega⟩

/-! ### building from a sorted sequence -/

theorem emptySpine_nodes : ∀ {h : Nat}, nodesOf h (emptySpine h : Tree K V) = h + 1
  | 0 => rfl
  | h + 1 => by simp [nodesOf, emptySpine, emptySpine_nodes (h := h)]; omega

theorem pushSorted_paid : ∀ {h : Nat} {t : Tree K V} {kv : K × V} {a a' : Alloc} {r : Option (Tree K V)}, pushSorted h t kv a = .ok (r, a') →
    match r with
    | some t' => ∃ n, Asked a a' n true ∧ nodesOf h t' = nodesOf h t + n
    | none => a' = a
  | 0, t, kv, a, a', r, hr => by
    unfold pushSorted at hr
    split at hr
    · obtain ⟨t', _, hr⟩ := Exec.bind_eq_ok.1 hr
      simp only [Exec.ok.injEq, Prod.mk.injEq] at hr
      obtain ⟨rfl, rfl⟩ := hr
      exact ⟨0, Asked.refl a, rfl⟩
    · simp only [Exec.ok.injEq, Prod.mk.injEq] at hr
      obtain ⟨rfl, rfl⟩ := hr
      rfl
  | h + 1, t, kv, a, a', r, hr => by
    unfold pushSorted at hr
    obtain ⟨c, hc, hr0⟩ := Exec.bind_eq_ok.1 hr
    clear hr
    obtain ⟨⟨r1, a1⟩, h1, hr⟩ := Exec.bind_eq_ok.1 hr0
    clear hr0
    have ih := pushSorted_paid h1
    cases r1 with
    | some c' =>
      obtain ⟨n, h2, h3⟩ := ih
      dsimp only at hr
      obtain ⟨es, he, hr⟩ := Exec.bind_eq_ok.1 hr
      simp only [Exec.ok.injEq, Prod.mk.injEq] at hr
      obtain ⟨rfl, rfl⟩ := hr
      obtain ⟨A, B, hAB, hA⟩ := getE_ok hc
      rw [hAB, ← hA] at he
      have := setE_ok he
      subst this
      refine ⟨n, h2, ?_⟩
      simp only [nodesOf, hAB, List.map_append, List.sum_append, List.map_cons, List.sum_cons]
      omega
    | none =>
      obtain rfl : a1 = a := ih
      dsimp only at hr
      split at hr
      · obtain ⟨k, g1, g2, g3⟩ := requests_asked (n := h + 1) (a := a1)
        generalize Alloc.requests (h + 1) a1 = x at *
        obtain ⟨g, a2⟩ := x
        dsimp only at hr g2 g3
        cases g with
        | false => simp at hr
        | true =>
          simp only [if_true] at hr
          obtain ⟨t', h4, hr⟩ := Exec.bind_eq_ok.1 hr
          simp only [Exec.ok.injEq, Prod.mk.injEq] at hr
          obtain ⟨rfl, rfl⟩ := hr
          refine ⟨k, g3, ?_⟩
          rw [pushInternal_nodes h4, emptySpine_nodes, g2 rfl]
      · simp only [Exec.ok.injEq, Prod.mk.injEq] at hr
        obtain ⟨rfl, rfl⟩ := hr
        rfl

theorem fromSortedLoop_paid : ∀ {l : List (K × V)} {t t' : Nat × Tree K V} {a a' : Alloc}, fromSortedLoop t l a = .ok (t', a') →
    ∃ n, Asked a a' n true ∧ nodesOf t'.1 t'.2 = nodesOf t.1 t.2 + n
  | [], t, t', a, a', hr => by
    simp only [fromSortedLoop, Exec.ok.injEq, Prod.mk.injEq] at hr
    obtain ⟨rfl, rfl⟩ := hr
    exact ⟨0, Asked.refl a, rfl⟩
  | kv :: l, t, t', a, a', hr => by
    unfold fromSortedLoop at hr
    obtain ⟨⟨r1, a1⟩, h1, hr0⟩ := Exec.bind_eq_ok.1 hr
    clear hr
    have hr := hr0
    clear hr0
    have h2 := pushSorted_paid h1
    cases r1 with
    | some t1 =>
      obtain ⟨n, h3, h4⟩ := h2
      obtain ⟨k, h5, h6⟩ := fromSortedLoop_paid hr
      exact ⟨n + k, h3.trans h5, by rw [h6]; dsimp only; omega⟩
    | none =>
      obtain rfl : a1 = a := h2
      dsimp only at hr
      cases hg : a1.request.1 with
      | false => simp [hg] at hr
      | true =>
        simp only [hg, if_true] at hr
        obtain ⟨k, g1, g2, g3⟩ := requests_asked (n := t.1 + 1) (a := a1.request.2)
        generalize Alloc.requests (t.1 + 1) a1.request.2 = x at *
        obtain ⟨g, a2⟩ := x
        dsimp only at hr g2 g3
        cases g with
        | false => simp at hr
        | true =>
          simp only [if_true] at hr
          obtain ⟨top, h4, hr⟩ := Exec.bind_eq_ok.1 hr
          obtain ⟨k', h5, h6⟩ := fromSortedLoop_paid hr
          refine ⟨1 + k + k', ((Asked.yes hg).trans g3).trans h5, ?_⟩
          rw [h6]
          dsimp only
          rw [pushInternal_nodes h4, emptySpine_nodes, g2 rfl]
          simp only [nodesOf, List.map_cons, List.map_nil, List.sum_cons, List.sum_nil]
          omega

theorem bulkStealLeft_nodes {h : Nat} {t t' : Tree K V} {i c : Nat} (hr : bulkStealLeft t i c = .ok t') : nodesOf (h + 1) t' = nodesOf (h + 1) t := by
  unfold bulkStealLeft at hr
  obtain ⟨l, hl, hr⟩ := Exec.bind_eq_ok.1 hr
  obtain ⟨r, hrr, hr⟩ := Exec.bind_eq_ok.1 hr
  obtain ⟨_, _, hr⟩ := Exec.bind_eq_ok.1 hr
  obtain ⟨_, _, hr⟩ := Exec.bind_eq_ok.1 hr
  obtain ⟨_, _, hr⟩ := Exec.bind_eq_ok.1 hr
  obtain ⟨pk, _, hr⟩ := Exec.bind_eq_ok.1 hr
  obtain ⟨up, _, hr⟩ := Exec.bind_eq_ok.1 hr
  obtain ⟨kvs, _, hr⟩ := Exec.bind_eq_ok.1 hr
  obtain ⟨e1, h1, hr⟩ := Exec.bind_eq_ok.1 hr
  obtain ⟨e2, h2, hr⟩ := Exec.bind_eq_ok.1 hr
  simp only [Exec.ok.injEq] at hr
  subst hr
  obtain ⟨A, B, hAB, rfl⟩ := getE_ok hl
  rw [hAB] at h1 hrr
  have := setE_ok h1
  subst this
  cases B with
  | nil => simp [getE] at hrr
  | cons b B =>
    have hb : b = r := by
      simp [getE] at hrr
      exact hrr
    subst hb
    have e3 : ∀ x y : Tree K V, ∀ es, setE (A ++ x :: b :: B) (A.length + 1) y = .ok es → es = A ++ x :: y :: B := by
      intro x y es he
      rw [show A ++ x :: b :: B = (A ++ [x]) ++ b :: B by simp, show A.length + 1 = (A ++ [x]).length by simp] at he
      rw [setE_ok he]; simp
    have := e3 _ _ _ h2
    subst this
    simp only [nodesOf, hAB, List.map_append, List.sum_append, List.map_cons, List.sum_cons]
    cases h with
    | zero => simp [nodesOf]
    | succ h =>
      have : (l.edges.map (nodesOf h)).sum = ((l.edges.take (l.len - c + 1) ++ l.edges.drop (l.len - c + 1)).map (nodesOf h)).sum := by rw [List.take_append_drop]
      rw [List.map_append, List.sum_append] at this
      simp only [nodesOf, List.map_append, List.sum_append]
      omega

theorem fixRightEdge_nodes : ∀ {h : Nat} {t t' : Tree K V}, fixRightEdge h t = .ok t' → nodesOf h t' = nodesOf h t
  | 0, t, t', hr => by
    simp only [fixRightEdge, Exec.ok.injEq] at hr
    subst hr; rfl
  | h + 1, t, t', hr => by
    unfold fixRightEdge at hr
    obtain ⟨r, _, hr⟩ := Exec.bind_eq_ok.1 hr
    obtain ⟨t1, h1, hr⟩ := Exec.bind_eq_ok.1 hr
    obtain ⟨c, hc, hr⟩ := Exec.bind_eq_ok.1 hr
    obtain ⟨c', h2, hr⟩ := Exec.bind_eq_ok.1 hr
    obtain ⟨es, he, hr⟩ := Exec.bind_eq_ok.1 hr
    simp only [Exec.ok.injEq] at hr
    subst hr
    have ih := fixRightEdge_nodes h2
    have e1 : nodesOf (h + 1) t1 = nodesOf (h + 1) t := by
      split at h1
      · split at h1
        · exact bulkStealLeft_nodes h1
        · cases h1
      · simp only [Exec.ok.injEq] at h1
        rw [h1]
    obtain ⟨A, B, hAB, hA⟩ := getE_ok hc
    rw [hAB, ← hA] at he
    have := setE_ok he
    subst this
    rw [← e1]
    simp only [nodesOf, hAB, List.map_append, List.sum_append, List.map_cons, List.sum_cons, ih]

theorem ofSorted_paid {l : List (K × V)} {m : Map K V} {a a' : Alloc} (hr : Map.ofSorted l a = .ok (m, a')) : Asked a a' m.nodes true := by
  unfold Map.ofSorted at hr
  obtain ⟨n, _, _, _, h4⟩ := ensureRoot_paid (m := (Map.new : Map K V)) (a := a) (fun _ => rfl)
  generalize (Map.new : Map K V).ensureRootIsOwned a = x at *
  obtain ⟨r1, m1, a1⟩ := x
  dsimp only at h4 hr
  cases r1 with
  | error e => simp at hr
  | ok u =>
    dsimp only at hr h4
    obtain ⟨⟨t, a2⟩, h5, hr⟩ := Exec.bind_eq_ok.1 hr
    obtain ⟨t', h6, hr⟩ := Exec.bind_eq_ok.1 hr
    simp only [Exec.ok.injEq, Prod.mk.injEq] at hr
    obtain ⟨rfl, rfl⟩ := hr
    obtain ⟨k, h7, h8⟩ := fromSortedLoop_paid h5
    obtain ⟨g1, g2, g3⟩ := h4
    have e : (⟨t.1, t', m1.shared, m1.length + l.length⟩ : Map K V).nodes = n + k := by
      have e0 : (Map.new : Map K V).nodes = 0 := rfl
      simp only [Map.nodes, g1, Bool.false_eq_true, if_false] at g3 ⊢
      rw [fixRightEdge_nodes h6, h8]
      simp only [Map.nodes] at e0
      dsimp only
      omega
    rw [e]
    exact g2.trans h7

/-! ### nodes and entries -/

theorem sum_footprint {h : Nat} : ∀ {X : List (Tree K V)},
    (∀ c ∈ X, 4 * nodesOf h c ≤ (toList h c).length ∧ (toList h c).length ≤ 11 * nodesOf h c) →
    4 * (X.map (nodesOf h)).sum ≤ ((X.map (toList h)).map List.length).sum ∧ ((X.map (toList h)).map List.length).sum ≤ 11 * (X.map (nodesOf h)).sum
  | [], _ => by simp
  | c :: X, hX => by
    have h1 := hX c (by simp)
    have h2 := sum_footprint (h := h) (X := X) fun c hc => hX c (by simp [hc])
    simp only [List.map_cons, List.sum_cons]
    omega

theorem Below.footprint : ∀ {h : Nat} {t : Tree K V}, Below h t →
    4 * nodesOf h t + t.len ≤ (toList h t).length + 4 ∧ (toList h t).length + 11 ≤ t.len + 11 * nodesOf h t
  | 0, t, _ => by simp [nodesOf, toList, Tree.len]; omega
  | h + 1, t, hb => by
    have h1 := sum_footprint (h := h) (X := t.edges) fun c hc => by
      have hi : Inner h c := hb.2 c hc
      have := Below.footprint hi.2.2
      have := hi.1
      have := hi.2.1
      omega
    rw [toList_succ, length_inter_ge (by simpa [Tree.len] using hb.1)]
    simp only [nodesOf, Tree.len] at *
    omega

theorem Map.Shaped.footprint {m : Map K V} {x : Nat} (h : m.Shaped x) : 4 * m.nodes ≤ m.toList.length + 4 ∧ m.toList.length ≤ 11 * m.nodes := by
  unfold Map.nodes
  cases hs : m.shared with
  | true =>
    obtain ⟨h1, h2⟩ := h.shared hs
    simp [Map.toList, h1, h2, toList, emptyLeaf]
  | false =>
    have := Below.footprint h.shape.2.2
    have h1 := h.shape.1
    simp only [Map.toList, Bool.false_eq_true, if_false]
    omega

end Verif.BTree
