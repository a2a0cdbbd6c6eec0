import Verif.Heap.AnyOrd
import Verif.SpecAny
import Verif.Heap.Proofs.CutPool
/-
Calls whose comparisons answer anything at all, in memory: the search ends at an entry or at a place between two entries, whatever the answers.
-/
namespace Verif.Heap
open Verif
open Verif.BTree (B MIN_LEN CAPACITY Tree Handle Map emptyLeaf KvAt EdgeAt BelowN InnerN)
open Verif.Spec (Bound End MutAct Op Out)

variable {K V Q α β : Type} {E : String → Prop}

theorem Cmps.Return.rest {c : Cmps Q} (h : c.Return) : c.rest.Return := fun n a b => h (n + 1) a b

/-- What a search among `n` keys may come to. -/
def Fit (lo n : Nat) (c : Cmps Q) (r : Option ((Nat × Bool) × Cmps Q)) : Prop :=
  match r with
  | none => ¬ c.Return
  | some ((i, b), c') => lo ≤ i ∧ i ≤ n ∧ (b = true → i < n) ∧ (c.Return → c'.Return)

theorem searchKeysO_spec {bor : K → Q} {q : Q} {a : Addr} {lay : Layout} {l : Link} {as : List Addr} :
    ∀ {C A : List (K × V)} (c : Cmps Q), A.length + C.length ≤ CAPACITY →
    Triple E (pts a (nd lay l (A ++ C) as)) (searchKeysO bor q a A.length C.length c)
      (fun r => fact (Fit A.length (A.length + C.length) c r) ∗ pts a (nd lay l (A ++ C) as))
  | [], A, c, _ => by
    show Triple E _ (pure _) _
    exact Triple.ofPure (Ent.putFact (by simp [Fit]) (Ent.refl _))
  | kv :: C, A, c, hc => by
    simp only [List.length_cons] at hc
    show Triple E _ (getNode a >>= _) _
    refine Triple.bindGet ?_
    refine Triple.bindLift (a := kv.1) ?_ ?_
    · show ((Slots.ofList (A ++ kv :: C)).map _).peek CAPACITY A.length = _
      exact Slots.peek_map (f := fun x : K × V => x.1) (Slots.peek_ofList (a := A) (b := C) (x := kv) rfl (by omega))
    cases hq : c 0 q (bor kv.1) with
    | none =>
      refine Triple.ofPure (Ent.putFact (fun h => ?_) (Ent.refl _))
      have := h 0 q (bor kv.1)
      rw [hq] at this
      cases this
    | some x =>
      cases x with
      | gt =>
        dsimp only
        have := searchKeysO_spec (bor := bor) (q := q) (a := a) (lay := lay) (l := l) (as := as) (C := C) (A := A ++ [kv]) c.rest
          (by simp only [List.length_append, List.length_cons, List.length_nil]; omega)
        simp only [List.length_append, List.length_cons, List.length_nil, Nat.zero_add, List.append_assoc, List.singleton_append] at this
        refine this.post fun r => Ent.getFact fun hr => Ent.putFact ?_ (Ent.refl _)
        match r, hr with
        | none, hr => exact fun h => hr h.rest
        | some ((i, b), c'), hr =>
          simp only [Fit, List.length_cons] at hr ⊢
          exact ⟨by omega, by omega, fun h => by have := hr.2.2.1 h; omega, fun h => hr.2.2.2 h.rest⟩
      | eq => exact Triple.ofPure (Ent.putFact ⟨by omega, by simp, fun _ => by simp, fun h => h.rest⟩ (Ent.refl _))
      | lt => exact Triple.ofPure (Ent.putFact ⟨by omega, by simp, fun h => by (cases h), fun h => h.rest⟩ (Ent.refl _))

theorem searchLinearO_spec {bor : K → Q} {q : Q} {a : Addr} {lay : Layout} {l : Link} {as : List Addr} {kvs : List (K × V)} (c : Cmps Q)
    (hc : kvs.length ≤ CAPACITY) :
    Triple E (pts a (nd lay l kvs as)) (searchLinearO bor q a c)
      (fun r => fact (Fit 0 kvs.length c r) ∗ pts a (nd lay l kvs as)) := by
  unfold searchLinearO
  refine Triple.bindLenEq kvs.length rfl ?_
  have := searchKeysO_spec (E := E) (bor := bor) (q := q) (a := a) (lay := lay) (l := l) (as := as) (A := []) (C := kvs) c (by simpa using hc)
  simpa using this

theorem searchLinearO_tree {bor : K → Q} {q : Q} {l : Link} {h : Nat} {t : ATree K V} (c : Cmps Q) :
    Triple E (tree l h t) (searchLinearO bor q t.addr c) (fun r => fact (Fit 0 t.kvs.length c r) ∗ tree l h t) := by
  refine Triple.pre ?_ tree_cap
  refine Triple.getFact fun hc => ?_
  unfold tree
  refine Triple.callLast (P₀ := pts t.addr (ATree.node l h t)) (searchLinearO_spec c hc) fun r => ?_
  exact Ent.of_eq (sep_assoc ..)

/-- What a search in a tree may come to. -/
def Reached (h : Nat) (t : ATree K V) (c : Cmps Q) (o : Option (Found × Cmps Q)) : Prop :=
  match o with
  | none => ¬ c.Return
  | some (.found hr, c') => (c.Return → c'.Return) ∧ ∃ hd A kv B, HandleAt h t hd hr ∧ KvAt h t.erase hd.up.reverse hd.idx A kv B
  | some (.goDown hr, c') => (c.Return → c'.Return) ∧ ∃ hd A B, HandleAt h t hd hr ∧ EdgeAt h t.erase hd.up.reverse hd.idx A B

theorem Reached.under {h : Nat} {a : Addr} {A0 C0 : List (K × V)} {X Y : List (ATree K V)} {t : ATree K V} {c c1 : Cmps Q} {o : Option (Found × Cmps Q)}
    (hr : Reached h t c1 o) (hc : c.Return → c1.Return) (hX : X.length = A0.length) (hY : Y.length = C0.length) :
    Reached (h + 1) ⟨a, A0 ++ C0, X ++ t :: Y⟩ c o := by
  match o, hr with
  | none, hr => exact fun h => hr (hc h)
  | some (.found hr', c'), hr =>
    obtain ⟨h1, hd, A, kv, B, h2, h3⟩ := hr
    refine ⟨fun h => h1 (hc h), hd.under X.length, BTree.preT h A0 (X.map ATree.erase) ++ A, kv, B ++ BTree.postT h C0 (Y.map ATree.erase), h2.under rfl, ?_⟩
    have := KvAt.child (h := h) A0 C0 (X.map ATree.erase) (Y.map ATree.erase) (by simpa using hX) (by simpa using hY) h3
    rw [ATree.erase_mk]
    simpa [Handle.under] using this
  | some (.goDown hr', c'), hr =>
    obtain ⟨h1, hd, A, B, h2, h3⟩ := hr
    refine ⟨fun h => h1 (hc h), hd.under X.length, BTree.preT h A0 (X.map ATree.erase) ++ A, B ++ BTree.postT h C0 (Y.map ATree.erase), h2.under rfl, ?_⟩
    have := EdgeAt.child (h := h) A0 C0 (X.map ATree.erase) (Y.map ATree.erase) (by simpa using hX) (by simpa using hY) h3
    rw [ATree.erase_mk]
    simpa [Handle.under] using this

theorem atree_split {es : List (ATree K V)} {kvs : List (K × V)} {i : Nat} (he : es.length = kvs.length + 1) (hi : i ≤ kvs.length) :
    ∃ A C X t Y, kvs = A ++ C ∧ es = X ++ t :: Y ∧ A.length = i ∧ X.length = A.length ∧ Y.length = C.length := by
  refine ⟨kvs.take i, kvs.drop i, es.take i, es[i]'(by omega), es.drop (i + 1), by simp, ?_, by simp; omega, by simp; omega, by simp; omega⟩
  simp

theorem searchTreeO_spec {bor : K → Q} {q : Q} : ∀ {h : Nat} {l : Link} {t : ATree K V} (c : Cmps Q),
    Triple E (tree l h t) (searchTreeO bor q h t.addr c) (fun o => fact (Reached h t c o) ∗ tree l h t)
  | 0, l, ⟨a, kvs, es⟩, c => by
    rw [tree_zero]
    refine Triple.getFact fun hf => ?_
    obtain ⟨he, hcap⟩ := hf
    dsimp only at he hcap
    subst he
    simp only [ATree.node, layOf, addrs, List.map_nil]
    show Triple E _ (searchLinearO bor q a c >>= _) _
    refine Triple.seq (searchLinearO_spec (lay := .leaf) (l := l) (as := []) c hcap) fun r => Triple.getFact fun hr => ?_
    match r, hr with
    | none, hr => exact Triple.ofPure (Ent.putFact hr (Ent.putFact ⟨trivial, hcap⟩ (Ent.refl _)))
    | some ((i, b), c'), hr =>
      obtain ⟨_, h1, h2, h3⟩ := hr
      refine Triple.ofPure (Ent.putFact ?_ (Ent.putFact ⟨trivial, hcap⟩ (Ent.refl _)))
      cases b with
      | false =>
        refine ⟨h3, ⟨[], i⟩, kvs.take i, kvs.drop i, HandleAt.nil, ?_⟩
        have := EdgeAt.leaf (kvs.take i) (kvs.drop i)
        rw [ATree.erase_mk]
        simpa [Nat.min_eq_left h1] using this
      | true =>
        have hlt := h2 rfl
        refine ⟨h3, ⟨[], i⟩, kvs.take i, kvs[i], kvs.drop (i + 1), HandleAt.nil, ?_⟩
        have := KvAt.leaf (kvs.take i) kvs[i] (kvs.drop (i + 1))
        rw [ATree.erase_mk]
        simpa [Nat.min_eq_left h1] using this
  | h + 1, l, ⟨a, kvs, es⟩, c => by
    rw [tree_internal]
    refine Triple.getFact fun hf => ?_
    obtain ⟨he, hcap⟩ := hf
    show Triple E _ (searchLinearO bor q a c >>= _) _
    refine Triple.call (P₀ := pts a (nd .internal l kvs (addrs es))) (searchLinearO_spec (lay := .internal) c hcap) fun r => ?_
    rw [sep_assoc]
    refine Triple.getFact fun hr => ?_
    match r, hr with
    | none, hr => exact Triple.ofPure (Ent.putFact hr (Ent.putFact ⟨he, hcap⟩ (Ent.refl _)))
    | some ((i, b), c'), hr =>
      obtain ⟨_, h1, h2, h3⟩ := hr
      cases b with
      | true =>
        simp only [if_true]
        refine Triple.ofPure (Ent.putFact ?_ (Ent.putFact ⟨he, hcap⟩ (Ent.refl _)))
        have hb : (⟨kvs, es.map ATree.erase⟩ : Tree K V).edges.length = (⟨kvs, es.map ATree.erase⟩ : Tree K V).len + 1 := by simpa [Tree.len] using he
        obtain ⟨A0, kv0, C0, X, tl, tr, Y, e, hA, hX, hY⟩ := BTree.split_kv hb (by simpa [Tree.len] using h2 rfl)
        refine ⟨h3, ⟨[], i⟩, BTree.preT h A0 X ++ BTree.toList h tl, kv0, BTree.toList h tr ++ BTree.postT h C0 Y, HandleAt.nil, ?_⟩
        have hk := KvAt.node (h := h) A0 kv0 C0 X tl tr Y (by omega) hY
        rw [ATree.erase_mk, e, ← hA]
        exact hk
      | false =>
        simp only [Bool.false_eq_true, if_false]
        obtain ⟨A0, C0, X, t, Y, rfl, rfl, hA, hX, hY⟩ := atree_split he h1
        have hXi : X.length = i := by omega
        refine Triple.bindDescend (c := t.addr) (by subst hXi; simp) (by len_omega) ?_
        have e2 := tree_internal' l h a (A0 ++ C0) X Y t
        rw [tree_internal] at e2
        refine Triple.callLast (P₀ := tree (some a, some X.length) h t) (R := fact (X.length + Y.length + 1 = (A0 ++ C0).length + 1 ∧ (A0 ++ C0).length ≤ CAPACITY) ∗
            pts a (nd .internal l (A0 ++ C0) (addrs X ++ t.addr :: addrs Y)) ∗ kids h a 0 X ∗ kids h a (X.length + 1) Y) (h := ⟨?_⟩) (searchTreeO_spec c') fun o => ?_
        · rw [kids_append, kids_cons, Nat.zero_add]
          rw [fact_of (show X.length + Y.length + 1 = (A0 ++ C0).length + 1 ∧ (A0 ++ C0).length ≤ CAPACITY from ⟨by simp; omega, hcap⟩), emp_sep]
          simp only [addrs, List.map_append, List.map_cons]
          ac_rfl
        · simp only [sep_assoc]
          refine Ent.getFact fun hfo => ?_
          refine Ent.putFact (hfo.under (a := a) h3 hX hY) ?_
          refine Ent.getFact fun hf2 => ?_
          rw [kids_append, kids_cons, Nat.zero_add]
          refine Ent.putFact ⟨by simp only [List.length_append, List.length_cons]; simp at hf2; omega, hcap⟩ ?_
          simp only [addrs, List.map_append, List.map_cons]
          ent_ac

/-- What a search in a map may come to. -/
def Reaches (M : Map K V) (ta : ATree K V) (c : Cmps Q) (o : Option (Found × Cmps Q)) : Prop :=
  match o with
  | none => ¬ c.Return
  | some (.found hr, c') => (c.Return → c'.Return) ∧ M.shared = false ∧ ∃ hd A kv B, HandleAt M.height ta hd hr ∧ M.Points hd A kv B
  | some (.goDown hr, c') => (c.Return → c'.Return) ∧ ∃ hd A B, HandleAt M.height ta hd hr ∧ M.Gap hd A B

theorem searchO_spec {bor : K → Q} {q : Q} {hm : HMap} {M : Map K V} {ta : ATree K V} (c : Cmps Q) :
    Triple E (own hm M ta) (hm.searchO bor q c) (fun o => fact (Reaches M ta c o) ∗ own hm M ta) := by
  obtain ⟨H, root, shared, len⟩ := M
  cases shared with
  | false =>
    rw [own_owned rfl]
    refine Triple.ofHex fun pi => ?_
    refine Triple.getFact fun hf => ?_
    obtain ⟨rfl, rfl⟩ := hf
    refine (searchTreeO_spec c).post fun o => ?_
    refine Ent.getFact fun hf => ?_
    refine Ent.putFact ?_ (Ent.hex_right pi (Ent.putFact ⟨rfl, rfl⟩ (Ent.refl _)))
    match o, hf with
    | none, hf => exact hf
    | some (.found hr, c'), hf => exact ⟨hf.1, rfl, hf.2⟩
    | some (.goDown hr, c'), hf => exact hf
  | true =>
    rw [own_shared rfl]
    refine Triple.getFact fun hf => ?_
    obtain ⟨rfl, rfl, rfl, rfl⟩ := hf
    show Triple E emp (pure (some (Found.goDown ⟨0, SHARED, 0⟩, c))) _
    refine Triple.ofPure ?_
    refine Ent.putFact ⟨id, ⟨[], 0⟩, [], [], HandleAt.nil, ?_⟩ (Ent.putFact ⟨rfl, rfl, rfl, rfl⟩ (Ent.refl _))
    exact EdgeAt.leaf [] []

end Verif.Heap
