import Verif.Heap.CloneLedger
import Verif.BTree.Copies
import Verif.Heap.Proofs.CloneMap
/-
`try_clone` in memory with its ledger: every clone made is in the copy, or if the call fails has been dropped again.
-/
namespace Verif.Heap
open Verif Verif.Spec
open Verif.BTree (B MIN_LEN CAPACITY Tree Handle Map emptyLeaf emptySpine Cloner PairClone IsClone)

variable {K V Q α β : Type} {E : String → Prop}

/-- The lone key left by a pair that was not cloned. -/
def loneOf (ck : Cloner K) (cv : Cloner V) (kv : K × V) (a : Alloc) : List K :=
  match ck kv.1 a with
  | (.error _, _) => []
  | (.ok k, a) =>
    match cv kv.2 a with
    | (.error _, _) => [k]
    | (.ok _, _) => []

theorem Triple.cloneKvL' {ck : Cloner K} {cv : Cloner V} {kv : K × V} {al : Alloc} :
    Triple E (sched al) (cloneKvL ck cv kv) (fun r => fact (r = ((kvClone ck cv kv al).1, loneOf ck cv kv al)) ∗ sched (kvClone ck cv kv al).2) := by
  unfold cloneKvL
  refine Triple.callEq (P₀ := sched al) Triple.cloneElem' ?_
  simp only [sep_emp, kvClone, loneOf]
  rcases ck kv.1 al with ⟨rk, a1⟩
  cases rk with
  | error e => exact Triple.ofPure (Ent.putFact rfl (Ent.refl _))
  | ok k =>
    dsimp only
    refine Triple.callEq (P₀ := sched a1) Triple.cloneElem' ?_
    simp only [sep_emp]
    rcases cv kv.2 a1 with ⟨rv, a2⟩
    cases rv with
    | error e => exact Triple.ofPure (Ent.putFact rfl (Ent.refl _))
    | ok v => exact Triple.ofPure (Ent.putFact rfl (Ent.refl _))

theorem kvClone_pair {ck : Cloner K} {cv : Cloner V} {kv kv' : K × V} {a a' : Alloc} (h : kvClone ck cv kv a = (.ok kv', a')) : PairClone ck cv kv kv' := by
  revert h
  simp only [kvClone]
  cases hk : ck kv.1 a with
  | mk rk a1 =>
  cases rk with
  | error e => intro h; simp at h
  | ok k =>
    dsimp only
    cases hv : cv kv.2 a1 with
    | mk rv a2 =>
    cases rv with
    | error e => intro h; simp at h
    | ok v =>
      intro h
      simp only [Prod.mk.injEq, Except.ok.injEq] at h
      obtain ⟨rfl, rfl⟩ := h
      exact ⟨⟨_, _, hk⟩, ⟨_, _, hv⟩⟩

theorem kvClone_cut {ck : Cloner K} {cv : Cloner V} {kv : K × V} {a a' : Alloc} {e : TryReserveError} (h : kvClone ck cv kv a = (.error e, a'))
    {S D rest made : List (K × V)} (hS : S = D ++ kv :: rest) (hD : All2 (PairClone ck cv) D made) : CutShort ck cv e S made (loneOf ck cv kv a) := by
  refine ⟨D, kv :: rest, hS, hD, ?_⟩
  revert h
  simp only [kvClone, loneOf]
  cases hk : ck kv.1 a with
  | mk rk a1 =>
  cases rk with
  | error e =>
    intro h
    simp only [Prod.mk.injEq, Except.error.injEq] at h
    obtain ⟨rfl, rfl⟩ := h
    exact .inl ⟨kv, rest, _, _, rfl, hk, rfl⟩
  | ok k =>
    dsimp only
    cases hv : cv kv.2 a1 with
    | mk rv a2 =>
    cases rv with
    | error e =>
      intro h
      simp only [Prod.mk.injEq, Except.error.injEq] at h
      obtain ⟨rfl, rfl⟩ := h
      exact .inr (.inl ⟨kv, rest, k, _, _, _, rfl, hk, hv, rfl⟩)
    | ok v => intro h; simp at h

theorem cutShort_more {ck : Cloner K} {cv : Cloner V} {e : TryReserveError} {post rest : List (K × V)} {lone : List K}
    (h : (∃ x rest a a', post = x :: rest ∧ ck x.1 a = (.error e, a') ∧ lone = []) ∨
      (∃ x rest k a a₁ a₂, post = x :: rest ∧ ck x.1 a = (.ok k, a₁) ∧ cv x.2 a₁ = (.error e, a₂) ∧ lone = [k]) ∨ (e = .allocError ∧ lone = [])) :
    (∃ x r a a', post ++ rest = x :: r ∧ ck x.1 a = (.error e, a') ∧ lone = []) ∨
      (∃ x r k a a₁ a₂, post ++ rest = x :: r ∧ ck x.1 a = (.ok k, a₁) ∧ cv x.2 a₁ = (.error e, a₂) ∧ lone = [k]) ∨ (e = .allocError ∧ lone = []) := by
  rcases h with ⟨x, r, a, a', rfl, h⟩ | ⟨x, r, k, a, a1, a2, rfl, h⟩ | h
  · exact .inl ⟨x, r ++ rest, a, a', rfl, h⟩
  · exact .inr (.inl ⟨x, r ++ rest, k, a, a1, a2, rfl, h⟩)
  · exact .inr (.inr h)

/-- A clone that failed in a subtree, seen from the whole. -/
theorem _root_.Verif.Spec.CutShort.under {ck : Cloner K} {cv : Cloner V} {e : TryReserveError} {S D rest C made sub : List (K × V)} {kv kv' : K × V} {lone : List K}
    (hS : S = D ++ kv :: (C ++ rest)) (hD : All2 (PairClone ck cv) D made) (hk : PairClone ck cv kv kv') (h : CutShort ck cv e C sub lone) :
    CutShort ck cv e S (made ++ kv' :: sub) lone := by
  obtain ⟨pre, post, rfl, h2, h3⟩ := h
  exact ⟨D ++ kv :: pre, post ++ rest, by rw [hS]; simp, hD.append ⟨hk, h2⟩, cutShort_more h3⟩

theorem _root_.Verif.Spec.CutShort.first {ck : Cloner K} {cv : Cloner V} {e : TryReserveError} {S rest C sub : List (K × V)} {lone : List K}
    (hS : S = C ++ rest) (h : CutShort ck cv e C sub lone) : CutShort ck cv e S sub lone := by
  obtain ⟨pre, post, rfl, h2, h3⟩ := h
  exact ⟨pre, post ++ rest, by rw [hS]; simp, h2, cutShort_more h3⟩

/-! ### the loops -/

/-- State of the ledger loops. -/
abbrev LSt (K V : Type) := (Nat × Nat × List (K × V)) ⊕ (Option TryReserveError × Nat × Ledger K V)

/-- What the copying loops leave: a tree with its length, and whether an error ended them. -/
def LoopPostL (ck : Cloner K) (cv : Cloner V) (S : List (K × V)) (r : NRef) (h : Nat) (res : Res (Tree K V × Nat)) (o : LSt K V) : HProp K V :=
  match res with
  | .ok (T, n) => fact (o = .inr (none, n, ⟨BTree.toList h T, [], []⟩) ∧ n = (BTree.toList h T).length ∧ All2 (PairClone ck cv) S (BTree.toList h T)) ∗ rooted r h T
  | .error e => hex fun x : Tree K V × Nat × Ledger K V => fact (o = .inr (some e, x.2.1, x.2.2) ∧ x.2.1 = (BTree.toList h x.1).length ∧
      CutShort ck cv e S x.2.2.made x.2.2.lone ∧ (x.2.2.dropped ++ BTree.toList h x.1).Perm x.2.2.made) ∗ rooted r h x.1

theorem loopPostL_ok {ck : Cloner K} {cv : Cloner V} {S : List (K × V)} {r : NRef} {h n : Nat} {T : Tree K V} {o : LSt K V} :
    LoopPostL ck cv S r h (.ok (T, n)) o =
      (fact (o = .inr (none, n, ⟨BTree.toList h T, [], []⟩) ∧ n = (BTree.toList h T).length ∧ All2 (PairClone ck cv) S (BTree.toList h T)) ∗ rooted r h T) := rfl

theorem loopPostL_error {ck : Cloner K} {cv : Cloner V} {S : List (K × V)} {r : NRef} {h : Nat} {e : TryReserveError} {o : LSt K V} :
    LoopPostL ck cv S r h (.error e : Res (Tree K V × Nat)) o =
      hex fun x : Tree K V × Nat × Ledger K V => fact (o = .inr (some e, x.2.1, x.2.2) ∧ x.2.1 = (BTree.toList h x.1).length ∧
        CutShort ck cv e S x.2.2.made x.2.2.lone ∧ (x.2.2.dropped ++ BTree.toList h x.1).Perm x.2.2.made) ∗ rooted r h x.1 := rfl

theorem cloneLeafLoopL_ref {ck : Cloner K} {cv : Cloner V} {l : Link} {t : ATree K V} {r : NRef} :
    ∀ (cs done : List (K × V)) (T : Tree K V) (al al' : Alloc) (fuel : Nat) (res : Res (Tree K V)), t.kvs = done ++ cs → cs.length < fuel →
      All2 (PairClone ck cv) done T.kvs → BTree.cloneLeafLoop ck cv cs T al = .ok (res, al') →
      Triple E (tree l 0 t ∗ rooted r 0 T ∗ sched al) (loopN (cloneLeafStepL ck cv t.addr r.node) fuel (done.length, T.kvs.length, T.kvs))
        (fun o => tree l 0 t ∗ sched al' ∗ LoopPostL ck cv t.kvs r 0 (res.map fun T => (T, T.kvs.length)) o)
  | _, _, _, _, _, 0, _, _, hf, _, _ => by simp at hf
  | [], done, T, al, al', fuel + 1, res, ht, hf, hd, hx => by
    simp only [BTree.cloneLeafLoop, Exec.ok.injEq, Prod.mk.injEq] at hx
    obtain ⟨rfl, rfl⟩ := hx
    rw [loopN_succ]
    unfold cloneLeafStepL
    dsimp only
    refine Triple.assoc ?_
    refine Triple.callEq (P₀ := tree l 0 t) lenOf_tree ?_
    rw [if_neg (by rw [ht]; simp)]
    show Triple E _ (pure _) _
    refine Triple.ofPure ?_
    rw [show (Except.map (fun T : Tree K V => (T, T.kvs.length)) (.ok T) : Res (Tree K V × Nat)) = .ok (T, T.kvs.length) from rfl, loopPostL_ok]
    refine Ent.putFact ⟨rfl, rfl, by rw [ht, List.append_nil]; exact hd⟩ ?_
    ent_ac
  | kv :: cs, done, T, al, al', fuel + 1, res, ht, hf, hd, hx => by
    rw [loopN_succ]
    unfold cloneLeafStepL
    dsimp only
    refine Triple.assoc ?_
    refine Triple.callEq (P₀ := tree l 0 t) lenOf_tree ?_
    rw [if_pos (by rw [ht]; simp)]
    refine Triple.assoc ?_
    refine Triple.callEq (P₀ := tree l 0 t) (kvOf_node (by rw [ht]; exact getE_mid rfl)) ?_
    refine Triple.assoc ?_
    refine Triple.callEq (P₀ := tree l 0 t) (newEdge_tree (by rw [ht]; simp)) ?_
    refine Triple.assoc ?_
    refine Triple.callEq (P₀ := sched al) Triple.cloneKvL' ?_
    cases hc : kvClone ck cv kv al with
    | mk rr a1 =>
    cases rr with
    | error e =>
      rw [cloneLeafLoop_err hc] at hx
      simp only [Exec.ok.injEq, Prod.mk.injEq] at hx
      obtain ⟨rfl, rfl⟩ := hx
      show Triple E _ (pure _) _
      refine Triple.ofPure ?_
      rw [show (Except.map (fun T : Tree K V => (T, T.kvs.length)) (.error e) : Res (Tree K V × Nat)) = .error e from rfl, loopPostL_error]
      simp only [sep_hex]
      refine Ent.hex_right (T, T.kvs.length, ⟨T.kvs, loneOf ck cv kv al, []⟩) ?_
      refine Ent.putFact ⟨rfl, rfl, kvClone_cut hc ht hd, List.Perm.refl _⟩ ?_
      ent_ac
    | ok kv' =>
      rw [cloneLeafLoop_ok hc] at hx
      obtain ⟨T', hp, hx⟩ := Exec.bind_eq_ok.1 hx
      refine Triple.assoc ?_
      refine Triple.call (P₀ := rooted r 0 T) (pushLeaf_rooted hp) fun _ => ?_
      have e0 : T'.kvs = T.kvs ++ [kv'] := by
        simp only [BTree.Tree.pushLeaf] at hp
        obtain ⟨_, hq, hp⟩ := Exec.bind_eq_ok.1 hp
        simp only [Exec.ok.injEq] at hp
        rw [← hp]
      have e : T'.kvs.length = T.kvs.length + 1 := by rw [e0]; simp
      show Triple E _ (loopN _ fuel (done.length + 1, T.kvs.length + 1, T.kvs ++ [kv'])) _
      rw [← e, ← e0, show done.length + 1 = (done ++ [kv]).length by simp]
      refine Triple.pre (P := tree l 0 t ∗ rooted r 0 T' ∗ sched a1) ?_ (by ent_ac)
      exact cloneLeafLoopL_ref cs (done ++ [kv]) T' a1 al' fuel res (by rw [ht]; simp) (by simpa using hf)
        (by rw [e0]; exact hd.append ⟨kvClone_pair hc, trivial⟩) hx

/-- What `clone_subtree` leaves: a new tree with its length, or nothing. -/
def ClonePostL (ck : Cloner K) (cv : Cloner V) (S : List (K × V)) (h : Nat) (res : Res (Tree K V × Nat)) (o : Res HMap × Ledger K V) : HProp K V :=
  match res with
  | .ok (T, n) => hex fun r : NRef => fact (o = (.ok ⟨r, n⟩, ⟨BTree.toList h T, [], []⟩) ∧ n = (BTree.toList h T).length ∧
      All2 (PairClone ck cv) S (BTree.toList h T)) ∗ rooted r h T
  | .error e => fact (o.1 = .error e ∧ CutShort ck cv e S o.2.made o.2.lone ∧ o.2.dropped.Perm o.2.made)

theorem clonePostL_ok {ck : Cloner K} {cv : Cloner V} {S : List (K × V)} {h n : Nat} {T : Tree K V} {o : Res HMap × Ledger K V} :
    ClonePostL ck cv S h (.ok (T, n)) o = hex fun r : NRef => fact (o = (.ok ⟨r, n⟩, ⟨BTree.toList h T, [], []⟩) ∧ n = (BTree.toList h T).length ∧
      All2 (PairClone ck cv) S (BTree.toList h T)) ∗ rooted r h T := rfl

theorem clonePostL_error {ck : Cloner K} {cv : Cloner V} {S : List (K × V)} {h : Nat} {e : TryReserveError} {o : Res HMap × Ledger K V} :
    (ClonePostL ck cv S h (.error e) o : HProp K V) = fact (o.1 = .error e ∧ CutShort ck cv e S o.2.made o.2.lone ∧ o.2.dropped.Perm o.2.made) := rfl

theorem pushInternal_toList {h : Nat} {T T' S : Tree K V} {kv : K × V} (hx : T.pushInternal kv S = .ok T') (hs : T.edges.length = T.kvs.length + 1) :
    BTree.toList (h + 1) T' = BTree.toList (h + 1) T ++ kv :: BTree.toList h S := by
  simp only [BTree.Tree.pushInternal] at hx
  obtain ⟨_, hq, hx⟩ := Exec.bind_eq_ok.1 hx
  simp only [Exec.ok.injEq] at hx
  subst hx
  rw [BTree.toList_succ, BTree.toList_succ]
  dsimp only
  rw [List.map_append]
  rcases BTree.inter_append (A := T.kvs) (C := []) (X := T.edges.map (BTree.toList h)) (Y := [S].map (BTree.toList h)) kv (by simpa using hs) with e | e
  · rw [e]
    simp [BTree.inter]
  · simp at e

/-- The entries of a node up to a child. -/
theorem toList_upto {h : Nat} {A C : List (K × V)} {X Y : List (Tree K V)} {c : Tree K V} {kv : K × V} (hX : X.length = A.length + 1) :
    ∃ rest, BTree.toList (h + 1) (⟨A ++ kv :: C, X ++ c :: Y⟩ : Tree K V) = BTree.toList (h + 1) (⟨A, X⟩ : Tree K V) ++ kv :: (BTree.toList h c ++ rest) := by
  rw [BTree.toList_succ, BTree.toList_succ]
  dsimp only
  rw [List.map_append, List.map_cons]
  rcases BTree.inter_append (A := A) (C := C) (X := X.map (BTree.toList h)) (Y := BTree.toList h c :: Y.map (BTree.toList h)) kv (by simpa using hX) with e | e
  · refine ⟨BTree.post C (Y.map (BTree.toList h)), ?_⟩
    rw [e]
    have := BTree.inter_split (A := []) (C := C) (X := []) (Y := Y.map (BTree.toList h)) (BTree.toList h c) rfl
    simp only [List.nil_append, BTree.pre] at this
    rw [show BTree.inter C (BTree.toList h c :: Y.map (BTree.toList h)) = BTree.toList h c ++ BTree.post C (Y.map (BTree.toList h)) from this]
  · simp at e

theorem toList_first {h : Nat} {C : List (K × V)} {Y : List (Tree K V)} {c : Tree K V} :
    ∃ rest, BTree.toList (h + 1) (⟨C, c :: Y⟩ : Tree K V) = BTree.toList h c ++ rest := by
  rw [BTree.toList_succ]
  dsimp only
  rw [List.map_cons]
  have := BTree.inter_split (A := []) (C := C) (X := []) (Y := Y.map (BTree.toList h)) (BTree.toList h c) rfl
  simp only [List.nil_append, BTree.pre] at this
  exact ⟨_, this⟩

theorem cloneInternalLoopL_ref {ck : Cloner K} {cv : Cloner V} {l : Link} {h : Nat} {t : ATree K V} {r : NRef}
    (hrec : ∀ {l : Link} {c : ATree K V} {al al' : Alloc} {res : Res (Tree K V × Nat)}, BTree.cloneSubtree ck cv h c.erase al = .ok (res, al') →
      Triple E (tree l h c ∗ sched al) (cloneSubtreeL ck cv h c.addr) (fun o => tree l h c ∗ sched al' ∗ ClonePostL ck cv (BTree.toList h c.erase) h res o)) :
    ∀ (cs done : List (K × V)) (es X : List (ATree K V)) (T : Tree K V) (n : Nat) (al al' : Alloc) (fuel : Nat) (res : Res (Tree K V × Nat)),
      t.kvs = done ++ cs → t.edges = X ++ es → X.length = done.length + 1 → es.length = cs.length → cs.length < fuel →
      n = (BTree.toList (h + 1) T).length →
      All2 (PairClone ck cv) (BTree.toList (h + 1) (⟨done, X.map ATree.erase⟩ : Tree K V)) (BTree.toList (h + 1) T) →
      BTree.cloneInternalLoop ck cv (fun e a => BTree.cloneSubtree ck cv h e a) cs (es.map ATree.erase) T n al = .ok (res, al') →
      Triple E (tree l (h + 1) t ∗ rooted r (h + 1) T ∗ sched al)
        (loopN (cloneInternalStepL ck cv (cloneSubtreeL ck cv h) ⟨h + 1, t.addr⟩ r) fuel (done.length, n, BTree.toList (h + 1) T))
        (fun o => tree l (h + 1) t ∗ sched al' ∗ LoopPostL ck cv (BTree.toList (h + 1) t.erase) r (h + 1) res o)
  | _, _, _, _, _, _, _, _, 0, _, _, _, _, _, hf, _, _, _ => by simp at hf
  | [], done, es, X, T, n, al, al', fuel + 1, res, ht, he, hX, hl, hf, hn, hd, hx => by
    simp only [BTree.cloneInternalLoop, Exec.ok.injEq, Prod.mk.injEq] at hx
    obtain ⟨rfl, rfl⟩ := hx
    obtain rfl : es = [] := List.eq_nil_of_length_eq_zero (by simpa using hl)
    rw [List.append_nil] at ht he
    rw [loopN_succ]
    unfold cloneInternalStepL
    dsimp only
    refine Triple.assoc ?_
    refine Triple.callEq (P₀ := tree l (h + 1) t) lenOf_tree ?_
    rw [if_neg (by rw [ht]; simp)]
    show Triple E _ (pure _) _
    refine Triple.ofPure ?_
    rw [loopPostL_ok]
    have hall : All2 (PairClone ck cv) (BTree.toList (h + 1) t.erase) (BTree.toList (h + 1) T) := by
      obtain ⟨a, kvs, es⟩ := t
      dsimp only at ht he
      rw [ATree.erase_mk, ht, he]
      exact hd
    refine Ent.putFact ⟨rfl, hn, hall⟩ ?_
    ent_ac
  | kv :: cs, done, [], X, T, n, al, al', fuel + 1, res, ht, he, hX, hl, hf, hn, hd, hx => by simp at hl
  | kv :: cs, done, c :: es, X, T, n, al, al', fuel + 1, res, ht, he, hX, hl, hf, hn, hd, hx => by
    obtain ⟨rest, hS⟩ : ∃ rest, BTree.toList (h + 1) t.erase =
        BTree.toList (h + 1) (⟨done, X.map ATree.erase⟩ : Tree K V) ++ kv :: (BTree.toList h c.erase ++ rest) := by
      obtain ⟨a, kvs, es'⟩ := t
      dsimp only at ht he
      subst ht he
      rw [ATree.erase_mk, List.map_append, List.map_cons]
      exact toList_upto (by simpa using hX)
    rw [loopN_succ]
    unfold cloneInternalStepL
    dsimp only
    refine Triple.assoc ?_
    refine Triple.callEq (P₀ := tree l (h + 1) t) lenOf_tree ?_
    rw [if_pos (by rw [ht]; simp)]
    refine Triple.assoc ?_
    refine Triple.callEq (P₀ := tree l (h + 1) t) (kvOf_node (by rw [ht]; exact getE_mid rfl)) ?_
    refine Triple.assoc ?_
    refine Triple.callEq (P₀ := tree l (h + 1) t) (newEdge_tree (by rw [ht]; simp)) ?_
    refine Triple.assoc ?_
    refine Triple.callEq (P₀ := sched al) Triple.cloneKvL' ?_
    rw [List.map_cons] at hx
    cases hc : kvClone ck cv kv al with
    | mk rr a1 =>
    cases rr with
    | error e =>
      rw [cloneInternalLoop_err hc] at hx
      simp only [Exec.ok.injEq, Prod.mk.injEq] at hx
      obtain ⟨rfl, rfl⟩ := hx
      show Triple E _ (pure _) _
      refine Triple.ofPure ?_
      rw [loopPostL_error]
      simp only [sep_hex]
      refine Ent.hex_right (T, n, ⟨BTree.toList (h + 1) T, loneOf ck cv kv al, []⟩) ?_
      refine Ent.putFact ⟨rfl, hn, kvClone_cut hc hS hd, List.Perm.refl _⟩ ?_
      ent_ac
    | ok kv' =>
      obtain ⟨⟨y, a2⟩, hy, hx⟩ := cloneInternalLoop_rec hc hx
      dsimp only at hy hx ⊢
      refine Triple.assoc ?_
      refine Triple.callEq (P₀ := tree l (h + 1) t) (descend_tree (c := c) (by rw [he, ← hX]; simp)) ?_
      obtain ⟨l', F, e, _⟩ := focus_self (h := h + 1) l (at_one he hX) (by simp)
      simp only [List.length_singleton, Nat.add_sub_cancel] at e
      rw [e]
      simp only [sep_assoc]
      refine Triple.assoc ?_
      refine Triple.call (P₀ := tree l' h c ∗ sched a1) (hrec hy) fun o => ?_
      cases y with
      | error er =>
        rw [clonePostL_error]
        simp only [sep_assoc]
        refine Triple.getFact fun ho => ?_
        obtain ⟨ro, L⟩ := o
        obtain ⟨ho, hp1, hp2⟩ := ho
        dsimp only at ho hp1 hp2
        subst ho
        simp only [Prod.mk.injEq] at hx
        obtain ⟨rfl, rfl⟩ := hx
        show Triple E _ (pure _) _
        refine Triple.ofPure ?_
        rw [loopPostL_error]
        simp only [sep_hex]
        refine Ent.hex_right (T, n, ⟨BTree.toList (h + 1) T ++ kv' :: L.made, L.lone, L.dropped ++ [kv']⟩) ?_
        have hperm : (L.dropped ++ [kv'] ++ BTree.toList (h + 1) T).Perm (BTree.toList (h + 1) T ++ kv' :: L.made) := by
          refine List.perm_append_comm.trans (List.Perm.append_left _ ?_)
          exact (List.perm_append_comm (l₁ := L.dropped) (l₂ := [kv'])).trans (List.Perm.cons _ hp2)
        refine Ent.putFact ⟨rfl, hn, hp1.under hS hd (kvClone_pair hc), hperm⟩ ?_
        ent_ac
      | ok s =>
        obtain ⟨S, m⟩ := s
        obtain ⟨T', hp, hx⟩ := hx
        rw [clonePostL_ok]
        simp only [sep_hex, hex_sep]
        refine Triple.ofHex fun sr => ?_
        simp only [sep_assoc]
        refine Triple.getFact fun ho => ?_
        obtain ⟨rfl, hm, hall⟩ := ho
        dsimp only
        refine Triple.assoc ?_
        refine Triple.pre (P := rooted r (h + 1) T ∗ rooted sr h S ∗ tree l' h c ∗ sched a2 ∗ F) ?_ (by ent_ac)
        refine Triple.pre ?_ rooted_shape
        refine Triple.getFact fun hsh => ?_
        have hlist := pushInternal_toList (h := h) hp hsh.2
        refine Triple.call (P₀ := rooted r (h + 1) T ∗ rooted sr h S) (pushInternal_rooted hp) fun _ => ?_
        show Triple E _ (loopN _ fuel (done.length + 1, n + (1 + m), BTree.toList (h + 1) T ++ kv' :: BTree.toList h S)) _
        rw [show done.length + 1 = (done ++ [kv]).length by simp, ← hlist]
        have := cloneInternalLoopL_ref (l := l) (t := t) (r := r) hrec cs (done ++ [kv]) es (X ++ [c]) T' (n + (1 + m)) a2 al' fuel res (by rw [ht]; simp) (by rw [he]; simp)
          (by simp [hX]) (by simpa using hl) (by simpa using hf) (by rw [hlist, hn, hm]; simp; omega)
          (by
            rw [hlist, List.map_append, List.map_cons, List.map_nil]
            obtain ⟨rest', hS'⟩ := toList_upto (h := h) (A := done) (C := []) (X := X.map ATree.erase) (Y := []) (c := c.erase) (kv := kv) (by simpa using hX)
            have : BTree.toList (h + 1) (⟨done ++ [kv], X.map ATree.erase ++ [c.erase]⟩ : Tree K V) =
                BTree.toList (h + 1) (⟨done, X.map ATree.erase⟩ : Tree K V) ++ kv :: BTree.toList h c.erase := by
              rw [BTree.toList_succ, BTree.toList_succ]
              dsimp only
              rw [List.map_append]
              rcases BTree.inter_append (A := done) (C := []) (X := (X.map ATree.erase).map (BTree.toList h)) (Y := [c.erase].map (BTree.toList h)) kv (by simpa using hX) with e | e
              · rw [e]; simp [BTree.inter]
              · simp at e
            rw [this]
            exact hd.append ⟨kvClone_pair hc, hall⟩)
          hx
        rw [e] at this
        simp only [sep_assoc] at this
        refine Triple.pre this ?_
        ent_ac

theorem cloneSubtreeL_ref {ck : Cloner K} {cv : Cloner V} : ∀ {h : Nat} {l : Link} {t : ATree K V} {al al' : Alloc} {res : Res (Tree K V × Nat)},
    BTree.cloneSubtree ck cv h t.erase al = .ok (res, al') →
    Triple E (tree l h t ∗ sched al) (cloneSubtreeL ck cv h t.addr) (fun o => tree l h t ∗ sched al' ∗ ClonePostL ck cv (BTree.toList h t.erase) h res o)
  | 0, l, t, al, al', res, hx => by
    simp only [BTree.cloneSubtree] at hx
    unfold cloneSubtreeL
    refine Triple.call (P₀ := sched al) newLeaf_spec fun o => ?_
    cases o with
    | none =>
      dsimp only
      simp only [sep_assoc]
      refine Triple.getFact fun hno => ?_
      simp only [hno, Bool.false_eq_true, if_false, Exec.ok.injEq, Prod.mk.injEq] at hx
      obtain ⟨rfl, rfl⟩ := hx
      refine Triple.ofPure ?_
      rw [clonePostL_error, fact_of ⟨rfl, ⟨[], _, rfl, trivial, .inr (.inr ⟨rfl, rfl⟩)⟩, List.Perm.refl _⟩]
      ent_ac
    | some r =>
      dsimp only
      simp only [sep_assoc]
      refine Triple.getFact fun hyes => ?_
      simp only [hyes, if_true] at hx
      obtain ⟨⟨rr, a1⟩, hl, hx⟩ := Exec.bind_eq_ok.1 hx
      refine Triple.callEq (P₀ := tree l 0 t) (newEdge_tree (Nat.zero_le _)) ?_
      refine Triple.pre ?_ (Ent.frame tree_cap _)
      simp only [sep_assoc]
      refine Triple.getFact fun hcap => ?_
      have h0 : BTree.toList 0 t.erase = t.kvs := ATree.erase_kvs _
      rw [h0]
      rw [ATree.erase_kvs] at hl
      refine Triple.call (P₀ := tree l 0 t ∗ rooted r 0 (emptySpine 0) ∗ sched al.request.2)
        (cloneLeafLoopL_ref (l := l) (t := t) (r := r) t.kvs [] (emptySpine 0) _ a1 (CAPACITY + 1) rr (by simp) (by omega) trivial hl) fun o => ?_
      cases rr with
      | error e =>
        simp only [Exec.ok.injEq, Prod.mk.injEq] at hx
        obtain ⟨rfl, rfl⟩ := hx
        rw [show (Except.map (fun T : Tree K V => (T, T.kvs.length)) (.error e) : Res (Tree K V × Nat)) = .error e from rfl, loopPostL_error]
        simp only [sep_hex, hex_sep]
        refine Triple.ofHex fun x => ?_
        simp only [sep_assoc]
        refine Triple.getFact fun ho => ?_
        obtain ⟨rfl, hn, hpart, hperm⟩ := ho
        refine Triple.bindPure (a := (some e, x.2)) ?_
        dsimp only
        refine Triple.pre (P := (rep ⟨r, x.2.1⟩ (⟨0, x.1, false, x.2.1⟩ : Map K V)) ∗ tree l 0 t ∗ sched a1) ?_
          (by rw [own_rooted rfl, fact_of rfl, emp_sep]; simp only [sep_emp]; ent_ac)
        refine Triple.call (P₀ := rep ⟨r, x.2.1⟩ (⟨0, x.1, false, x.2.1⟩ : Map K V)) (mapDrop_spec hn) fun d => ?_
        refine Triple.getFact fun hd => ?_
        subst hd
        refine Triple.ofPure ?_
        rw [clonePostL_error, fact_of ⟨rfl, hpart, hperm⟩]
        ent_ac
      | ok T =>
        simp only [Exec.ok.injEq, Prod.mk.injEq] at hx
        obtain ⟨rfl, rfl⟩ := hx
        rw [show (Except.map (fun T : Tree K V => (T, T.kvs.length)) (.ok T) : Res (Tree K V × Nat)) = .ok (T, T.kvs.length) from rfl, loopPostL_ok]
        simp only [sep_assoc]
        refine Triple.getFact fun ho => ?_
        obtain ⟨rfl, hn, hall⟩ := ho
        show Triple E _ (pure _) _
        refine Triple.ofPure ?_
        rw [clonePostL_ok]
        simp only [sep_hex]
        refine Ent.hex_right r ?_
        refine Ent.putFact ⟨rfl, hn, hall⟩ ?_
        ent_ac
  | h + 1, l, t, al, al', res, hx => by
    simp only [BTree.cloneSubtree] at hx
    obtain ⟨c0, hc0, hx⟩ := Exec.bind_eq_ok.1 hx
    obtain ⟨⟨rr, a1⟩, hr, hx⟩ := Exec.bind_eq_ok.1 hx
    refine Triple.pre ?_ (Ent.frame tree_shape _)
    simp only [sep_assoc]
    refine Triple.getFact fun hs => ?_
    have hs2 : t.edges.length = t.kvs.length + 1 := hs.2
    rw [ATree.erase_edges] at hc0
    obtain ⟨X, c, Y, he, hX, rfl⟩ := getE_map_ok hc0
    obtain rfl : X = [] := List.eq_nil_of_length_eq_zero hX
    rw [List.nil_append] at he
    obtain ⟨rest, hS⟩ : ∃ rest, BTree.toList (h + 1) t.erase = BTree.toList h c.erase ++ rest := by
      obtain ⟨a, kvs, es⟩ := t
      dsimp only at he
      subst he
      rw [ATree.erase_mk, List.map_cons]
      exact toList_first
    unfold cloneSubtreeL
    refine Triple.callEq (P₀ := tree l (h + 1) t) (newEdge_tree (Nat.zero_le _)) ?_
    refine Triple.callEq (P₀ := tree l (h + 1) t) (descend_tree (c := c) (by rw [he]; simp)) ?_
    obtain ⟨l', F, e, _⟩ := focus_self (h := h + 1) l (at_one (X := []) he rfl) (by simp)
    simp only [List.length_singleton, Nat.add_sub_cancel] at e
    rw [e]
    simp only [sep_assoc]
    refine Triple.call (P₀ := tree l' h c ∗ sched al) (cloneSubtreeL_ref hr) fun o => ?_
    cases rr with
    | error er =>
      simp only [Exec.ok.injEq, Prod.mk.injEq] at hx
      obtain ⟨rfl, rfl⟩ := hx
      rw [clonePostL_error]
      simp only [sep_assoc]
      refine Triple.getFact fun ho => ?_
      obtain ⟨ro, L⟩ := o
      obtain ⟨ho, hp1, hp2⟩ := ho
      dsimp only at ho hp1 hp2
      subst ho
      dsimp only
      refine Triple.ofPure ?_
      rw [clonePostL_error, fact_of ⟨rfl, hp1.first hS, hp2⟩]
      ent_ac
    | ok s =>
      obtain ⟨S, m⟩ := s
      dsimp only at hx
      rw [clonePostL_ok]
      simp only [sep_hex, hex_sep]
      refine Triple.ofHex fun sr => ?_
      simp only [sep_assoc]
      refine Triple.getFact fun ho => ?_
      obtain ⟨rfl, hm, hall⟩ := ho
      dsimp only
      refine Triple.call (P₀ := sched a1 ∗ rooted sr h S) pushLevel_rooted fun o => ?_
      cases o with
      | none =>
        dsimp only
        simp only [sep_assoc]
        refine Triple.getFact fun hno => ?_
        simp only [hno, Bool.false_eq_true, if_false, Exec.ok.injEq, Prod.mk.injEq] at hx
        obtain ⟨rfl, rfl⟩ := hx
        refine Triple.pre (P := (rep ⟨sr, m⟩ (⟨h, S, false, m⟩ : Map K V)) ∗ tree l' h c ∗ F ∗ sched a1.request.2) ?_
          (by rw [own_rooted rfl, fact_of rfl, emp_sep]; ent_ac)
        refine Triple.call (P₀ := rep ⟨sr, m⟩ (⟨h, S, false, m⟩ : Map K V)) (mapDrop_spec hm) fun d => ?_
        refine Triple.getFact fun hd => ?_
        subst hd
        refine Triple.ofPure ?_
        rw [clonePostL_error, fact_of ⟨rfl, CutShort.first hS ⟨_, [], (List.append_nil _).symm, hall, .inr (.inr ⟨rfl, rfl⟩)⟩, List.Perm.refl _⟩]
        ent_ac
      | some r =>
        dsimp only
        simp only [sep_assoc]
        refine Triple.getFact fun hyes => ?_
        simp only [hyes, if_true] at hx
        refine Triple.pre (P := tree l (h + 1) t ∗ rooted r (h + 1) ⟨[], [S]⟩ ∗ sched a1.request.2) ?_
          (by rw [e]; ent_ac)
        refine Triple.callEq (P₀ := tree l (h + 1) t) (newEdge_tree (Nat.zero_le _)) ?_
        rw [ATree.erase_kvs, ATree.erase_edges, he] at hx
        have hone : ∀ S : Tree K V, BTree.toList (h + 1) (⟨[], [S]⟩ : Tree K V) = BTree.toList h S := fun S => by rw [BTree.toList_succ]; simp [BTree.inter]
        have hlen : m = (BTree.toList (h + 1) (⟨[], [S]⟩ : Tree K V)).length := by rw [hm, hone]
        rw [← hone S]
        refine Triple.call (P₀ := tree l (h + 1) t ∗ rooted r (h + 1) ⟨[], [S]⟩ ∗ sched a1.request.2)
          (cloneInternalLoopL_ref (l := l) (t := t) (r := r) (fun hr => cloneSubtreeL_ref hr) t.kvs [] Y [c] ⟨[], [S]⟩ m _ al' (CAPACITY + 1) res (by simp) (by rw [he]; simp) rfl
            (by rw [he] at hs2; simpa using hs2) (by have := hs.1; omega) hlen (by rw [List.map_cons, List.map_nil, hone, hone]; exact hall) hx) fun o => ?_
        cases res with
        | error er =>
          rw [loopPostL_error]
          simp only [sep_hex, hex_sep]
          refine Triple.ofHex fun x => ?_
          simp only [sep_assoc]
          refine Triple.getFact fun ho => ?_
          obtain ⟨rfl, hn, hpart, hperm⟩ := ho
          refine Triple.bindPure (a := (some er, x.2)) ?_
          dsimp only
          refine Triple.pre (P := (rep ⟨r, x.2.1⟩ (⟨h + 1, x.1, false, x.2.1⟩ : Map K V)) ∗ tree l (h + 1) t ∗ sched al') ?_
            (by rw [own_rooted rfl, fact_of rfl, emp_sep]; simp only [sep_emp]; ent_ac)
          refine Triple.call (P₀ := rep ⟨r, x.2.1⟩ (⟨h + 1, x.1, false, x.2.1⟩ : Map K V)) (mapDrop_spec hn) fun d => ?_
          refine Triple.getFact fun hd => ?_
          subst hd
          refine Triple.ofPure ?_
          rw [clonePostL_error, e, fact_of ⟨rfl, hpart, hperm⟩]
          ent_ac
        | ok y =>
          obtain ⟨T, n⟩ := y
          rw [loopPostL_ok]
          simp only [sep_assoc]
          refine Triple.getFact fun ho => ?_
          obtain ⟨rfl, hn, hall⟩ := ho
          refine Triple.bindPure (a := (none, n, (⟨BTree.toList (h + 1) T, [], []⟩ : Ledger K V))) ?_
          dsimp only
          refine Triple.ofPure ?_
          rw [clonePostL_ok, e]
          simp only [sep_hex]
          refine Ent.hex_right r ?_
          refine Ent.putFact ⟨rfl, hn, hall⟩ ?_
          ent_ac

/-! ### the operation -/

/-- Exactly this memory. -/
def only (w₀ : World K V) : HProp K V := fun w => w = w₀

/-- A predicate that at most one memory satisfies. -/
def Exact (P : HProp K V) : Prop := ∀ w w', P w → P w' → w = w'

theorem Exact.sep {P R : HProp K V} (hp : Exact P) (hr : Exact R) : Exact (P ∗ R) := by
  rintro w w' ⟨w1, w2, _, rfl, h1, h2⟩ ⟨w3, w4, _, rfl, h3, h4⟩
  rw [hp _ _ h1 h3, hr _ _ h2 h4]

theorem Exact.emp : Exact (emp : HProp K V) := fun _ _ h h' => Eq.trans h (Eq.symm h')
theorem Exact.fact {φ : Prop} : Exact (fact φ : HProp K V) := fun _ _ h h' => Eq.trans h.2 (Eq.symm h'.2)
theorem Exact.pts {a : Addr} {n : Node K V} : Exact (pts a n) := fun _ _ h h' => Eq.trans h.2 (Eq.symm h'.2)

theorem Exact.stars {ι : Type} {f : ι → HProp K V} : ∀ {xs : List ι}, (∀ x, Exact (f x)) → Exact (stars f xs)
  | [], _ => Exact.emp
  | _ :: _, h => Exact.sep (h _) (Exact.stars h)

theorem Exact.below : ∀ {h : Nat} {t : ATree K V}, Exact (below h t)
  | 0, _ => Exact.fact
  | _ + 1, _ => Exact.sep Exact.fact (Exact.stars fun _ => Exact.sep Exact.pts Exact.below)

theorem Exact.tree {l : Link} {h : Nat} {t : ATree K V} : Exact (tree l h t) := Exact.sep Exact.pts Exact.below

/-- What `try_clone` leaves: the memory as it was, with the copy if it succeeds; and what the ledger says. -/
def TryClonePostL (ck : Cloner K) (cv : Cloner V) (w₀ : World K V) (M : Map K V) (res : Res (Map K V)) (o : Res HMap × Ledger K V) : HProp K V :=
  match res with
  | .ok C => hex fun hc : HMap => fact (o = (.ok hc, ⟨C.toList, [], []⟩) ∧ hc.length = C.toList.length ∧ All2 (PairClone ck cv) M.toList C.toList) ∗ rep hc C ∗ only w₀
  | .error e => fact (o.1 = .error e ∧ CutShort ck cv e M.toList o.2.made o.2.lone ∧ o.2.dropped.Perm o.2.made) ∗ only w₀

theorem tryClonePostL_ok {ck : Cloner K} {cv : Cloner V} {w₀ : World K V} {M C : Map K V} {o : Res HMap × Ledger K V} :
    TryClonePostL ck cv w₀ M (.ok C) o =
      hex fun hc : HMap => fact (o = (.ok hc, ⟨C.toList, [], []⟩) ∧ hc.length = C.toList.length ∧ All2 (PairClone ck cv) M.toList C.toList) ∗ rep hc C ∗ only w₀ := rfl

theorem tryClonePostL_error {ck : Cloner K} {cv : Cloner V} {w₀ : World K V} {M : Map K V} {e : TryReserveError} {o : Res HMap × Ledger K V} :
    TryClonePostL ck cv w₀ M (.error e) o =
      (fact (o.1 = .error e ∧ CutShort ck cv e M.toList o.2.made o.2.lone ∧ o.2.dropped.Perm o.2.made) ∗ only w₀) := rfl

theorem tryCloneL_ref {ck : Cloner K} {cv : Cloner V} {hm : HMap} {M : Map K V} {al al' : Alloc} {res : Res (Map K V)} {w₀ : World K V}
    (hw₀ : rep hm M w₀) (hwf : M.WF) (hx : M.tryClone ck cv al = .ok (res, al')) :
    Triple E (only w₀ ∗ sched al) (hm.tryCloneL ck cv) (fun o => sched al' ∗ TryClonePostL ck cv w₀ M res o) := by
  have hl := (fact_sep.1 (rep_length _ hw₀)).1
  by_cases h0 : M.length = 0
  · simp only [BTree.Map.tryClone, BTree.Map.len, h0, if_true, Exec.ok.injEq, Prod.mk.injEq] at hx
    obtain ⟨rfl, rfl⟩ := hx
    have hnil : M.toList = [] := List.eq_nil_of_length_eq_zero (by have := hwf.len; rw [h0] at this; exact (by simpa using this.symm))
    unfold HMap.tryCloneL
    rw [if_pos (by rw [hl, h0])]
    refine Triple.ofPure ?_
    rw [tryClonePostL_ok]
    simp only [sep_hex]
    refine Ent.hex_right HMap.new ?_
    rw [rep_new, emp_sep]
    refine Ent.putFact ⟨rfl, rfl, by rw [hnil]; trivial⟩ ?_
    ent_ac
  · have hs : M.shared = false := by
      cases h : M.shared with
      | false => rfl
      | true =>
        obtain ⟨e1, e2⟩ := hwf.shared h
        refine absurd ?_ h0
        rw [hwf.len, Map.toList, e1, e2]
        rfl
    simp only [BTree.Map.tryClone, BTree.Map.len, h0, if_false] at hx
    obtain ⟨⟨rr, a1⟩, hr, hx⟩ := Exec.bind_eq_ok.1 hx
    rw [own_rooted hs] at hw₀
    obtain ⟨hlen, ⟨ta, pi⟩, hw₀⟩ := fact_sep.1 hw₀
    obtain ⟨⟨he, hroot⟩, hw₀⟩ := fact_sep.1 hw₀
    dsimp only at he hroot hw₀
    unfold HMap.tryCloneL
    rw [if_neg (by rw [hlen]; exact h0), hroot]
    dsimp only
    rw [← he] at hr
    refine Triple.pre ?_ (Ent.frame (Q := tree (none, pi) M.height ta) (fun w h => by rw [show w = w₀ from h]; exact hw₀) _)
    refine (cloneSubtreeL_ref hr).post fun o => ?_
    have back : Ent (tree (none, pi) M.height ta) (only w₀) := fun w hw => Exact.tree _ _ hw hw₀
    have hl : BTree.toList M.height ta.erase = M.toList := by rw [he]; rfl
    rw [hl]
    cases rr with
    | error e =>
      simp only [Exec.ok.injEq, Prod.mk.injEq] at hx
      obtain ⟨rfl, rfl⟩ := hx
      rw [clonePostL_error, tryClonePostL_error]
      refine Ent.trans ?_ (Ent.sep (Ent.refl _) (Ent.sep (Ent.refl _) back))
      ent_ac
    | ok y =>
      obtain ⟨T, n⟩ := y
      simp only [Exec.ok.injEq, Prod.mk.injEq] at hx
      obtain ⟨rfl, rfl⟩ := hx
      rw [clonePostL_ok, tryClonePostL_ok]
      simp only [sep_hex]
      intro w hw
      obtain ⟨r, hw⟩ := hw
      refine ⟨⟨r, n⟩, ?_⟩
      have : Ent (tree (none, pi) M.height ta ∗ sched a1 ∗ fact (o = (.ok ⟨r, n⟩, ⟨BTree.toList M.height T, [], []⟩) ∧ n = (BTree.toList M.height T).length ∧
            All2 (PairClone ck cv) M.toList (BTree.toList M.height T)) ∗ rooted r M.height T)
          (sched a1 ∗ fact (o = (.ok ⟨r, n⟩, ⟨(⟨M.height, T, false, n⟩ : Map K V).toList, [], []⟩) ∧ n = (BTree.toList M.height T).length ∧
              All2 (PairClone ck cv) M.toList (⟨M.height, T, false, n⟩ : Map K V).toList) ∗
            rep ⟨r, n⟩ (⟨M.height, T, false, n⟩ : Map K V) ∗ only w₀) := by
        rw [own_rooted (M := (⟨M.height, T, false, n⟩ : Map K V)) rfl, fact_of rfl, emp_sep]
        refine Ent.getFact fun ho => ?_
        refine Ent.putFact ho ?_
        refine Ent.trans ?_ (Ent.sep (Ent.refl _) (Ent.sep (Ent.refl _) back))
        ent_ac
      exact this w hw

end Verif.Heap
