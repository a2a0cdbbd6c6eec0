import Verif.Heap.Proofs.SplitOffMap
import Verif.BTree.Proofs.Clone
/-
`try_clone` and `clone` in memory: the copy is a tree of its own, the original is untouched, and a failed attempt leaves
nothing behind.
-/
namespace Verif.Heap
open Verif
open Verif.BTree (B MIN_LEN CAPACITY Tree Handle Map emptyLeaf emptySpine Cloner)

variable {K V Q α β : Type} {E : String → Prop}

theorem Triple.cloneElem' {γ : Type} {c : Cloner γ} {x : γ} {al : Alloc} :
    Triple E (sched al) (cloneElem c x : HM K V (Res γ)) (fun r => fact (r = (c x al).1) ∗ sched (c x al).2) := by
  apply Triple.of_ok
  intro R s hg hp
  obtain ⟨w₁, w₂, hd, hw, rfl, hr⟩ := hp
  have hc : s.cells = w₂.cells := by
    have : s.cells = _ := congrArg World.cells hw
    simpa [World.union] using this
  have hs : s.alloc = al := by
    have : some s.alloc = _ := congrArg World.sched hw
    simpa [World.union] using this
  have hd2 : w₂.sched = none := by
    have := hd.2; simpa using this
  refine ⟨_, _, rfl, hg, ?_⟩
  rw [sep_assoc]
  refine fact_sep.2 ⟨by rw [hs], ?_⟩
  refine ⟨⟨fun _ => none, some (c x al).2⟩, w₂, ⟨fun x => .inl rfl, .inr hd2⟩, ?_, rfl, hr⟩
  ext1
  · funext x; simp [World.union, hc, Heap.world]
  · simp [World.union, Heap.world, hs]

/-- Both components, as the level-1 loops do it. -/
def kvClone (ck : Cloner K) (cv : Cloner V) (kv : K × V) (a : Alloc) : Res (K × V) × Alloc :=
  match ck kv.1 a with
  | (.error e, a) => (.error e, a)
  | (.ok k, a) =>
    match cv kv.2 a with
    | (.error e, a) => (.error e, a)
    | (.ok v, a) => (.ok (k, v), a)

theorem Triple.cloneKv' {ck : Cloner K} {cv : Cloner V} {kv : K × V} {al : Alloc} :
    Triple E (sched al) (cloneKv ck cv kv) (fun r => fact (r = (kvClone ck cv kv al).1) ∗ sched (kvClone ck cv kv al).2) := by
  unfold cloneKv
  refine Triple.callEq (P₀ := sched al) Triple.cloneElem' ?_
  simp only [sep_emp, kvClone]
  rcases ck kv.1 al with ⟨rk, a1⟩
  cases rk with
  | error e => exact Triple.ofPure (Ent.putFact rfl (Ent.refl _))
  | ok k =>
    dsimp only
    refine Triple.callEq (P₀ := sched a1) Triple.cloneElem' ?_
    simp only [sep_emp]
    rcases cv kv.2 a1 with ⟨rv, a2⟩
    cases rv with
    | error e => exact Triple.ofPure (Ent.putFact rfl (Ent.refl _))
    | ok v => exact Triple.ofPure (Ent.putFact rfl (Ent.refl _))

theorem cloneLeafLoop_err {ck : Cloner K} {cv : Cloner V} {kv : K × V} {rest : List (K × V)} {out : Tree K V} {a a' : Alloc} {e : TryReserveError}
    (h : kvClone ck cv kv a = (.error e, a')) : BTree.cloneLeafLoop ck cv (kv :: rest) out a = .ok (.error e, a') := by
  obtain ⟨k, v⟩ := kv
  revert h
  simp only [BTree.cloneLeafLoop, kvClone]
  rcases ck k a with ⟨_ | k, a1⟩
  · intro h
    simp only [Prod.mk.injEq, Except.error.injEq] at h
    rw [h.1, h.2]
  · dsimp only
    rcases cv v a1 with ⟨_ | v, a2⟩
    · intro h
      simp only [Prod.mk.injEq, Except.error.injEq] at h
      rw [← h.1, ← h.2]
    · intro h; simp at h

theorem cloneLeafLoop_ok {ck : Cloner K} {cv : Cloner V} {kv kv' : K × V} {rest : List (K × V)} {out : Tree K V} {a a' : Alloc}
    (h : kvClone ck cv kv a = (.ok kv', a')) :
    BTree.cloneLeafLoop ck cv (kv :: rest) out a = (out.pushLeaf kv' >>= fun out => BTree.cloneLeafLoop ck cv rest out a') := by
  obtain ⟨k, v⟩ := kv
  revert h
  simp only [BTree.cloneLeafLoop, kvClone]
  rcases ck k a with ⟨_ | k, a1⟩
  · intro h; simp at h
  · dsimp only
    rcases cv v a1 with ⟨_ | v, a2⟩
    · intro h; simp at h
    · intro h
      simp only [Prod.mk.injEq, Except.ok.injEq] at h
      rw [← h.1, ← h.2]

theorem cloneInternalLoop_err {ck : Cloner K} {cv : Cloner V} {rec : Tree K V → Alloc → Exec (Res (Tree K V × Nat) × Alloc)}
    {kv : K × V} {rest : List (K × V)} {c : Tree K V} {es : List (Tree K V)} {out : Tree K V} {len : Nat} {a a' : Alloc} {e : TryReserveError}
    (h : kvClone ck cv kv a = (.error e, a')) : BTree.cloneInternalLoop ck cv rec (kv :: rest) (c :: es) out len a = .ok (.error e, a') := by
  obtain ⟨k, v⟩ := kv
  revert h
  simp only [BTree.cloneInternalLoop, kvClone]
  rcases ck k a with ⟨_ | k, a1⟩
  · intro h
    simp only [Prod.mk.injEq, Except.error.injEq] at h
    rw [h.1, h.2]
  · dsimp only
    rcases cv v a1 with ⟨_ | v, a2⟩
    · intro h
      simp only [Prod.mk.injEq, Except.error.injEq] at h
      rw [← h.1, ← h.2]
    · intro h; simp at h

theorem cloneInternalLoop_rec {ck : Cloner K} {cv : Cloner V} {rec : Tree K V → Alloc → Exec (Res (Tree K V × Nat) × Alloc)}
    {kv kv' : K × V} {rest : List (K × V)} {c : Tree K V} {es : List (Tree K V)} {out : Tree K V} {len : Nat} {a a' : Alloc}
    {x : Res (Tree K V × Nat) × Alloc} (h : kvClone ck cv kv a = (.ok kv', a'))
    (hx : BTree.cloneInternalLoop ck cv rec (kv :: rest) (c :: es) out len a = .ok x) :
    ∃ y, rec c a' = .ok y ∧
      match y.1 with
      | .error e => x = (.error e, y.2)
      | .ok s => ∃ out', out.pushInternal kv' s.1 = .ok out' ∧ BTree.cloneInternalLoop ck cv rec rest es out' (len + (1 + s.2)) y.2 = .ok x := by
  obtain ⟨k, v⟩ := kv
  revert h hx
  simp only [BTree.cloneInternalLoop, kvClone]
  rcases ck k a with ⟨_ | k, a1⟩
  · intro h; simp at h
  · dsimp only
    rcases cv v a1 with ⟨_ | v, a2⟩
    · intro h; simp at h
    · intro h hx
      simp only [Prod.mk.injEq, Except.ok.injEq] at h
      obtain ⟨rfl, rfl⟩ := h
      dsimp only at hx
      obtain ⟨⟨y, a3⟩, hy, hx⟩ := Exec.bind_eq_ok.1 hx
      refine ⟨_, hy, ?_⟩
      cases y with
      | error e =>
        dsimp only at hx ⊢
        simp only [Exec.ok.injEq] at hx
        exact hx.symm
      | ok s =>
        dsimp only at hx ⊢
        obtain ⟨out', ho, hx⟩ := Exec.bind_eq_ok.1 hx
        exact ⟨out', ho, hx⟩

/-! ### pushing at the end of a tree with an owner -/

theorem pushLeaf_rooted {r : NRef} {T T' : Tree K V} {kv : K × V} (hx : T.pushLeaf kv = .ok T') :
    Triple E (rooted r 0 T) (pushLeaf r.node kv) (fun _ => rooted r 0 T') := by
  refine rooted_elim' fun ta pi he hr => ?_
  subst he hr
  refine Triple.pre ?_ tree_shape
  refine Triple.getFact fun hs => ?_
  obtain ⟨a, kvs, es⟩ := ta
  obtain ⟨h1, h2⟩ := hs
  dsimp only at h1 h2 ⊢
  subst h2
  simp only [BTree.Tree.pushLeaf] at hx
  obtain ⟨_, hq, hx⟩ := Exec.bind_eq_ok.1 hx
  have hc := require_ok hq
  simp only [ATree.erase_len, decide_eq_true_eq] at hc
  simp only [Exec.ok.injEq] at hx
  subst hx
  rw [tree_leaf]
  refine Triple.ofFact fun _ => ?_
  refine (pushLeaf_spec hc).post fun _ => ?_
  refine Ent.trans ?_ (Ent.trans (rooted_intro (h := 0) (pi := pi) (ta := ⟨a, kvs ++ [kv], []⟩)) (Ent.of_eq ?_))
  · rw [tree_leaf]
    exact Ent.putFact (by len_omega) (Ent.refl _)
  · rw [ATree.erase_mk, ATree.erase_mk]

theorem pushInternal_rooted {r s : NRef} {h : Nat} {T T' S : Tree K V} {kv : K × V} (hx : T.pushInternal kv S = .ok T') :
    Triple E (rooted r (h + 1) T ∗ rooted s h S) (pushInternal r kv s) (fun _ => rooted r (h + 1) T') := by
  refine rooted_elim fun ta pi he hr => ?_
  rw [sep_comm]
  refine rooted_elim fun tb pj he' hr' => ?_
  rw [sep_comm]
  subst he hr he' hr'
  refine Triple.pre ?_ (Ent.frame tree_shape _)
  rw [sep_assoc]
  refine Triple.getFact fun hs => ?_
  obtain ⟨a, kvs, es⟩ := ta
  obtain ⟨h1, h2⟩ := hs
  dsimp only at h1 h2 ⊢
  simp only [BTree.Tree.pushInternal] at hx
  obtain ⟨_, hq, hx⟩ := Exec.bind_eq_ok.1 hx
  have hc := require_ok hq
  simp only [ATree.erase_len, decide_eq_true_eq] at hc
  simp only [Exec.ok.injEq] at hx
  subst hx
  rw [tree_internal]
  simp only [sep_assoc]
  refine Triple.ofFact fun _ => ?_
  refine Triple.callLast (P₀ := pts a (nd .internal (none, pi) kvs (addrs es)) ∗ tree (none, pj) h tb) (pushInternal_spec h2 hc) fun _ => ?_
  refine Ent.trans ?_ (Ent.trans (rooted_intro (h := h + 1) (pi := pi) (ta := ⟨a, kvs ++ [kv], es ++ [tb]⟩)) (Ent.of_eq ?_))
  · rw [tree_internal']
    refine Ent.putFact ⟨by simp; omega, by len_omega⟩ ?_
    rw [kids_nil, h2]
    simp only [addrs, List.map_append, List.map_cons, List.map_nil]
    ent_ac
  · rw [ATree.erase_mk, ATree.erase_mk]
    simp

theorem rooted_shape {r : NRef} {h : Nat} {T : Tree K V} {R : HProp K V} :
    Ent (rooted r h T ∗ R) (fact (T.kvs.length ≤ CAPACITY ∧ (match h with | 0 => T.edges = [] | _ + 1 => T.edges.length = T.kvs.length + 1)) ∗ rooted r h T ∗ R) := by
  rw [← sep_assoc]
  refine Ent.frame ?_ R
  intro w hw
  obtain ⟨x, hw⟩ := hw
  obtain ⟨⟨h1, h2⟩, hw⟩ := fact_sep.1 hw
  obtain ⟨⟨h3, h4⟩, _⟩ := fact_sep.1 (tree_shape w hw)
  refine fact_sep.2 ⟨?_, ⟨x, fact_sep.2 ⟨⟨h1, h2⟩, hw⟩⟩⟩
  rw [← h1]
  refine ⟨by simpa using h3, ?_⟩
  cases h with
  | zero => simp only at h4 ⊢; simp [h4]
  | succ h => simp only at h4 ⊢; simp [h4]

theorem rep_length {hm : HMap} {M : Map K V} : Ent (rep hm M) (fact (hm.length = M.length) ∗ rep hm M) := by
  cases hs : M.shared with
  | true =>
    rw [rep_shared hs]
    intro w hw
    obtain ⟨h, rfl⟩ := hw
    exact fact_sep.2 ⟨by rw [h.1], h, rfl⟩
  | false =>
    rw [own_rooted hs]
    refine Ent.getFact fun hf => ?_
    exact Ent.fact_right hf (Ent.fact_right hf (Ent.refl _))

/-! ### the loops -/

/-- What the copying loops leave: a tree with its length, and whether an error ended them. -/
def LoopPost (r : NRef) (h : Nat) (res : Res (Tree K V × Nat)) (o : (Nat × Nat) ⊕ (Option TryReserveError × Nat)) : HProp K V :=
  match res with
  | .ok (T, n) => fact (o = .inr (none, n) ∧ n = (BTree.toList h T).length) ∗ rooted r h T
  | .error e => hex fun x : Tree K V × Nat => fact (o = .inr (some e, x.2) ∧ x.2 = (BTree.toList h x.1).length) ∗ rooted r h x.1

theorem loopPost_ok {r : NRef} {h n : Nat} {T : Tree K V} {o : (Nat × Nat) ⊕ (Option TryReserveError × Nat)} :
    LoopPost r h (.ok (T, n)) o = (fact (o = .inr (none, n) ∧ n = (BTree.toList h T).length) ∗ rooted r h T) := rfl

theorem loopPost_error {r : NRef} {h : Nat} {e : TryReserveError} {o : (Nat × Nat) ⊕ (Option TryReserveError × Nat)} :
    LoopPost r h (.error e : Res (Tree K V × Nat)) o =
      hex fun x : Tree K V × Nat => fact (o = .inr (some e, x.2) ∧ x.2 = (BTree.toList h x.1).length) ∗ rooted r h x.1 := rfl

theorem cloneLeafLoop_ref {ck : Cloner K} {cv : Cloner V} {l : Link} {t : ATree K V} {r : NRef} :
    ∀ (cs done : List (K × V)) (T : Tree K V) (al al' : Alloc) (fuel : Nat) (res : Res (Tree K V)), t.kvs = done ++ cs → cs.length < fuel →
      BTree.cloneLeafLoop ck cv cs T al = .ok (res, al') →
      Triple E (tree l 0 t ∗ rooted r 0 T ∗ sched al) (loopN (cloneLeafStep ck cv t.addr r.node) fuel (done.length, T.kvs.length))
        (fun o => tree l 0 t ∗ sched al' ∗ LoopPost r 0 (res.map fun T => (T, T.kvs.length)) o)
  | _, _, _, _, _, 0, _, _, hf, _ => by simp at hf
  | [], done, T, al, al', fuel + 1, res, ht, hf, hx => by
    simp only [BTree.cloneLeafLoop, Exec.ok.injEq, Prod.mk.injEq] at hx
    obtain ⟨rfl, rfl⟩ := hx
    rw [loopN_succ]
    unfold cloneLeafStep
    dsimp only
    refine Triple.assoc ?_
    refine Triple.callEq (P₀ := tree l 0 t) lenOf_tree ?_
    rw [if_neg (by rw [ht]; simp)]
    show Triple E _ (pure _) _
    refine Triple.ofPure ?_
    rw [show (Except.map (fun T : Tree K V => (T, T.kvs.length)) (.ok T) : Res (Tree K V × Nat)) = .ok (T, T.kvs.length) from rfl, loopPost_ok]
    refine Ent.putFact ⟨rfl, rfl⟩ ?_
    ent_ac
  | kv :: cs, done, T, al, al', fuel + 1, res, ht, hf, hx => by
    rw [loopN_succ]
    unfold cloneLeafStep
    dsimp only
    refine Triple.assoc ?_
    refine Triple.callEq (P₀ := tree l 0 t) lenOf_tree ?_
    rw [if_pos (by rw [ht]; simp)]
    refine Triple.assoc ?_
    refine Triple.callEq (P₀ := tree l 0 t) (kvOf_node (by rw [ht]; exact getE_mid rfl)) ?_
    refine Triple.assoc ?_
    refine Triple.callEq (P₀ := tree l 0 t) (newEdge_tree (by rw [ht]; simp)) ?_
    refine Triple.assoc ?_
    refine Triple.callEq (P₀ := sched al) Triple.cloneKv' ?_
    cases hc : kvClone ck cv kv al with
    | mk rr a1 =>
    cases rr with
    | error e =>
      rw [cloneLeafLoop_err hc] at hx
      simp only [Exec.ok.injEq, Prod.mk.injEq] at hx
      obtain ⟨rfl, rfl⟩ := hx
      show Triple E _ (pure _) _
      refine Triple.ofPure ?_
      rw [show (Except.map (fun T : Tree K V => (T, T.kvs.length)) (.error e) : Res (Tree K V × Nat)) = .error e from rfl, loopPost_error]
      simp only [sep_hex]
      refine Ent.hex_right (T, T.kvs.length) ?_
      refine Ent.putFact ⟨rfl, rfl⟩ ?_
      ent_ac
    | ok kv' =>
      rw [cloneLeafLoop_ok hc] at hx
      obtain ⟨T', hp, hx⟩ := Exec.bind_eq_ok.1 hx
      refine Triple.assoc ?_
      refine Triple.call (P₀ := rooted r 0 T) (pushLeaf_rooted hp) fun _ => ?_
      have e : T'.kvs.length = T.kvs.length + 1 := by
        simp only [BTree.Tree.pushLeaf] at hp
        obtain ⟨_, hq, hp⟩ := Exec.bind_eq_ok.1 hp
        simp only [Exec.ok.injEq] at hp
        rw [← hp]; simp
      show Triple E _ (loopN _ fuel (done.length + 1, T.kvs.length + 1)) _
      rw [← e, show done.length + 1 = (done ++ [kv]).length by simp]
      refine Triple.pre (P := tree l 0 t ∗ rooted r 0 T' ∗ sched a1) ?_ (by ent_ac)
      exact cloneLeafLoop_ref cs (done ++ [kv]) T' a1 al' fuel res (by rw [ht]; simp) (by simpa using hf) hx

/-- What `clone_subtree` leaves: a new tree with its length, or nothing. -/
def ClonePost (h : Nat) (res : Res (Tree K V × Nat)) (o : Res HMap) : HProp K V :=
  match res with
  | .ok (T, n) => hex fun r : NRef => fact (o = .ok ⟨r, n⟩ ∧ n = (BTree.toList h T).length) ∗ rooted r h T
  | .error e => fact (o = .error e)

theorem clonePost_ok {h n : Nat} {T : Tree K V} {o : Res HMap} :
    ClonePost h (.ok (T, n)) o = hex fun r : NRef => fact (o = .ok ⟨r, n⟩ ∧ n = (BTree.toList h T).length) ∗ rooted r h T := rfl

theorem clonePost_error {h : Nat} {e : TryReserveError} {o : Res HMap} : (ClonePost h (.error e) o : HProp K V) = fact (o = .error e) := rfl

theorem pushInternal_length {h : Nat} {T T' S : Tree K V} {kv : K × V} (hx : T.pushInternal kv S = .ok T') (hs : T.edges.length = T.kvs.length + 1) :
    (BTree.toList (h + 1) T').length = (BTree.toList (h + 1) T).length + (1 + (BTree.toList h S).length) := by
  simp only [BTree.Tree.pushInternal] at hx
  obtain ⟨_, hq, hx⟩ := Exec.bind_eq_ok.1 hx
  simp only [Exec.ok.injEq] at hx
  subst hx
  rw [BTree.toList_succ, BTree.toList_succ]
  dsimp only
  rw [List.map_append]
  rcases BTree.inter_append (A := T.kvs) (C := []) (X := T.edges.map (BTree.toList h)) (Y := [S].map (BTree.toList h)) kv (by simpa using hs) with e | e
  · rw [e]
    simp [BTree.inter]
    omega
  · simp at e

theorem cloneInternalLoop_ref {ck : Cloner K} {cv : Cloner V} {l : Link} {h : Nat} {t : ATree K V} {r : NRef}
    (hrec : ∀ {l : Link} {c : ATree K V} {al al' : Alloc} {res : Res (Tree K V × Nat)}, BTree.cloneSubtree ck cv h c.erase al = .ok (res, al') →
      Triple E (tree l h c ∗ sched al) (cloneSubtree ck cv h c.addr) (fun o => tree l h c ∗ sched al' ∗ ClonePost h res o)) :
    ∀ (cs done : List (K × V)) (es X : List (ATree K V)) (T : Tree K V) (n : Nat) (al al' : Alloc) (fuel : Nat) (res : Res (Tree K V × Nat)),
      t.kvs = done ++ cs → t.edges = X ++ es → X.length = done.length + 1 → es.length = cs.length → cs.length < fuel →
      n = (BTree.toList (h + 1) T).length →
      BTree.cloneInternalLoop ck cv (fun e a => BTree.cloneSubtree ck cv h e a) cs (es.map ATree.erase) T n al = .ok (res, al') →
      Triple E (tree l (h + 1) t ∗ rooted r (h + 1) T ∗ sched al)
        (loopN (cloneInternalStep ck cv (cloneSubtree ck cv h) ⟨h + 1, t.addr⟩ r) fuel (done.length, n))
        (fun o => tree l (h + 1) t ∗ sched al' ∗ LoopPost r (h + 1) res o)
  | _, _, _, _, _, _, _, _, 0, _, _, _, _, _, hf, _, _ => by simp at hf
  | [], done, es, X, T, n, al, al', fuel + 1, res, ht, he, hX, hl, hf, hn, hx => by
    simp only [BTree.cloneInternalLoop, Exec.ok.injEq, Prod.mk.injEq] at hx
    obtain ⟨rfl, rfl⟩ := hx
    rw [loopN_succ]
    unfold cloneInternalStep
    dsimp only
    refine Triple.assoc ?_
    refine Triple.callEq (P₀ := tree l (h + 1) t) lenOf_tree ?_
    rw [if_neg (by rw [ht]; simp)]
    show Triple E _ (pure _) _
    refine Triple.ofPure ?_
    rw [loopPost_ok]
    refine Ent.putFact ⟨rfl, hn⟩ ?_
    ent_ac
  | kv :: cs, done, [], X, T, n, al, al', fuel + 1, res, ht, he, hX, hl, hf, hn, hx => by simp at hl
  | kv :: cs, done, c :: es, X, T, n, al, al', fuel + 1, res, ht, he, hX, hl, hf, hn, hx => by
    rw [loopN_succ]
    unfold cloneInternalStep
    dsimp only
    refine Triple.assoc ?_
    refine Triple.callEq (P₀ := tree l (h + 1) t) lenOf_tree ?_
    rw [if_pos (by rw [ht]; simp)]
    refine Triple.assoc ?_
    refine Triple.callEq (P₀ := tree l (h + 1) t) (kvOf_node (by rw [ht]; exact getE_mid rfl)) ?_
    refine Triple.assoc ?_
    refine Triple.callEq (P₀ := tree l (h + 1) t) (newEdge_tree (by rw [ht]; simp)) ?_
    refine Triple.assoc ?_
    refine Triple.callEq (P₀ := sched al) Triple.cloneKv' ?_
    rw [List.map_cons] at hx
    cases hc : kvClone ck cv kv al with
    | mk rr a1 =>
    cases rr with
    | error e =>
      rw [cloneInternalLoop_err hc] at hx
      simp only [Exec.ok.injEq, Prod.mk.injEq] at hx
      obtain ⟨rfl, rfl⟩ := hx
      show Triple E _ (pure _) _
      refine Triple.ofPure ?_
      rw [loopPost_error]
      simp only [sep_hex]
      refine Ent.hex_right (T, n) ?_
      refine Ent.putFact ⟨rfl, hn⟩ ?_
      ent_ac
    | ok kv' =>
      obtain ⟨⟨y, a2⟩, hy, hx⟩ := cloneInternalLoop_rec hc hx
      dsimp only at hy hx ⊢
      refine Triple.assoc ?_
      refine Triple.callEq (P₀ := tree l (h + 1) t) (descend_tree (c := c) (by rw [he, ← hX]; simp)) ?_
      obtain ⟨l', F, e, _⟩ := focus_self (h := h + 1) l (at_one he hX) (by simp)
      simp only [List.length_singleton, Nat.add_sub_cancel] at e
      rw [e]
      simp only [sep_assoc]
      refine Triple.assoc ?_
      refine Triple.call (P₀ := tree l' h c ∗ sched a1) (hrec hy) fun o => ?_
      cases y with
      | error er =>
        rw [clonePost_error]
        simp only [sep_assoc]
        refine Triple.getFact fun ho => ?_
        subst ho
        simp only [Prod.mk.injEq] at hx
        obtain ⟨rfl, rfl⟩ := hx
        show Triple E _ (pure _) _
        refine Triple.ofPure ?_
        rw [loopPost_error]
        simp only [sep_hex]
        refine Ent.hex_right (T, n) ?_
        refine Ent.putFact ⟨rfl, hn⟩ ?_
        ent_ac
      | ok s =>
        obtain ⟨S, m⟩ := s
        obtain ⟨T', hp, hx⟩ := hx
        rw [clonePost_ok]
        simp only [sep_hex, hex_sep]
        refine Triple.ofHex fun sr => ?_
        simp only [sep_assoc]
        refine Triple.getFact fun ho => ?_
        obtain ⟨rfl, hm⟩ := ho
        dsimp only
        refine Triple.assoc ?_
        refine Triple.pre (P := rooted r (h + 1) T ∗ rooted sr h S ∗ tree l' h c ∗ sched a2 ∗ F) ?_ (by ent_ac)
        refine Triple.pre ?_ rooted_shape
        refine Triple.getFact fun hsh => ?_
        have hlen := pushInternal_length (h := h) hp hsh.2
        refine Triple.call (P₀ := rooted r (h + 1) T ∗ rooted sr h S) (pushInternal_rooted hp) fun _ => ?_
        show Triple E _ (loopN _ fuel (done.length + 1, n + (1 + m))) _
        rw [show done.length + 1 = (done ++ [kv]).length by simp]
        have := cloneInternalLoop_ref (l := l) (t := t) (r := r) hrec cs (done ++ [kv]) es (X ++ [c]) T' (n + (1 + m)) a2 al' fuel res (by rw [ht]; simp) (by rw [he]; simp)
          (by simp [hX]) (by simpa using hl) (by simpa using hf) (by rw [hlen, hn, hm]) hx
        rw [e] at this
        simp only [sep_assoc] at this
        refine Triple.pre this ?_
        ent_ac

theorem cloneSubtree_ref {ck : Cloner K} {cv : Cloner V} : ∀ {h : Nat} {l : Link} {t : ATree K V} {al al' : Alloc} {res : Res (Tree K V × Nat)},
    BTree.cloneSubtree ck cv h t.erase al = .ok (res, al') →
    Triple E (tree l h t ∗ sched al) (cloneSubtree ck cv h t.addr) (fun o => tree l h t ∗ sched al' ∗ ClonePost h res o)
  | 0, l, t, al, al', res, hx => by
    simp only [BTree.cloneSubtree] at hx
    unfold cloneSubtree
    refine Triple.call (P₀ := sched al) newLeaf_spec fun o => ?_
    cases o with
    | none =>
      dsimp only
      simp only [sep_assoc]
      refine Triple.getFact fun hno => ?_
      simp only [hno, Bool.false_eq_true, if_false, Exec.ok.injEq, Prod.mk.injEq] at hx
      obtain ⟨rfl, rfl⟩ := hx
      refine Triple.ofPure ?_
      rw [clonePost_error]
      simp only [fact_of]
      ent_ac
    | some r =>
      dsimp only
      simp only [sep_assoc]
      refine Triple.getFact fun hyes => ?_
      simp only [hyes, if_true] at hx
      obtain ⟨⟨rr, a1⟩, hl, hx⟩ := Exec.bind_eq_ok.1 hx
      refine Triple.callEq (P₀ := tree l 0 t) (newEdge_tree (Nat.zero_le _)) ?_
      refine Triple.pre ?_ (Ent.frame tree_cap _)
      simp only [sep_assoc]
      refine Triple.getFact fun hcap => ?_
      rw [ATree.erase_kvs] at hl
      refine Triple.call (P₀ := tree l 0 t ∗ rooted r 0 (emptySpine 0) ∗ sched al.request.2)
        (cloneLeafLoop_ref (l := l) (t := t) (r := r) t.kvs [] (emptySpine 0) _ a1 (CAPACITY + 1) rr (by simp) (by omega) hl) fun o => ?_
      cases rr with
      | error e =>
        simp only [Exec.ok.injEq, Prod.mk.injEq] at hx
        obtain ⟨rfl, rfl⟩ := hx
        rw [show (Except.map (fun T : Tree K V => (T, T.kvs.length)) (.error e) : Res (Tree K V × Nat)) = .error e from rfl, loopPost_error]
        simp only [sep_hex, hex_sep]
        refine Triple.ofHex fun x => ?_
        simp only [sep_assoc]
        refine Triple.getFact fun ho => ?_
        obtain ⟨rfl, hn⟩ := ho
        refine Triple.bindPure (a := (some e, x.2)) ?_
        dsimp only
        refine Triple.pre (P := (rep ⟨r, x.2⟩ (⟨0, x.1, false, x.2⟩ : Map K V)) ∗ tree l 0 t ∗ sched a1) ?_
          (by rw [own_rooted rfl, fact_of rfl, emp_sep]; simp only [sep_emp]; ent_ac)
        refine Triple.call (P₀ := rep ⟨r, x.2⟩ (⟨0, x.1, false, x.2⟩ : Map K V)) (mapDrop_spec hn) fun _ => ?_
        refine Triple.getFact fun _ => ?_
        refine Triple.ofPure ?_
        rw [clonePost_error]
        simp only [fact_of]
        ent_ac
      | ok T =>
        simp only [Exec.ok.injEq, Prod.mk.injEq] at hx
        obtain ⟨rfl, rfl⟩ := hx
        rw [show (Except.map (fun T : Tree K V => (T, T.kvs.length)) (.ok T) : Res (Tree K V × Nat)) = .ok (T, T.kvs.length) from rfl, loopPost_ok]
        simp only [sep_assoc]
        refine Triple.getFact fun ho => ?_
        obtain ⟨rfl, hn⟩ := ho
        show Triple E _ (pure _) _
        refine Triple.ofPure ?_
        rw [clonePost_ok]
        simp only [sep_hex]
        refine Ent.hex_right r ?_
        refine Ent.putFact ⟨rfl, hn⟩ ?_
        ent_ac
  | h + 1, l, t, al, al', res, hx => by
    simp only [BTree.cloneSubtree] at hx
    obtain ⟨c0, hc0, hx⟩ := Exec.bind_eq_ok.1 hx
    obtain ⟨⟨rr, a1⟩, hr, hx⟩ := Exec.bind_eq_ok.1 hx
    refine Triple.pre ?_ (Ent.frame tree_shape _)
    simp only [sep_assoc]
    refine Triple.getFact fun hs => ?_
    have hs2 : t.edges.length = t.kvs.length + 1 := hs.2
    rw [ATree.erase_edges] at hc0
    obtain ⟨X, c, Y, he, hX, rfl⟩ := getE_map_ok hc0
    obtain rfl : X = [] := List.eq_nil_of_length_eq_zero hX
    rw [List.nil_append] at he
    unfold cloneSubtree
    refine Triple.callEq (P₀ := tree l (h + 1) t) (newEdge_tree (Nat.zero_le _)) ?_
    refine Triple.callEq (P₀ := tree l (h + 1) t) (descend_tree (c := c) (by rw [he]; simp)) ?_
    obtain ⟨l', F, e, _⟩ := focus_self (h := h + 1) l (at_one (X := []) he rfl) (by simp)
    simp only [List.length_singleton, Nat.add_sub_cancel] at e
    rw [e]
    simp only [sep_assoc, sep_emp]
    refine Triple.call (P₀ := tree l' h c ∗ sched al) (cloneSubtree_ref hr) fun o => ?_
    cases rr with
    | error er =>
      simp only [Exec.ok.injEq, Prod.mk.injEq] at hx
      obtain ⟨rfl, rfl⟩ := hx
      rw [clonePost_error]
      simp only [sep_assoc]
      refine Triple.getFact fun ho => ?_
      subst ho
      dsimp only
      refine Triple.ofPure ?_
      rw [clonePost_error]
      simp only [fact_of]
      ent_ac
    | ok s =>
      obtain ⟨S, m⟩ := s
      dsimp only at hx
      rw [clonePost_ok]
      simp only [sep_hex, hex_sep]
      refine Triple.ofHex fun sr => ?_
      simp only [sep_assoc]
      refine Triple.getFact fun ho => ?_
      obtain ⟨rfl, hm⟩ := ho
      dsimp only
      refine Triple.call (P₀ := sched a1 ∗ rooted sr h S) pushLevel_rooted fun o => ?_
      cases o with
      | none =>
        dsimp only
        simp only [sep_assoc]
        refine Triple.getFact fun hno => ?_
        simp only [hno, Bool.false_eq_true, if_false, Exec.ok.injEq, Prod.mk.injEq] at hx
        obtain ⟨rfl, rfl⟩ := hx
        refine Triple.pre (P := (rep ⟨sr, m⟩ (⟨h, S, false, m⟩ : Map K V)) ∗ tree l' h c ∗ F ∗ sched a1.request.2) ?_
          (by rw [own_rooted rfl, fact_of rfl, emp_sep]; ent_ac)
        refine Triple.call (P₀ := rep ⟨sr, m⟩ (⟨h, S, false, m⟩ : Map K V)) (mapDrop_spec hm) fun _ => ?_
        refine Triple.getFact fun _ => ?_
        refine Triple.ofPure ?_
        rw [clonePost_error]
        simp only [fact_of]
        ent_ac
      | some r =>
        dsimp only
        simp only [sep_assoc]
        refine Triple.getFact fun hyes => ?_
        simp only [hyes, if_true] at hx
        refine Triple.pre (P := tree l (h + 1) t ∗ rooted r (h + 1) ⟨[], [S]⟩ ∗ sched a1.request.2) ?_
          (by rw [e]; ent_ac)
        refine Triple.callEq (P₀ := tree l (h + 1) t) (newEdge_tree (Nat.zero_le _)) ?_
        rw [ATree.erase_kvs, ATree.erase_edges, he] at hx
        have hlen : m = (BTree.toList (h + 1) (⟨[], [S]⟩ : Tree K V)).length := by rw [hm, BTree.toList_succ]; simp [BTree.inter]
        refine Triple.call (P₀ := tree l (h + 1) t ∗ rooted r (h + 1) ⟨[], [S]⟩ ∗ sched a1.request.2)
          (cloneInternalLoop_ref (l := l) (t := t) (r := r) (fun hr => cloneSubtree_ref hr) t.kvs [] Y [c] ⟨[], [S]⟩ m _ al' (CAPACITY + 1) res (by simp) (by rw [he]; simp) rfl
            (by rw [he] at hs2; simpa using hs2) (by have := hs.1; omega) hlen hx) fun o => ?_
        cases res with
        | error er =>
          rw [loopPost_error]
          simp only [sep_hex, hex_sep]
          refine Triple.ofHex fun x => ?_
          simp only [sep_assoc]
          refine Triple.getFact fun ho => ?_
          obtain ⟨rfl, hn⟩ := ho
          refine Triple.bindPure (a := (some er, x.2)) ?_
          dsimp only
          refine Triple.pre (P := (rep ⟨r, x.2⟩ (⟨h + 1, x.1, false, x.2⟩ : Map K V)) ∗ tree l (h + 1) t ∗ sched al') ?_
            (by rw [own_rooted rfl, fact_of rfl, emp_sep]; simp only [sep_emp]; ent_ac)
          refine Triple.call (P₀ := rep ⟨r, x.2⟩ (⟨h + 1, x.1, false, x.2⟩ : Map K V)) (mapDrop_spec hn) fun _ => ?_
          refine Triple.getFact fun _ => ?_
          refine Triple.ofPure ?_
          rw [clonePost_error, e]
          simp only [fact_of]
          ent_ac
        | ok y =>
          obtain ⟨T, n⟩ := y
          rw [loopPost_ok]
          simp only [sep_assoc]
          refine Triple.getFact fun ho => ?_
          obtain ⟨rfl, hn⟩ := ho
          refine Triple.bindPure (a := (none, n)) ?_
          dsimp only
          refine Triple.ofPure ?_
          rw [clonePost_ok, e]
          simp only [sep_hex]
          refine Ent.hex_right r ?_
          refine Ent.putFact ⟨rfl, hn⟩ ?_
          ent_ac

/-! ### the operations -/

/-- What `try_clone` leaves: the original, and the copy if it succeeds and nothing else if it does not. -/
def TryClonePost (hm : HMap) (M : Map K V) (res : Res (Map K V)) (o : Res HMap) : HProp K V :=
  match res with
  | .ok C => hex fun hc : HMap => fact (o = .ok hc) ∗ rep hc C ∗ rep hm M
  | .error e => fact (o = .error e) ∗ rep hm M

theorem tryClonePost_ok {hm : HMap} {M C : Map K V} {o : Res HMap} :
    TryClonePost hm M (.ok C) o = hex fun hc : HMap => fact (o = .ok hc) ∗ rep hc C ∗ rep hm M := rfl

theorem tryClonePost_error {hm : HMap} {M : Map K V} {e : TryReserveError} {o : Res HMap} :
    TryClonePost hm M (.error e) o = (fact (o = .error e) ∗ rep hm M) := rfl

theorem tryClone_ref {ck : Cloner K} {cv : Cloner V} {hm : HMap} {M : Map K V} {al al' : Alloc} {res : Res (Map K V)}
    (hsh : M.shared = true → M.length = 0) (hx : M.tryClone ck cv al = .ok (res, al')) :
    Triple E (rep hm M ∗ sched al) (hm.tryClone ck cv) (fun o => sched al' ∗ TryClonePost hm M res o) := by
  by_cases h0 : M.length = 0
  · simp only [BTree.Map.tryClone, BTree.Map.len, h0, if_true, Exec.ok.injEq, Prod.mk.injEq] at hx
    obtain ⟨rfl, rfl⟩ := hx
    refine Triple.pre ?_ (Ent.frame rep_length _)
    simp only [sep_assoc]
    refine Triple.getFact fun hl => ?_
    unfold HMap.tryClone
    rw [if_pos (by rw [hl, h0])]
    refine Triple.ofPure ?_
    rw [tryClonePost_ok]
    simp only [sep_hex]
    refine Ent.hex_right HMap.new ?_
    rw [rep_new, emp_sep]
    refine Ent.putFact rfl ?_
    ent_ac
  · have hs : M.shared = false := by
      cases h : M.shared with
      | false => rfl
      | true => exact absurd (hsh h) h0
    simp only [BTree.Map.tryClone, BTree.Map.len, h0, if_false] at hx
    obtain ⟨⟨rr, a1⟩, hr, hx⟩ := Exec.bind_eq_ok.1 hx
    rw [own_rooted hs]
    refine Triple.pre (P := fact (hm.length = M.length) ∗ rooted hm.root M.height M.root ∗ sched al) ?_ (Ent.of_eq (sep_assoc ..))
    refine Triple.getFact fun hlen => ?_
    refine rooted_elim fun ta pi he hroot => ?_
    unfold HMap.tryClone
    rw [if_neg (by rw [hlen]; exact h0), hroot]
    dsimp only
    rw [← he] at hr
    refine (cloneSubtree_ref hr).post fun o => ?_
    have back : Ent (tree (none, pi) M.height ta) (rep hm M) := by
      rw [own_rooted hs, hroot, ← he]
      exact Ent.fact_right hlen rooted_intro
    cases rr with
    | error e =>
      simp only [Exec.ok.injEq, Prod.mk.injEq] at hx
      obtain ⟨rfl, rfl⟩ := hx
      rw [clonePost_error, tryClonePost_error]
      refine Ent.trans ?_ (Ent.sep (Ent.refl _) (Ent.sep (Ent.refl _) back))
      ent_ac
    | ok y =>
      obtain ⟨T, n⟩ := y
      simp only [Exec.ok.injEq, Prod.mk.injEq] at hx
      obtain ⟨rfl, rfl⟩ := hx
      rw [clonePost_ok, tryClonePost_ok]
      simp only [sep_hex]
      intro w hw
      obtain ⟨r, hw⟩ := hw
      refine ⟨⟨r, n⟩, ?_⟩
      have : Ent (tree (none, pi) M.height ta ∗ sched a1 ∗ fact (o = .ok ⟨r, n⟩ ∧ n = (BTree.toList M.height T).length) ∗ rooted r M.height T)
          (sched a1 ∗ fact (o = .ok ⟨r, n⟩) ∗ rep ⟨r, n⟩ (⟨M.height, T, false, n⟩ : Map K V) ∗ rep hm M) := by
        rw [own_rooted (M := (⟨M.height, T, false, n⟩ : Map K V)) rfl, fact_of rfl, emp_sep]
        refine Ent.getFact fun ho => ?_
        refine Ent.putFact ho.1 ?_
        refine Ent.trans ?_ (Ent.sep (Ent.refl _) (Ent.sep (Ent.refl _) back))
        ent_ac
      exact this w hw

theorem clone_ref {fk : K → K} {fv : V → V} {hm : HMap} {M C : Map K V} {al al' : Alloc}
    (hsh : M.shared = true → M.length = 0) (hx : M.clone fk fv al = .ok (C, al')) :
    Triple E (rep hm M ∗ sched al) (hm.clone fk fv) (fun hc => sched al' ∗ rep hc C ∗ rep hm M) := by
  simp only [BTree.Map.clone] at hx
  obtain ⟨⟨rr, a1⟩, hr, hx⟩ := Exec.bind_eq_ok.1 hx
  unfold HMap.clone
  refine Triple.seq (tryClone_ref hsh hr) fun o => ?_
  cases rr with
  | error e => simp at hx
  | ok C' =>
    simp only [Exec.ok.injEq, Prod.mk.injEq] at hx
    obtain ⟨rfl, rfl⟩ := hx
    rw [tryClonePost_ok]
    simp only [sep_hex]
    refine Triple.ofHex fun hc => ?_
    refine Triple.getFact fun ho => ?_
    subst ho
    exact Triple.ofPure (Ent.refl _)

/-- If `clone` panics at level 1, it panics in memory. -/
theorem clone_panic {fk : K → K} {fv : V → V} {hm : HMap} {M : Map K V} {al : Alloc} {msg : String} {Qb : HMap → HProp K V}
    (hsh : M.shared = true → M.length = 0) (hx : M.clone fk fv al = .panic msg) (hwf : ∃ x, M.tryClone (fun k a => (.ok (fk k), a)) (fun v a => (.ok (fv v), a)) al = .ok x)
    (hE : E msg) : Triple E (rep hm M ∗ sched al) (hm.clone fk fv) Qb := by
  obtain ⟨⟨rr, a1⟩, hr⟩ := hwf
  simp only [BTree.Map.clone, hr, Exec.ok_bind] at hx
  unfold HMap.clone
  refine Triple.seq (tryClone_ref hsh hr) fun o => ?_
  cases rr with
  | ok C' => simp at hx
  | error e =>
    simp only [Exec.panic.injEq] at hx
    subst hx
    rw [tryClonePost_error]
    refine Triple.getFact fun ho => ?_
    subst ho
    exact Triple.ofPanic hE

end Verif.Heap
