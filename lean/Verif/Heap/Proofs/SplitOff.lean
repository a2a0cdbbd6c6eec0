import Verif.Heap.Bulk
import Verif.Heap.Proofs.BulkRef
import Verif.Heap.Proofs.RangeMap
import Verif.Heap.Proofs.RemoveMap
import Verif.Heap.Proofs.IntoIter
import Verif.BTree.Proofs.Append
/-
`split_off` in memory does what the level-1 model says, and leaks nothing when it fails.
-/
namespace Verif.Heap
open Verif
open Verif.BTree (B MIN_LEN CAPACITY Tree Handle setE sliceInsert sliceRemove Map emptyLeaf emptySpine)

variable {K V Q α β : Type} {E : String → Prop}

/-- Split a tree into the child in edge `i` and the rest, in a form that allows to change the child. -/
theorem open_child {l : Link} {h i : Nat} {t : ATree K V} {c : Tree K V} (hg : getE t.erase.edges i = .ok c) :
    ∃ cA F, t.edges[i]? = some cA ∧ cA.erase = c ∧ tree l (h + 1) t = (tree (some t.addr, some i) h cA ∗ F) ∧
      ∀ c' es, setE t.erase.edges i c' = .ok es →
        Ent (holds (some t.addr, some i) h cA.addr c' ∗ F) (holds l (h + 1) t.addr ⟨t.erase.kvs, es⟩) := by
  obtain ⟨a, kvs, es⟩ := t
  simp only [ATree.erase_mk] at hg ⊢
  obtain ⟨X, cA, Y, rfl, hX, hc⟩ := getE_map_ok hg
  refine ⟨cA, fact (X.length + Y.length + 1 = kvs.length + 1 ∧ kvs.length ≤ CAPACITY) ∗
      pts a (nd .internal l kvs (addrs X ++ cA.addr :: addrs Y)) ∗ kids h a 0 X ∗ kids h a (X.length + 1) Y, ?_, hc, ?_, ?_⟩
  · subst hX; simp
  · rw [tree_internal', hX]
    ac_rfl
  · intro c' es hs
    rw [List.map_append, List.map_cons, setE_mid (by simpa using hX)] at hs
    simp only [Exec.ok.injEq] at hs
    subst hs
    unfold holds
    rw [hex_sep]
    intro w hw0
    obtain ⟨ta, hw0⟩ := hw0
    rw [sep_assoc] at hw0
    obtain ⟨⟨rfl, hta⟩, hw⟩ := fact_sep.1 hw0
    clear hw0
    refine ⟨⟨a, kvs, X ++ ta :: Y⟩, fact_sep.2 ⟨⟨by simp [ATree.erase_mk], rfl⟩, ?_⟩⟩
    rw [tree_internal', hta, hX]
    revert hw
    have : Ent (tree (some a, some i) h ta ∗ fact (X.length + Y.length + 1 = kvs.length + 1 ∧ kvs.length ≤ CAPACITY) ∗
      pts a (nd .internal l kvs (addrs X ++ cA.addr :: addrs Y)) ∗ kids h a 0 X ∗ kids h a (X.length + 1) Y)
      (fact (X.length + Y.length + 1 = kvs.length + 1 ∧ kvs.length ≤ CAPACITY) ∗
      pts a (nd .internal l kvs (addrs X ++ cA.addr :: addrs Y)) ∗ kids h a 0 X ∗ tree (some a, some i) h ta ∗ kids h a (X.length + 1) Y) := by
      ent_ac
    rw [← hX]
    rw [← hX] at this
    exact this w

/-- Run a computation on a child found through the level-1 tree. -/
theorem Triple.atChild {m : HM K V β} {l : Link} {h i : Nat} {t : ATree K V} {c c' : Tree K V} {es : List (Tree K V)} (hg : getE t.erase.edges i = .ok c)
    (hs : setE t.erase.edges i c' = .ok es)
    (hm : ∀ (cA : ATree K V) l', t.edges[i]? = some cA → cA.erase = c → Triple E (tree l' h cA) m (fun _ => holds l' h cA.addr c')) :
    Triple E (tree l (h + 1) t) m (fun _ => holds l (h + 1) t.addr ⟨t.erase.kvs, es⟩) := by
  obtain ⟨cA, F, h1, h2, h3, h4⟩ := open_child (l := l) (h := h) hg
  rw [h3]
  refine Triple.callLast (P₀ := tree (some t.addr, some i) h cA) (hm cA _ h1 h2) fun _ => ?_
  exact h4 c' es hs

theorem holds_elim {m : HM K V β} {Qb : β → HProp K V} {l : Link} {h : Nat} {a : Addr} {t : Tree K V} {R : HProp K V}
    (hm : ∀ ta : ATree K V, ta.erase = t → ta.addr = a → Triple E (tree l h ta ∗ R) m Qb) : Triple E (holds l h a t ∗ R) m Qb := by
  unfold holds
  rw [hex_sep]
  refine Triple.ofHex fun ta => ?_
  rw [sep_assoc]
  exact Triple.getFact fun hf => hm ta hf.1 hf.2

theorem holds_elim' {m : HM K V β} {Qb : β → HProp K V} {l : Link} {h : Nat} {a : Addr} {t : Tree K V}
    (hm : ∀ ta : ATree K V, ta.erase = t → ta.addr = a → Triple E (tree l h ta) m Qb) : Triple E (holds l h a t) m Qb := by
  unfold holds
  refine Triple.ofHex fun ta => ?_
  exact Triple.getFact fun hf => hm ta hf.1 hf.2

theorem holds_intro {l : Link} {h : Nat} {ta : ATree K V} : Ent (tree l h ta) (holds l h ta.addr ta.erase) :=
  Ent.hex_right ta (Ent.fact_right ⟨rfl, rfl⟩ (Ent.refl _))

/-! ### the splitting loop -/

theorem splitLoop_ref [Ord Q] {bor : K → Q} {q : Q} : ∀ {h : Nat} {ll lr : Link} {tl tr : ATree K V} {x : Tree K V × Tree K V},
    BTree.splitLoop bor q h tl.erase tr.erase = .ok x →
    Triple E (tree ll h tl ∗ tree lr h tr) (splitLoop bor q h tl.addr tr.addr) (fun _ => holds ll h tl.addr x.1 ∗ holds lr h tr.addr x.2)
  | 0, ll, lr, tl, tr, x, hx => by
    simp only [BTree.splitLoop, ATree.erase_kvs] at hx
    obtain ⟨tl', tr', rfl, e1, e2, hle, _, hm⟩ := moveSuffix_ref (E := E) (ll := ll) (lr := lr) (h := 0) hx
    unfold splitLoop
    refine Triple.callEq (P₀ := tree ll 0 tl) searchLinear_tree ?_
    refine Triple.callEq (P₀ := tree ll 0 tl) (newEdge_tree hle) ?_
    refine hm.post fun _ => ?_
    rw [← e1, ← e2]
    exact Ent.sep holds_intro holds_intro
  | h + 1, ll, lr, tl, tr, x, hx => by
    simp only [BTree.splitLoop, ATree.erase_kvs] at hx
    obtain ⟨⟨y1, y2⟩, hmv, hx⟩ := Exec.bind_eq_ok.1 hx
    obtain ⟨tl', tr', e, e1, e2, hle, hlen, hm⟩ := moveSuffix_ref (E := E) (ll := ll) (lr := lr) (h := h + 1) hmv
    simp only [Prod.mk.injEq] at e
    obtain ⟨rfl, rfl⟩ := e
    obtain ⟨cl, hcl, hx⟩ := Exec.bind_eq_ok.1 hx
    obtain ⟨cr, hcr, hx⟩ := Exec.bind_eq_ok.1 hx
    obtain ⟨⟨cl', cr'⟩, hrec, hx⟩ := Exec.bind_eq_ok.1 hx
    obtain ⟨le, hle', hx⟩ := Exec.bind_eq_ok.1 hx
    obtain ⟨re, hre', hx⟩ := Exec.bind_eq_ok.1 hx
    simp only [Exec.ok.injEq] at hx
    subst hx
    obtain ⟨clA, F, h1, rfl, h3, h4⟩ := open_child (l := ll) (h := h) hcl
    obtain ⟨crA, G, g1, rfl, g3, g4⟩ := open_child (l := lr) (h := h) hcr
    unfold splitLoop
    refine Triple.callEq (P₀ := tree ll (h + 1) tl) searchLinear_tree ?_
    refine Triple.callEq (P₀ := tree ll (h + 1) tl) (newEdge_tree hle) ?_
    refine Triple.seq hm fun _ => ?_
    rw [← e1, ← e2]
    refine Triple.callEq (P₀ := tree ll (h + 1) tl') (descend_tree h1) ?_
    refine Triple.callEq (P₀ := tree lr (h + 1) tr') (newEdge_tree (Nat.zero_le _)) ?_
    refine Triple.callEq (P₀ := tree lr (h + 1) tr') (descend_tree g1) ?_
    rw [h3, g3]
    simp only [sep_assoc]
    refine Triple.callLast (P₀ := tree (some tl'.addr, some (BTree.searchLinear bor q tl.kvs).1) h clA ∗ tree (some tr'.addr, some 0) h crA)
      (splitLoop_ref hrec) fun _ => ?_
    refine Ent.trans ?_ (Ent.sep (h4 cl' le hle') (g4 cr' re hre'))
    ent_ac

/-! ### repairing the borders -/

theorem fixRightLoop_ref : ∀ {h : Nat} {l : Link} {t : ATree K V} {t' : Tree K V}, BTree.fixRightLoop h t.erase = .ok t' →
    Triple E (tree l h t) (fixRightLoop h t.addr) (fun _ => holds l h t.addr t')
  | 0, l, t, t', hx => by
    simp only [BTree.fixRightLoop, Exec.ok.injEq] at hx
    subst hx
    exact Triple.ofPure holds_intro
  | h + 1, l, t, t', hx => by
    simp only [BTree.fixRightLoop] at hx
    obtain ⟨_, hq, hx⟩ := Exec.bind_eq_ok.1 hx
    have hpos := require_ok hq
    simp only [ATree.erase_len, decide_eq_true_eq] at hpos hx
    obtain ⟨b, hcm, hx⟩ := Exec.bind_eq_ok.1 hx
    have hlt : t.kvs.length - 1 < t.kvs.length := by omega
    unfold fixRightLoop
    refine Triple.callEq (P₀ := tree l (h + 1) t) lenOf_tree ?_
    simp only [sep_emp]
    refine Triple.bindReq (by simpa using hpos) ?_
    refine Triple.callEq (P₀ := tree l (h + 1) t) (newKv_tree hlt) ?_
    refine Triple.callEq (P₀ := tree l (h + 1) t) (canMerge_ref hlt hcm) ?_
    simp only [sep_emp]
    cases b with
    | true =>
      simp only [if_true] at hx ⊢
      obtain ⟨t1, hm, hx⟩ := Exec.bind_eq_ok.1 hx
      obtain ⟨c, hc, hx⟩ := Exec.bind_eq_ok.1 hx
      obtain ⟨c', hc', hx⟩ := Exec.bind_eq_ok.1 hx
      obtain ⟨es, hes, hx⟩ := Exec.bind_eq_ok.1 hx
      simp only [Exec.ok.injEq] at hx
      subst hx
      refine Triple.callEq (P₀ := tree l (h + 1) t) (merge_ref hlt hm) ?_
      simp only [sep_emp]
      refine holds_elim' fun ta he ha => ?_
      subst he
      rw [← ha]
      obtain ⟨cA, F, h1, h2, h3, h4⟩ := open_child (l := l) (h := h) hc
      refine Triple.callEq (P₀ := tree l (h + 1) ta) (descend_tree h1) ?_
      simp only [sep_emp]
      refine Triple.atChild hc hes fun cA' l' e1 e2 => ?_
      rw [h1, Option.some.injEq] at e1
      subst e1 e2
      exact fixRightLoop_ref hc'
    | false =>
      simp only [Bool.false_eq_true, if_false] at hx ⊢
      obtain ⟨r, hr, hx⟩ := Exec.bind_eq_ok.1 hx
      obtain ⟨t1, hm, hx⟩ := Exec.bind_eq_ok.1 hx
      obtain ⟨c, hc, hx⟩ := Exec.bind_eq_ok.1 hx
      obtain ⟨c', hc', hx⟩ := Exec.bind_eq_ok.1 hx
      obtain ⟨es, hes, hx⟩ := Exec.bind_eq_ok.1 hx
      simp only [Exec.ok.injEq] at hx
      subst hx
      obtain ⟨rA, F, h1, h2, h3, h4⟩ := open_child (l := l) (h := h) hr
      refine Triple.callEq (P₀ := tree l (h + 1) t) (newEdge_tree (ht := h + 1) (i := t.kvs.length - 1 + 1) (by omega)) ?_
      refine Triple.callEq (P₀ := tree l (h + 1) t) (descend_tree h1) ?_
      simp only [sep_emp]
      have hlen : Triple E (tree l (h + 1) t) (lenOf rA.addr) (fun r => fact (r = rA.kvs.length) ∗ tree l (h + 1) t) := by
        rw [h3]
        refine Triple.callLast (P₀ := tree (some t.addr, some (t.kvs.length - 1 + 1)) h rA) lenOf_tree fun r => ?_
        exact Ent.of_eq (sep_assoc ..)
      refine Triple.callEq (P₀ := tree l (h + 1) t) hlen ?_
      simp only [sep_emp]
      subst h2
      rw [ATree.erase_len] at hm
      have hst : Triple E (tree l (h + 1) t)
          (if rA.kvs.length < MIN_LEN + 1 then bulkStealLeft ⟨h + 1, t.addr, t.kvs.length - 1⟩ (MIN_LEN + 1 - rA.kvs.length) else pure ())
          (fun _ => holds l (h + 1) t.addr t1) := by
        split at hm
        · next hlt2 => rw [if_pos hlt2]; exact bulkStealLeft_ref hlt hm
        · next hlt2 =>
          rw [if_neg hlt2]
          simp only [Exec.ok.injEq] at hm
          subst hm
          exact Triple.ofPure holds_intro
      have hrest : Triple E (holds l (h + 1) t.addr t1)
          ((newEdge ⟨h + 1, t.addr⟩ (t.kvs.length - 1 + 1) : HM K V _) >>= fun e => descend e >>= fun n => fixRightLoop h n.node)
          (fun _ => holds l (h + 1) t.addr ⟨t1.kvs, es⟩) := by
        refine holds_elim' fun ta he ha => ?_
        subst he
        rw [← ha]
        obtain ⟨cA, G, k1, k2, k3, k4⟩ := open_child (l := l) (h := h) hc
        refine Triple.pre ?_ tree_shape
        refine Triple.getFact fun hs => ?_
        have hs2 : ta.edges.length = ta.kvs.length + 1 := hs.2
        have hk1 := (List.getElem?_eq_some_iff.1 k1).1
        refine Triple.callEq (P₀ := tree l (h + 1) ta) (newEdge_tree (by omega)) ?_
        refine Triple.callEq (P₀ := tree l (h + 1) ta) (descend_tree k1) ?_
        simp only [sep_emp]
        refine Triple.atChild hc hes fun cA' l' e1 e2 => ?_
        rw [k1, Option.some.injEq] at e1
        subst e1 e2
        exact fixRightLoop_ref hc'
      split
      · next hlt2 =>
        rw [if_pos hlt2] at hst
        exact Triple.seq hst fun _ => hrest
      · next hlt2 =>
        rw [if_neg hlt2] at hm
        simp only [Exec.ok.injEq] at hm
        refine Triple.pre hrest ?_
        rw [← hm]
        exact holds_intro

theorem fixLeftLoop_ref : ∀ {h : Nat} {l : Link} {t : ATree K V} {t' : Tree K V}, BTree.fixLeftLoop h t.erase = .ok t' →
    Triple E (tree l h t) (fixLeftLoop h t.addr) (fun _ => holds l h t.addr t')
  | 0, l, t, t', hx => by
    simp only [BTree.fixLeftLoop, Exec.ok.injEq] at hx
    subst hx
    exact Triple.ofPure holds_intro
  | h + 1, l, t, t', hx => by
    simp only [BTree.fixLeftLoop] at hx
    obtain ⟨_, hq, hx⟩ := Exec.bind_eq_ok.1 hx
    have hpos := require_ok hq
    simp only [ATree.erase_len, decide_eq_true_eq] at hpos hx
    obtain ⟨b, hcm, hx⟩ := Exec.bind_eq_ok.1 hx
    unfold fixLeftLoop
    refine Triple.callEq (P₀ := tree l (h + 1) t) lenOf_tree ?_
    simp only [sep_emp]
    refine Triple.bindReq (by simpa using hpos) ?_
    refine Triple.callEq (P₀ := tree l (h + 1) t) (newKv_tree hpos) ?_
    refine Triple.callEq (P₀ := tree l (h + 1) t) (canMerge_ref hpos hcm) ?_
    simp only [sep_emp]
    cases b with
    | true =>
      simp only [if_true] at hx ⊢
      obtain ⟨t1, hm, hx⟩ := Exec.bind_eq_ok.1 hx
      obtain ⟨c, hc, hx⟩ := Exec.bind_eq_ok.1 hx
      obtain ⟨c', hc', hx⟩ := Exec.bind_eq_ok.1 hx
      obtain ⟨es, hes, hx⟩ := Exec.bind_eq_ok.1 hx
      simp only [Exec.ok.injEq] at hx
      subst hx
      refine Triple.callEq (P₀ := tree l (h + 1) t) (merge_ref hpos hm) ?_
      simp only [sep_emp]
      refine holds_elim' fun ta he ha => ?_
      subst he
      rw [← ha]
      obtain ⟨cA, F, h1, h2, h3, h4⟩ := open_child (l := l) (h := h) hc
      refine Triple.callEq (P₀ := tree l (h + 1) ta) (descend_tree h1) ?_
      simp only [sep_emp]
      refine Triple.atChild hc hes fun cA' l' e1 e2 => ?_
      rw [h1, Option.some.injEq] at e1
      subst e1 e2
      exact fixLeftLoop_ref hc'
    | false =>
      simp only [Bool.false_eq_true, if_false] at hx ⊢
      obtain ⟨r, hr, hx⟩ := Exec.bind_eq_ok.1 hx
      obtain ⟨t1, hm, hx⟩ := Exec.bind_eq_ok.1 hx
      obtain ⟨c, hc, hx⟩ := Exec.bind_eq_ok.1 hx
      obtain ⟨c', hc', hx⟩ := Exec.bind_eq_ok.1 hx
      obtain ⟨es, hes, hx⟩ := Exec.bind_eq_ok.1 hx
      simp only [Exec.ok.injEq] at hx
      subst hx
      obtain ⟨rA, F, h1, h2, h3, h4⟩ := open_child (l := l) (h := h) hr
      refine Triple.callEq (P₀ := tree l (h + 1) t) (newEdge_tree (ht := h + 1) (i := 0) (by omega)) ?_
      refine Triple.callEq (P₀ := tree l (h + 1) t) (descend_tree h1) ?_
      simp only [sep_emp]
      have hlen : Triple E (tree l (h + 1) t) (lenOf rA.addr) (fun r => fact (r = rA.kvs.length) ∗ tree l (h + 1) t) := by
        rw [h3]
        refine Triple.callLast (P₀ := tree (some t.addr, some 0) h rA) lenOf_tree fun r => ?_
        exact Ent.of_eq (sep_assoc ..)
      refine Triple.callEq (P₀ := tree l (h + 1) t) hlen ?_
      simp only [sep_emp]
      subst h2
      rw [ATree.erase_len] at hm
      have hst : Triple E (tree l (h + 1) t)
          (if rA.kvs.length < MIN_LEN + 1 then bulkStealRight ⟨h + 1, t.addr, 0⟩ (MIN_LEN + 1 - rA.kvs.length) else pure ())
          (fun _ => holds l (h + 1) t.addr t1) := by
        split at hm
        · next hlt2 => rw [if_pos hlt2]; exact bulkStealRight_ref hpos hm
        · next hlt2 =>
          rw [if_neg hlt2]
          simp only [Exec.ok.injEq] at hm
          subst hm
          exact Triple.ofPure holds_intro
      have hrest : Triple E (holds l (h + 1) t.addr t1)
          ((newEdge ⟨h + 1, t.addr⟩ 0 : HM K V _) >>= fun e => descend e >>= fun n => fixLeftLoop h n.node)
          (fun _ => holds l (h + 1) t.addr ⟨t1.kvs, es⟩) := by
        refine holds_elim' fun ta he ha => ?_
        subst he
        rw [← ha]
        obtain ⟨cA, G, k1, k2, k3, k4⟩ := open_child (l := l) (h := h) hc
        refine Triple.callEq (P₀ := tree l (h + 1) ta) (newEdge_tree (by omega)) ?_
        refine Triple.callEq (P₀ := tree l (h + 1) ta) (descend_tree k1) ?_
        simp only [sep_emp]
        refine Triple.atChild hc hes fun cA' l' e1 e2 => ?_
        rw [k1, Option.some.injEq] at e1
        subst e1 e2
        exact fixLeftLoop_ref hc'
      split
      · next hlt2 =>
        rw [if_pos hlt2] at hst
        exact Triple.seq hst fun _ => hrest
      · next hlt2 =>
        rw [if_neg hlt2] at hm
        simp only [Exec.ok.injEq] at hm
        refine Triple.pre hrest ?_
        rw [← hm]
        exact holds_intro

/-! ### the root -/

/-- The tree of height `h` and root node `r` is the level-1 tree `t`, and it has no parent. -/
def rooted (r : NRef) (h : Nat) (t : Tree K V) : HProp K V :=
  hex fun x : ATree K V × Option Nat => fact (x.1.erase = t ∧ r = ⟨h, x.1.addr⟩) ∗ tree (none, x.2) h x.1

theorem rooted_intro {pi : Option Nat} {h : Nat} {ta : ATree K V} : Ent (tree (none, pi) h ta) (rooted ⟨h, ta.addr⟩ h ta.erase) :=
  Ent.hex_right (ta, pi) (Ent.fact_right ⟨rfl, rfl⟩ (Ent.refl _))

theorem rooted_holds {pi : Option Nat} {h : Nat} {a : Addr} {t : Tree K V} : Ent (holds (none, pi) h a t) (rooted ⟨h, a⟩ h t) := by
  intro w hw
  obtain ⟨ta, hw⟩ := hw
  obtain ⟨⟨h1, h2⟩, hw⟩ := fact_sep.1 hw
  exact ⟨(ta, pi), fact_sep.2 ⟨⟨h1, by rw [h2]⟩, hw⟩⟩

theorem rooted_elim {m : HM K V β} {Qb : β → HProp K V} {r : NRef} {h : Nat} {t : Tree K V} {R : HProp K V}
    (hm : ∀ (ta : ATree K V) pi, ta.erase = t → r = ⟨h, ta.addr⟩ → Triple E (tree (none, pi) h ta ∗ R) m Qb) : Triple E (rooted r h t ∗ R) m Qb := by
  unfold rooted
  rw [hex_sep]
  refine Triple.ofHex fun ta => ?_
  rw [sep_assoc]
  exact Triple.getFact fun hf => hm ta.1 ta.2 hf.1 hf.2

theorem rooted_elim' {m : HM K V β} {Qb : β → HProp K V} {r : NRef} {h : Nat} {t : Tree K V}
    (hm : ∀ (ta : ATree K V) pi, ta.erase = t → r = ⟨h, ta.addr⟩ → Triple E (tree (none, pi) h ta) m Qb) : Triple E (rooted r h t) m Qb := by
  unfold rooted
  refine Triple.ofHex fun ta => ?_
  exact Triple.getFact fun hf => hm ta.1 ta.2 hf.1 hf.2

theorem fixTop_ref : ∀ {h : Nat} {pi : Option Nat} {t : ATree K V} {x : Nat × Tree K V}, BTree.fixTop h t.erase = .ok x →
    Triple E (tree (none, pi) h t) (fixTop h t.addr) (fun r => rooted r x.1 x.2)
  | 0, pi, t, x, hx => by
    simp only [BTree.fixTop, Exec.ok.injEq] at hx
    subst hx
    exact Triple.ofPure rooted_intro
  | h + 1, pi, t, x, hx => by
    simp only [BTree.fixTop, ATree.erase_len] at hx
    unfold fixTop
    refine Triple.callEq (P₀ := tree (none, pi) (h + 1) t) lenOf_tree ?_
    simp only [sep_emp]
    split at hx
    · next hlt =>
      rw [if_pos hlt]
      simp only [Exec.ok.injEq] at hx
      subst hx
      exact Triple.ofPure rooted_intro
    · next hlt =>
      rw [if_neg hlt]
      obtain ⟨c, hc, hx⟩ := Exec.bind_eq_ok.1 hx
      refine Triple.pre ?_ tree_shape
      refine Triple.getFact fun hs => ?_
      have hs2 : t.edges.length = t.kvs.length + 1 := hs.2
      obtain ⟨a, kvs, es⟩ := t
      dsimp only at *
      have hk : kvs = [] := List.eq_nil_of_length_eq_zero (by omega)
      subst hk
      match es, hs2 with
      | [c'], _ =>
        have : c = c'.erase := by
          rw [ATree.erase_mk] at hc
          simpa [getE] using hc.symm
        subst this
        refine Triple.seq popLevel_spec fun r => ?_
        refine Triple.getFact fun hr => ?_
        subst hr
        exact fixTop_ref hx

theorem fixRightBorder_ref {pi : Option Nat} {h : Nat} {t : ATree K V} {x : Nat × Tree K V} (hx : BTree.fixRightBorder (h, t.erase) = .ok x) :
    Triple E (tree (none, pi) h t) (fixRightBorder ⟨h, t.addr⟩) (fun r => rooted r x.1 x.2) := by
  simp only [BTree.fixRightBorder] at hx
  obtain ⟨⟨h1, t1⟩, hx1, hx⟩ := Exec.bind_eq_ok.1 hx
  obtain ⟨t2, hx2, hx⟩ := Exec.bind_eq_ok.1 hx
  unfold fixRightBorder
  refine Triple.seq (fixTop_ref hx1) fun r => ?_
  refine rooted_elim' fun ta pi' he hr => ?_
  dsimp only at he hr
  subst he hr
  refine Triple.seq (fixRightLoop_ref hx2) fun _ => ?_
  refine holds_elim' fun ta' he ha => ?_
  subst he
  dsimp only
  rw [← ha]
  exact fixTop_ref hx

theorem fixLeftBorder_ref {pi : Option Nat} {h : Nat} {t : ATree K V} {x : Nat × Tree K V} (hx : BTree.fixLeftBorder (h, t.erase) = .ok x) :
    Triple E (tree (none, pi) h t) (fixLeftBorder ⟨h, t.addr⟩) (fun r => rooted r x.1 x.2) := by
  simp only [BTree.fixLeftBorder] at hx
  obtain ⟨⟨h1, t1⟩, hx1, hx⟩ := Exec.bind_eq_ok.1 hx
  obtain ⟨t2, hx2, hx⟩ := Exec.bind_eq_ok.1 hx
  unfold fixLeftBorder
  refine Triple.seq (fixTop_ref hx1) fun r => ?_
  refine rooted_elim' fun ta pi' he hr => ?_
  dsimp only at he hr
  subst he hr
  refine Triple.seq (fixLeftLoop_ref hx2) fun _ => ?_
  refine holds_elim' fun ta' he ha => ?_
  subst he
  dsimp only
  rw [← ha]
  exact fixTop_ref hx

end Verif.Heap
