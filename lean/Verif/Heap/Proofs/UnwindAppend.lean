import Verif.Heap.Unwind
import Verif.Heap.Proofs.AppendMap
import Verif.Heap.Proofs.Program
import Verif.BTree.Proofs.Unwind
/-
`append` that unwinds, in memory: what it leaves is the map of Verif/BTree/Unwind.lean, and every pair is in that map or dropped.
-/
namespace Verif.Heap
open Verif
open Verif.BTree (B MIN_LEN CAPACITY Tree Handle Map emptyLeaf emptySpine setE mergeIter mergeIterP fromSortedP Why Outcome)

variable {K V Q α β : Type} {E : String → Prop}

/-- Dropping a peekable consuming iterator drops the items it has left and frees what is left of the tree. -/
theorem peekDrop_all {p : Peek K V} {l : List (K × V)} : Triple E (peeking p l) p.drop (fun o => fact (o.Perm l)) := by
  obtain ⟨it, b, pk⟩ := p
  unfold Peek.drop
  have hd : ∀ l : List (K × V), Triple E (consuming b it l) (it.drop b : HM K V _) (fun o => fact (o = l)) := fun l => by
    refine Triple.pre ?_ consuming_length
    exact Triple.getFact fun hn => drop_spec hn
  cases pk with
  | none =>
    rw [peeking_none]
    refine Triple.seq (hd l) fun o => ?_
    refine Triple.getFact fun ho => ?_
    subst ho
    exact Triple.ofPure (Ent.putFact (.refl _) (Ent.refl _))
  | some x =>
    rw [peeking_some]
    refine Triple.getFact fun hx => ?_
    subst hx
    refine Triple.seq (hd l.tail) fun o => ?_
    refine Triple.getFact fun ho => ?_
    subst ho
    cases l with
    | nil => exact Triple.ofPure (Ent.putFact (.refl _) (Ent.refl _))
    | cons x l => exact Triple.ofPure (Ent.putFact List.perm_append_comm (Ent.refl _))

theorem mergeNextU_spec [Ord K] {m : HMerge K V} {l r : List (K × V)} {fuel : Nat} :
    Triple E (peeking m.left l ∗ peeking m.right r) (m.nextU fuel)
      (fun o => hex fun x : List (K × V) × List (K × V) =>
        fact ((o.1 = none ∧ mergeIterP fuel l r = ([], none) ∧ x = (l, r)) ∨
          (∃ f, o.1 = some (none, [], f) ∧ mergeIterP fuel l r = ([], some f) ∧ l = [] ∧ r = [] ∧ x = ([], [])) ∨
          (∃ kv d f, o.1 = some (some kv, d, f) ∧ mergeIterP fuel l r = (kv :: (mergeIterP f x.1 x.2).1, (mergeIterP f x.1 x.2).2) ∧
            (kv :: d ++ (x.1 ++ x.2)).Perm (l ++ r))) ∗
        peeking o.2.left x.1 ∗ peeking o.2.right x.2) := by
  unfold HMerge.nextU
  refine Triple.call (P₀ := peeking m.left l) peek_spec fun a => ?_
  rw [sep_assoc]
  refine Triple.getFact fun ha => ?_
  refine Triple.call (P₀ := peeking m.right r) peek_spec fun b => ?_
  rw [sep_assoc]
  refine Triple.getFact fun hb => ?_
  rw [ha, hb]
  cases l with
  | nil =>
    cases r with
    | nil =>
      refine Triple.ofPure (Ent.hex_right ([], []) ?_)
      refine Ent.fact_right (.inr (.inl ⟨fuel, rfl, by simp [mergeIterP], rfl, rfl, rfl⟩)) ?_
      ent_ac
    | cons y r =>
      dsimp only [List.head?]
      refine Triple.call (P₀ := peeking b.2 (y :: r)) peekNext_spec fun o => ?_
      rw [sep_assoc]
      refine Triple.getFact fun ho => ?_
      refine Triple.ofPure (Ent.hex_right ([], r) ?_)
      refine Ent.fact_right (.inr (.inr ⟨y, [], fuel, by simp [ho], by simp [mergeIterP], by simp⟩)) ?_
      dsimp only [List.tail]
      ent_ac
  | cons x l =>
    cases r with
    | nil =>
      dsimp only [List.head?]
      refine Triple.call (P₀ := peeking a.2 (x :: l)) peekNext_spec fun o => ?_
      rw [sep_assoc]
      refine Triple.getFact fun ho => ?_
      refine Triple.ofPure (Ent.hex_right (l, []) ?_)
      refine Ent.fact_right (.inr (.inr ⟨x, [], fuel, by simp [ho], by cases l <;> simp [mergeIterP], by simp⟩)) ?_
      dsimp only [List.tail]
      ent_ac
    | cons y r =>
      dsimp only [List.head?]
      cases fuel with
      | zero =>
        refine Triple.ofPure (Ent.hex_right (x :: l, y :: r) ?_)
        refine Ent.fact_right (.inl ⟨rfl, by simp [mergeIterP], rfl⟩) ?_
        ent_ac
      | succ fuel =>
      dsimp only
      cases hc : compare x.1 y.1 with
      | lt =>
        dsimp only
        refine Triple.call (P₀ := peeking a.2 (x :: l)) peekNext_spec fun o => ?_
        rw [sep_assoc]
        refine Triple.getFact fun ho => ?_
        refine Triple.ofPure (Ent.hex_right (l, y :: r) ?_)
        refine Ent.fact_right (.inr (.inr ⟨x, [], fuel, by simp [ho], by simp [mergeIterP, hc], by simp⟩)) ?_
        dsimp only [List.tail]
        ent_ac
      | gt =>
        dsimp only
        refine Triple.call (P₀ := peeking b.2 (y :: r)) peekNext_spec fun o => ?_
        rw [sep_assoc]
        refine Triple.getFact fun ho => ?_
        refine Triple.ofPure (Ent.hex_right (x :: l, r) ?_)
        refine Ent.fact_right (.inr (.inr ⟨y, [], fuel, by simp [ho], by simp [mergeIterP, hc], ?_⟩)) ?_
        · simpa using (List.perm_middle (a := y) (l₁ := x :: l) (l₂ := r)).symm
        dsimp only [List.tail]
        ent_ac
      | eq =>
        dsimp only
        refine Triple.call (P₀ := peeking a.2 (x :: l)) peekNext_spec fun o => ?_
        rw [sep_assoc]
        refine Triple.getFact fun ho => ?_
        refine Triple.call (P₀ := peeking b.2 (y :: r)) peekNext_spec fun o' => ?_
        rw [sep_assoc]
        refine Triple.getFact fun ho' => ?_
        refine Triple.ofPure (Ent.hex_right (l, r) ?_)
        refine Ent.fact_right (.inr (.inr ⟨y, [x], fuel, by simp [ho, ho'], by simp [mergeIterP, hc], ?_⟩)) ?_
        · simpa using (List.Perm.swap x y _).trans ((List.perm_middle (a := y) (l₁ := l) (l₂ := r)).symm.cons x)
        dsimp only [List.tail]
        ent_ac

/-- Going up a full right spine ends at its top. -/
theorem climbU_full {root : NRef} : ∀ {h : Nat} {l : Link} {t : ATree K V}, SpineFull h t →
    Triple E (tree l h t) (loopN (climbStepU root) h ⟨0, (lastLeaf h t).addr⟩) (fun r => fact (r = .inl ⟨h, t.addr⟩) ∗ tree l h t)
  | 0, l, t, _ => Triple.ofPure (Ent.fact_right rfl (Ent.refl _))
  | h + 1, l, t, hf => by
    obtain ⟨hk, X, c, e, hc⟩ := hf
    rw [loopN_snoc, lastLeaf_succ e]
    refine Triple.callEq (P₀ := tree l (h + 1) t) (Triple.readPath (at_one e rfl) (by simp) fun l' => climbU_full hc) ?_
    simp only [sep_emp]
    show Triple E _ (climbStepU root ⟨h, c.addr⟩) _
    unfold climbStepU
    refine Triple.callEq (P₀ := tree l (h + 1) t) (ascend_child e rfl) ?_
    dsimp only
    refine Triple.callEq (P₀ := tree l (h + 1) t) lenOf_tree ?_
    simp only [sep_emp]
    rw [if_neg hk]
    exact Triple.ofPure (Ent.fact_right rfl (Ent.refl _))

/-- Going up a right spine that is full below the node `n`. -/
theorem climbU_open {root : NRef} {l : Link} {j k : Nat} {n c : ATree K V} {X : List (ATree K V)} (e : n.edges = X ++ [c]) (hc : SpineFull j c)
    (hn : n.kvs.length < CAPACITY) :
    Triple E (tree l (j + 1) n) (loopN (climbStepU root) (j + (k + 1)) ⟨0, (lastLeaf j c).addr⟩)
      (fun r => fact (r = .inr (some (⟨j + 1, n.addr⟩, root))) ∗ tree l (j + 1) n) := by
  rw [loopN_add]
  refine Triple.callEq (P₀ := tree l (j + 1) n) (Triple.readPath (at_one e rfl) (by simp) fun l' => climbU_full hc) ?_
  simp only [sep_emp]
  show Triple E _ (loopN (climbStepU root) (k + 1) ⟨j, c.addr⟩) _
  rw [loopN_succ]
  unfold climbStepU
  refine Triple.assoc ?_
  refine Triple.callEq (P₀ := tree l (j + 1) n) (ascend_child e rfl) ?_
  dsimp only
  refine Triple.assoc ?_
  refine Triple.callEq (P₀ := tree l (j + 1) n) lenOf_tree ?_
  simp only [sep_emp]
  rw [if_pos hn]
  exact Triple.ofPure (Ent.fact_right rfl (Ent.refl _))

/-- What the attempt to push a pair and a new right subtree leaves. -/
def GrowPost (l : Link) (j : Nat) (n : ATree K V) (kv : K × V) (al : Alloc) : Option NRef → HProp K V
  | some c => hex fun n' : ATree K V =>
      fact ((BTree.Alloc.requests (j + 1) al).1 = true ∧ n'.addr = n.addr ∧ n'.erase = ⟨n.erase.kvs ++ [kv], n.erase.edges ++ [emptySpine j]⟩ ∧
        c = ⟨0, (lastLeaf (j + 1) n').addr⟩) ∗ tree l (j + 1) n' ∗ sched (BTree.Alloc.requests (j + 1) al).2
  | none => fact ((BTree.Alloc.requests (j + 1) al).1 = false) ∗ tree l (j + 1) n ∗ (hex fun al' => sched al') ∗ anything

theorem growRightU_spec {l : Link} {j : Nat} {n : ATree K V} {kv : K × V} {al : Alloc} (hn : n.kvs.length < CAPACITY) :
    Triple E (tree l (j + 1) n ∗ sched al) (growRightU ⟨j + 1, n.addr⟩ kv) (GrowPost l j n kv al) := by
  unfold growRightU
  refine Triple.call (P₀ := sched al) newLeaf_spec fun o => ?_
  cases o with
  | none =>
    dsimp only
    simp only [sep_assoc]
    refine Triple.getFact fun hno => ?_
    refine Triple.ofPure ?_
    unfold GrowPost
    refine Ent.fact_right (by simp [BTree.Alloc.requests, hno]) ?_
    refine Ent.trans (Ent.sep (Ent.hex_right al.request.2 (Ent.refl (sched al.request.2))) (Ent.refl _)) ?_
    refine Ent.trans (Ent.of_eq (sep_emp _).symm) (Ent.trans (Ent.sep (Ent.refl _) (ent_anything _)) ?_)
    ent_ac
  | some r =>
    dsimp only
    simp only [sep_assoc]
    refine Triple.getFact fun hyes => ?_
    simp only [Nat.add_sub_cancel]
    refine Triple.call (P₀ := sched al.request.2 ∗ rooted r 0 (emptySpine 0 : Tree K V)) pushLevels_ref fun x => ?_
    simp only [hex_sep, sep_hex]
    refine Triple.ofHex fun h' => ?_
    simp only [sep_assoc]
    refine Triple.getFact fun hf => ?_
    obtain ⟨hf1, hf2⟩ := hf
    rw [hf1]
    cases hb : (BTree.Alloc.requests j al.request.2).1 with
    | false =>
      simp only [Bool.false_eq_true, if_false]
      refine Triple.ofPure ?_
      unfold GrowPost
      refine Ent.fact_right (by simp [BTree.Alloc.requests, hyes, hb]) ?_
      refine Ent.trans (Ent.sep (Ent.hex_right _ (Ent.refl (sched (BTree.Alloc.requests j al.request.2).2))) (Ent.sep (ent_anything _) (Ent.refl _))) ?_
      ent_ac
    | true =>
      obtain rfl : h' = j := by have := hf2 hb; omega
      simp only [if_true]
      refine Triple.pre (P := rooted x.1 h' (emptySpine h' : Tree K V) ∗ tree l (h' + 1) n ∗ sched (BTree.Alloc.requests h' al.request.2).2) ?_ (by ent_ac)
      refine rooted_elim fun ts pi hes hr => ?_
      rw [hr]
      refine Triple.call (P₀ := tree l (h' + 1) n ∗ tree (none, pi) h' ts) (pushInternal_tree hn) fun _ => ?_
      have hl := lastLeafEdge_last (E := E) (h := h' + 1) (l := l) (t := ⟨n.addr, n.kvs ++ [kv], n.edges ++ [ts]⟩)
      refine Triple.call (P₀ := tree l (h' + 1) ⟨n.addr, n.kvs ++ [kv], n.edges ++ [ts]⟩) hl fun e => ?_
      simp only [sep_assoc]
      refine Triple.getFact fun he => ?_
      refine Triple.ofPure ?_
      unfold GrowPost
      refine Ent.hex_right ⟨n.addr, n.kvs ++ [kv], n.edges ++ [ts]⟩ ?_
      refine Ent.fact_right ⟨by simp [BTree.Alloc.requests, hyes, hb], rfl, ?_, he⟩ ?_
      · rw [ATree.erase_mk]
        simp [hes]
      · simp only [BTree.Alloc.requests, hyes, if_true]
        ent_ac

/-- What one round of the building loop leaves. -/
def PushPost (H : Nat) (T : Tree K V) (len : Nat) (kv : K × V) (al : Alloc) (o : Option NRef × NRef) : HProp K V :=
  match o.1 with
  | some c => hex fun x : (Nat × Tree K V) × Alloc => fact (fromSortedP (H, T) len [kv] al = .ok (.done x)) ∗ built o.2 c x.1.1 x.1.2 ∗ sched x.2
  | none => hex fun x : (Nat × Tree K V) => fact (fromSortedP (H, T) len [kv] al = .ok (.unwound ⟨x.1, x.2, false, len⟩ .mem)) ∗ rooted o.2 x.1 x.2 ∗
      (hex fun al' => sched al') ∗ anything

theorem sortedPushU_ref {r c : NRef} {H : Nat} {T : Tree K V} {kv : K × V} {al : Alloc} {len : Nat} (hb : BTree.Build H T) (hl : T.len ≤ 11) :
    Triple E (built r c H T ∗ sched al) (sortedPushU r c kv) (PushPost H T len kv al) := by
  refine built_elim fun ta pi he hr hc => ?_
  subst he hr hc
  unfold sortedPushU
  dsimp only
  rcases spine_cases hb hl with ⟨h1, h2⟩ | ⟨p, n, h1, h2, h3, h4, h5, h6⟩ | ⟨p, n, j, Y, d, h1, h2, h3, h4, h5, h6, h7, h8, h9⟩
  · refine Triple.call (P₀ := tree (none, pi) H ta) (spine_len h1) fun len' => ?_
    simp only [sep_assoc]
    refine Triple.getFact fun hlen => ?_
    rw [if_neg hlen, loopN_snoc]
    refine Triple.assoc ?_
    refine Triple.callEq (P₀ := tree (none, pi) H ta) (climbU_full h1) ?_
    show Triple E _ (climbStepU ⟨H, ta.addr⟩ ⟨H, ta.addr⟩ >>= _) _
    unfold climbStepU
    refine Triple.assoc ?_
    have hpr : fromSortedP (H, ta.erase) len [kv] al = if al.request.1 then
        (if (BTree.Alloc.requests (H + 1) al.request.2).1 then .ok (.done ((H + 1, ⟨[kv], [ta.erase, emptySpine H]⟩), (BTree.Alloc.requests (H + 1) al.request.2).2))
        else .ok (.unwound ⟨H + 1, ⟨[], [ta.erase]⟩, false, len⟩ .mem)) else .ok (.unwound ⟨H, ta.erase, false, len⟩ .mem) := by
      simp [fromSortedP, h2 kv al, BTree.Tree.pushInternal, Tree.len]
    have hasc : Triple E (tree (none, pi) H ta) (ascend ⟨H, ta.addr⟩ : HM K V _) (fun r => fact (r = none) ∗ tree (none, pi) H ta) := by
      unfold tree
      refine Triple.last ?_
      refine Triple.bindAscendNone (by cases H <;> rfl) ?_
      exact Triple.ofPure (Ent.putFact rfl (Ent.refl _))
    refine Triple.callEq (P₀ := tree (none, pi) H ta) hasc ?_
    dsimp only
    refine Triple.assoc ?_
    refine Triple.call (P₀ := sched al ∗ tree (none, pi) H ta) pushLevel_spec fun o => ?_
    cases o with
    | none =>
      dsimp only
      simp only [sep_assoc]
      refine Triple.getFact fun hno => ?_
      refine Triple.bindPure (a := (Sum.inr none : NRef ⊕ Option (NRef × NRef))) ?_
      refine Triple.bindPure (a := (none : Option (NRef × NRef))) ?_
      dsimp only
      refine Triple.ofPure ?_
      unfold PushPost
      dsimp only
      refine Ent.hex_right (H, ta.erase) ?_
      refine Ent.fact_right (by rw [hpr]; simp [hno]) ?_
      refine Ent.trans (Q := sched al.request.2 ∗ tree (none, pi) H ta) (by simp only [sep_emp]; ent_ac) ?_
      refine Ent.trans (Ent.sep (Ent.hex_right al.request.2 (Ent.refl (sched al.request.2))) rooted_intro) ?_
      refine Ent.trans (Ent.of_eq (sep_emp _).symm) (Ent.trans (Ent.sep (Ent.refl _) (ent_anything _)) ?_)
      ent_ac
    | some nr =>
      obtain ⟨nh, na⟩ := nr
      dsimp only
      simp only [sep_assoc]
      refine Triple.getFact fun hf => ?_
      obtain ⟨hyes, rfl⟩ := hf
      refine Triple.bindPure (a := (Sum.inr (some ((⟨H + 1, na⟩ : NRef), (⟨H + 1, na⟩ : NRef))) : NRef ⊕ Option (NRef × NRef))) ?_
      refine Triple.bindPure (a := some ((⟨H + 1, na⟩ : NRef), (⟨H + 1, na⟩ : NRef))) ?_
      dsimp only
      refine Triple.pre (P := tree (none, none) (H + 1) ⟨na, [], [ta]⟩ ∗ sched al.request.2) ?_ ?_
      · refine Triple.call (P₀ := tree (none, none) (H + 1) ⟨na, [], [ta]⟩ ∗ sched al.request.2)
          (growRightU_spec (n := ⟨na, [], [ta]⟩) (kv := kv) (Nat.zero_lt_succ 10)) fun cr => ?_
        cases cr with
        | none =>
          unfold GrowPost PushPost
          simp only [sep_assoc]
          refine Triple.getFact fun hno => ?_
          refine Triple.ofPure ?_
          dsimp only
          refine Ent.hex_right (H + 1, ⟨[], [ta.erase]⟩) ?_
          refine Ent.fact_right (by rw [hpr]; simp [hyes, hno]) ?_
          simp only [sep_emp]
          refine Ent.sep (Ent.trans rooted_intro (Ent.of_eq ?_)) (Ent.refl _)
          rw [ATree.erase_mk]; rfl
        | some cr =>
          unfold GrowPost PushPost
          simp only [hex_sep]
          refine Triple.ofHex fun n' => ?_
          simp only [sep_assoc]
          refine Triple.getFact fun hf => ?_
          obtain ⟨g1, g2, g3, g4⟩ := hf
          refine Triple.ofPure (Ent.hex_right ((H + 1, n'.erase), (BTree.Alloc.requests (H + 1) al.request.2).2) ?_)
          refine Ent.fact_right ?_ ?_
          · rw [hpr, g1, g3, ATree.erase_mk]; simp [hyes]
          · unfold built
            rw [hex_sep]
            refine Ent.hex_right (n', none) ?_
            rw [sep_assoc]
            refine Ent.fact_right ⟨rfl, ?_, ?_⟩ (by simp only [sep_emp]; exact Ent.refl _)
            · rw [g2]
            · exact g4
      · rw [tree_internal, kids_cons, kids_nil, sep_emp]
        simp only [sep_assoc]
        refine Ent.fact_right ⟨rfl, Nat.zero_le _⟩ ?_
        ent_ac
  · have hrd : Triple E (tree (none, pi) H ta) (lenOf (lastLeaf H ta).addr) (fun r => fact (r = n.kvs.length) ∗ tree (none, pi) H ta) := by
      rw [h3]
      exact Triple.readPath h1 (by omega) fun l' => lenOf_tree
    refine Triple.callEq (P₀ := tree (none, pi) H ta) hrd ?_
    rw [if_pos h4, h3]
    have hpl : Triple E (tree (none, pi) H ta) (pushLeaf n.addr kv) (fun _ => hex fun n' : ATree K V =>
        fact (n'.erase = ⟨n.kvs ++ [kv], []⟩ ∧ n'.addr = n.addr) ∗ tree (none, pi) H (ta.put p n')) := by
      refine Triple.atPath h1 (by omega) fun l' => ?_
      rw [h2, Nat.sub_self]
      refine Triple.pre ?_ tree_shape
      refine Triple.getFact fun hs => ?_
      obtain ⟨a, kvs, es⟩ := n
      obtain ⟨_, hs⟩ := hs
      dsimp only at hs h4 ⊢
      subst hs
      rw [tree_leaf]
      refine Triple.ofFact fun _ => ?_
      refine (pushLeaf_spec h4).post fun _ => ?_
      refine Ent.hex_right ⟨a, kvs ++ [kv], []⟩ ?_
      refine Ent.fact_right ⟨by rw [ATree.erase_mk]; rfl, rfl⟩ ?_
      rw [tree_leaf]
      exact Ent.putFact (by len_omega) (Ent.refl _)
    refine Triple.call (P₀ := tree (none, pi) H ta) hpl fun _ => ?_
    rw [hex_sep]
    refine Triple.ofHex fun n' => ?_
    rw [sep_assoc]
    refine Triple.getFact fun hf => ?_
    unfold PushPost
    refine Triple.ofPure (Ent.hex_right ((H, (ta.put p n').erase), al) ?_)
    refine Ent.fact_right ?_ ?_
    · simp [fromSortedP, h6 kv al n' hf.1]
    · unfold built
      rw [hex_sep]
      refine Ent.hex_right (ta.put p n', pi) ?_
      rw [sep_assoc]
      refine Ent.fact_right ⟨rfl, ?_, ?_⟩ (Ent.refl _)
      · rw [ATree.put_addr h1 hf.2]
      · rw [h5, hf.2]
  · have hleaf : Triple E (tree (none, pi) H ta) (lenOf (lastLeaf H ta).addr) (fun r => fact (¬ r < CAPACITY) ∗ tree (none, pi) H ta) := by
      rw [h6]
      refine Triple.readPath h1 (by omega) fun l' => ?_
      rw [show H - p.length = j + 1 by omega]
      exact Triple.readPath (at_one h3 rfl) (by simp) fun l' => spine_len h5
    refine Triple.call (P₀ := tree (none, pi) H ta) hleaf fun len' => ?_
    simp only [sep_assoc]
    refine Triple.getFact fun hlen => ?_
    rw [if_neg hlen]
    have hloop : Triple E (tree (none, pi) H ta) (loopN (climbStepU ⟨H, ta.addr⟩) (H + 1) ⟨0, (lastLeaf H ta).addr⟩)
        (fun r => fact (r = .inr (some (⟨j + 1, n.addr⟩, ⟨H, ta.addr⟩))) ∗ tree (none, pi) H ta) := by
      rw [h6, show H + 1 = j + (H - j + 1) by omega]
      refine Triple.readPath h1 (by omega) fun l' => ?_
      rw [show H - p.length = j + 1 by omega]
      exact climbU_open h3 h5 h7
    refine Triple.callEq (P₀ := tree (none, pi) H ta) hloop ?_
    refine Triple.bindPure (a := some ((⟨j + 1, n.addr⟩ : NRef), (⟨H, ta.addr⟩ : NRef))) ?_
    dsimp only
    obtain ⟨l', F, e, hF⟩ := focus_self (none, pi) h1 (by omega : p.length ≤ H)
    rw [show H - p.length = j + 1 by omega] at e hF
    have hpr : ∀ n' : ATree K V, n'.erase = ⟨n.erase.kvs ++ [kv], n.erase.edges ++ [emptySpine j]⟩ → fromSortedP (H, ta.erase) len [kv] al =
        if (BTree.Alloc.requests (j + 1) al).1 then .ok (.done ((H, (ta.put p n').erase), (BTree.Alloc.requests (j + 1) al).2))
        else .ok (.unwound ⟨H, ta.erase, false, len⟩ .mem) := by
      intro n' hn'
      rw [fromSortedP]
      dsimp only
      rw [h9 kv al n' hn']
      cases (BTree.Alloc.requests (j + 1) al).1 <;> rfl
    rw [e]
    simp only [sep_assoc]
    refine Triple.call (P₀ := tree l' (j + 1) n ∗ sched al) (growRightU_spec (kv := kv) h7) fun cr => ?_
    cases cr with
    | none =>
      unfold GrowPost PushPost
      simp only [sep_assoc]
      refine Triple.getFact fun hno => ?_
      refine Triple.ofPure ?_
      dsimp only
      refine Ent.hex_right (H, ta.erase) ?_
      refine Ent.fact_right ?_ ?_
      · obtain ⟨ts, hts⟩ := emptySpine_erase (K := K) (V := V) j
        have := hpr ⟨n.addr, n.kvs ++ [kv], n.edges ++ [ts]⟩ (by rw [ATree.erase_mk]; simp [hts])
        rw [this, hno]; rfl
      · refine Ent.trans (Q := tree (none, pi) H ta ∗ (hex fun al' => sched al') ∗ anything) (by rw [e]; ent_ac) ?_
        exact Ent.frame rooted_intro _
    | some cr =>
      unfold GrowPost PushPost
      simp only [hex_sep]
      refine Triple.ofHex fun n' => ?_
      simp only [sep_assoc]
      refine Triple.getFact fun hf => ?_
      obtain ⟨g1, g2, g3, g4⟩ := hf
      refine Triple.ofPure (Ent.hex_right ((H, (ta.put p n').erase), (BTree.Alloc.requests (j + 1) al).2) ?_)
      refine Ent.fact_right ?_ ?_
      · rw [hpr n' g3, g1]; rfl
      · unfold built
        rw [hex_sep]
        refine Ent.hex_right (ta.put p n', pi) ?_
        rw [sep_assoc]
        refine Ent.fact_right ⟨rfl, ?_, ?_⟩ ?_
        · dsimp only; rw [ATree.put_addr h1 g2]
        · dsimp only; rw [h8, g4]
        · rw [hF n' g2]
          ent_ac

theorem fromSortedP_done {t : Nat × Tree K V} {len : Nat} {kv : K × V} {al : Alloc} {x : (Nat × Tree K V) × Alloc} (h : fromSortedP t len [kv] al = .ok (.done x))
    (rest : List (K × V)) : fromSortedP t len (kv :: rest) al = fromSortedP x.1 (len + 1) rest x.2 := by
  rw [fromSortedP] at h ⊢
  cases hp : BTree.pushSorted t.1 t.2 kv al with
  | ub => rw [hp] at h; cases h
  | panic msg => rw [hp] at h; cases h
  | ok r =>
    obtain ⟨r, a1⟩ := r
    rw [hp] at h
    cases r with
    | some t' =>
      simp only [fromSortedP, Exec.ok.injEq, Outcome.done.injEq] at h
      subst h; rfl
    | none =>
      dsimp only at h ⊢
      rcases hq : a1.request with ⟨g, a2⟩
      rw [hq] at h
      cases g with
      | false => cases h
      | true =>
        simp only [if_true] at h ⊢
        rcases hq2 : BTree.Alloc.requests (t.1 + 1) a2 with ⟨g, a3⟩
        rw [hq2] at h
        cases g with
        | false => cases h
        | true =>
          simp only [if_true] at h ⊢
          obtain ⟨t', h1, h2⟩ := Exec.bind_eq_ok.1 h
          simp only [fromSortedP, Exec.ok.injEq, Outcome.done.injEq] at h2
          subst h2
          rw [h1]; rfl

theorem fromSortedP_unwound {t : Nat × Tree K V} {len : Nat} {kv : K × V} {al : Alloc} {m : Map K V} {w : Why} (h : fromSortedP t len [kv] al = .ok (.unwound m w))
    (rest : List (K × V)) : fromSortedP t len (kv :: rest) al = .ok (.unwound m w) := by
  rw [fromSortedP] at h ⊢
  cases hp : BTree.pushSorted t.1 t.2 kv al with
  | ub => rw [hp] at h; cases h
  | panic msg => rw [hp] at h; exact h
  | ok r =>
    obtain ⟨r, a1⟩ := r
    rw [hp] at h
    cases r with
    | some t' => simp only [fromSortedP] at h; cases h
    | none =>
      dsimp only at h ⊢
      rcases hq : a1.request with ⟨g, a2⟩
      rw [hq] at h
      cases g with
      | false => exact h
      | true =>
        simp only [if_true] at h ⊢
        rcases hq2 : BTree.Alloc.requests (t.1 + 1) a2 with ⟨g, a3⟩
        rw [hq2] at h
        cases g with
        | false => exact h
        | true =>
          simp only [if_true] at h ⊢
          obtain ⟨t', h1, h2⟩ := Exec.bind_eq_ok.1 h
          simp only [fromSortedP] at h2; cases h2

theorem rooted_built {r c : NRef} {H : Nat} {T : Tree K V} : Ent (built r c H T) (rooted r H T) := by
  rintro w ⟨x, hw⟩
  refine ⟨x, ?_⟩
  obtain ⟨h1, h2⟩ := fact_sep.1 hw
  exact fact_sep.2 ⟨⟨h1.1, h1.2.1⟩, h2⟩

/-- The state after the building loop has ended or has been unwound. -/
structure Left (K V : Type) where
  l : List (K × V)
  r : List (K × V)
  H : Nat
  T : Tree K V
  al : Alloc
  b : Option Why
  s : BuildingU K V

/-- What the building loop leaves: the tree of Verif/BTree/Unwind.lean; the iterators have `l` and `r` left. -/
def BuildPost [Ord K] (H : Nat) (T : Tree K V) (len fuel : Nat) (l r d : List (K × V)) (al : Alloc) (o : BuildingU K V ⊕ (Option Why × BuildingU K V)) : HProp K V :=
  hex fun x : Left K V =>
    fact (o = .inr (x.b, x.s) ∧ x.s.length = (BTree.toList x.H x.T).length ∧
      (BTree.toList x.H x.T ++ (x.s.dropped ++ (x.l ++ x.r))).Perm (BTree.toList H T ++ (d ++ (l ++ r))) ∧
      ((x.b = none ∧ x.l = [] ∧ x.r = [] ∧ fromSortedP (H, T) len (mergeIterP fuel l r).1 al = .ok (.done ((x.H, x.T), x.al)) ∧ (mergeIterP fuel l r).2 = some x.s.fuel) ∨
       (x.b = some .cmp ∧ fromSortedP (H, T) len (mergeIterP fuel l r).1 al = .ok (.done ((x.H, x.T), x.al)) ∧ (mergeIterP fuel l r).2 = none) ∨
       (x.b = some .mem ∧ fromSortedP (H, T) len (mergeIterP fuel l r).1 al = .ok (.unwound ⟨x.H, x.T, false, x.s.length⟩ .mem)))) ∗
    peeking x.s.iter.left x.l ∗ peeking x.s.iter.right x.r ∗ rooted x.s.root x.H x.T ∗ sched x.al ∗ leak (x.b != some .mem)

theorem leak_emp {b : Bool} : Ent (emp : HProp K V) (leak b) := by
  cases b with
  | true => exact Ent.refl _
  | false => exact ent_anything _

theorem buildLoopU_ref [Ord K] : ∀ {bnd : Nat} {l r d : List (K × V)} {m : HMerge K V} {root cur : NRef} {H : Nat} {T : Tree K V} {len fuel : Nat} {al : Alloc},
    l.length + r.length < bnd → BTree.Build H T → T.len ≤ 11 → (0 < H → 1 ≤ T.len) → len = (BTree.toList H T).length →
    Triple E (peeking m.left l ∗ peeking m.right r ∗ built root cur H T ∗ sched al) (loopN buildStepU bnd ⟨m, root, cur, len, fuel, d⟩)
      (BuildPost H T len fuel l r d al)
  | 0, l, r, d, m, root, cur, H, T, len, fuel, al, hf, _, _, _, _ => by simp at hf
  | bnd + 1, l, r, d, m, root, cur, H, T, len, fuel, al, hf, hb, hl, h1, hlen => by
    rw [loopN_succ]
    unfold buildStepU
    refine Triple.assoc ?_
    dsimp only
    refine Triple.call (P₀ := peeking m.left l ∗ peeking m.right r) mergeNextU_spec fun o => ?_
    rw [hex_sep]
    refine Triple.ofHex fun lr => ?_
    obtain ⟨l', r'⟩ := lr
    dsimp only
    simp only [sep_assoc]
    refine Triple.getFact fun hf => ?_
    obtain ⟨o, m'⟩ := o
    dsimp only at hf ⊢
    rcases hf with ⟨rfl, g1, g2⟩ | ⟨f, rfl, g1, rfl, rfl, g2⟩ | ⟨kv, d', f, rfl, g1, g2⟩
    · simp only [Prod.mk.injEq] at g2
      obtain ⟨rfl, rfl⟩ := g2
      show Triple E _ (pure _) _
      refine Triple.ofPure (Ent.hex_right ⟨l', r', H, T, al, some .cmp, ⟨m', root, cur, len, fuel, d⟩⟩ ?_)
      refine Ent.fact_right ⟨rfl, hlen, .refl _, .inr (.inl ⟨rfl, by rw [g1]; rfl, by rw [g1]⟩)⟩ ?_
      dsimp only
      refine Ent.trans (Q := built root cur H T ∗ emp ∗ (peeking m'.left l' ∗ peeking m'.right r' ∗ sched al)) (by rw [emp_sep]; ent_ac) ?_
      refine Ent.trans (Ent.sep rooted_built (Ent.sep (leak_emp (b := true)) (Ent.refl _))) ?_
      ent_ac
    · simp only [Prod.mk.injEq] at g2
      obtain ⟨rfl, rfl⟩ := g2
      show Triple E _ (pure _) _
      refine Triple.ofPure (Ent.hex_right ⟨[], [], H, T, al, none, ⟨m', root, cur, len, f, d ++ []⟩⟩ ?_)
      refine Ent.fact_right ⟨rfl, hlen, by simp, .inl ⟨rfl, rfl, rfl, by rw [g1]; rfl, by rw [g1]⟩⟩ ?_
      dsimp only
      refine Ent.trans (Q := built root cur H T ∗ emp ∗ (peeking m'.left [] ∗ peeking m'.right [] ∗ sched al)) (by rw [emp_sep]; ent_ac) ?_
      refine Ent.trans (Ent.sep rooted_built (Ent.sep (leak_emp (b := true)) (Ent.refl _))) ?_
      ent_ac
    · refine Triple.assoc ?_
      refine Triple.call (P₀ := built root cur H T ∗ sched al) (sortedPushU_ref (kv := kv) (len := len) hb hl) fun c => ?_
      obtain ⟨c, rt⟩ := c
      have hspec := BTree.fromSortedP_spec [kv] hb hl h1 len hlen al
      have hlen2 : l'.length + r'.length < bnd := by
        have := g2.length_eq
        simp at this
        omega
      cases c with
      | none =>
        unfold PushPost
        dsimp only
        rw [hex_sep]
        refine Triple.ofHex fun x => ?_
        obtain ⟨H', T'⟩ := x
        dsimp only
        simp only [sep_assoc]
        refine Triple.getFact fun hp => ?_
        refine Triple.pre (P := (hex fun al' => sched al') ∗ rooted rt H' T' ∗ anything ∗ peeking m'.left l' ∗ peeking m'.right r') ?_ (by ent_ac)
        rw [hex_sep]
        refine Triple.ofHex fun al' => ?_
        rcases hspec with ⟨m1, q1, _, q3, _, l1, _, q6⟩ | ⟨_, _, _, q1, _⟩
        · rw [hp] at q1
          simp only [Exec.ok.injEq, Outcome.unwound.injEq, and_true] at q1
          subst q1
          have q7 := q3.len
          dsimp only [Map.toList] at q6 q7
          have q8 : BTree.toList H' T' = BTree.toList H T := by
            rw [q6] at q7 ⊢
            simp [← hlen] at q7
            simp [q7]
          show Triple E _ (pure _) _
          refine Triple.ofPure (Ent.hex_right ⟨l', r', H', T', al', some .mem, ⟨m', rt, cur, len, f, d ++ d' ++ [kv]⟩⟩ ?_)
          refine Ent.fact_right ⟨rfl, by rw [q8]; exact hlen, ?_, .inr (.inr ⟨rfl, by rw [g1]; exact fromSortedP_unwound hp _⟩)⟩ ?_
          · dsimp only
            rw [q8]
            refine .append_left _ ?_
            simp only [List.append_assoc]
            refine .append_left _ (List.Perm.trans ?_ g2)
            simp
          · show Ent _ (_ ∗ _ ∗ _ ∗ _ ∗ anything)
            ent_ac
        · rw [hp] at q1; cases q1
      | some c =>
        unfold PushPost
        dsimp only
        rw [hex_sep]
        refine Triple.ofHex fun x => ?_
        obtain ⟨⟨H', T'⟩, al'⟩ := x
        dsimp only
        simp only [sep_assoc]
        refine Triple.getFact fun hp => ?_
        rcases hspec with ⟨m1, q1, _⟩ | ⟨_, _, _, q1, _, q3, q4, q5, q6⟩
        · rw [hp] at q1; cases q1
        · rw [hp] at q1
          simp only [Exec.ok.injEq, Outcome.done.injEq, Prod.mk.injEq] at q1
          obtain ⟨⟨rfl, rfl⟩, rfl⟩ := q1
          show Triple E _ (loopN buildStepU bnd ⟨m', rt, c, len + 1, f, d ++ d'⟩) _
          refine Triple.pre (P := peeking m'.left l' ∗ peeking m'.right r' ∗ built rt c H' T' ∗ sched al') ?_ (by ent_ac)
          refine (buildLoopU_ref hlen2 q3 q4 q5 (by rw [q6, hlen]; simp)).post fun o => ?_
          rintro w ⟨y, hw⟩
          refine ⟨y, ?_⟩
          obtain ⟨⟨k1, k2, k3, k4⟩, hw⟩ := fact_sep.1 hw
          refine fact_sep.2 ⟨⟨k1, k2, k3.trans ?_, ?_⟩, hw⟩
          · rw [q6]
            simp only [List.append_assoc]
            refine .append_left _ ?_
            refine List.Perm.trans ?_ (.append_left d g2)
            simp only [List.cons_append, List.nil_append]
            exact List.perm_middle.symm
          · rw [g1]
            dsimp only
            rw [fromSortedP_done hp]
            exact k4

/-- What `append` leaves: `o` is (flag, `self`, `other`, dropped pairs). -/
def AppendPost [Ord K] (M O : Map K V) (fuel : Nat) (al : Alloc) (o : Option Why × HMap × HMap × List (K × V)) : HProp K V :=
  hex fun y : (Map K V × Map K V) × Alloc => fact (
      ((y.1.1.toList ++ y.1.2.toList) ++ o.2.2.2).Perm (M.toList ++ O.toList) ∧ y.1.1.length = y.1.1.toList.length ∧ y.1.2.length = y.1.2.toList.length ∧
      ((o.1 = none ∧ ∃ f, M.appendP O al fuel = .ok (.done ((y.1.1, y.1.2, y.2), f))) ∨
       (∃ w, o.1 = some w ∧ y.1.2 = Map.new ∧ o.2.2.1 = HMap.new ∧ M.appendP O al fuel = .ok (.unwound y.1 w)))) ∗
    rep o.2.1 y.1.1 ∗ rep o.2.2.1 y.1.2 ∗ sched y.2 ∗ leak (o.1 != some .mem)

theorem rep_rooted {r : NRef} {H len : Nat} {T : Tree K V} : Ent (rooted r H T) (rep ⟨r, len⟩ ⟨H, T, false, len⟩) := by
  rintro w ⟨x, hw⟩
  obtain ⟨h1, h2⟩ := fact_sep.1 hw
  refine ⟨x.1, ?_⟩
  show own _ _ _ w
  rw [own_owned rfl]
  exact ⟨x.2, fact_sep.2 ⟨⟨h1.1, by rw [h1.2]⟩, h2⟩⟩

theorem appendU_ref [Ord K] {hm ho : HMap} {M O : Map K V} {al : Alloc} {fuel : Nat} (hM : M.WF) (hO : O.WF) :
    Triple E (rep hm M ∗ rep ho O ∗ sched al) (hm.appendU ho fuel) (AppendPost M O fuel al) := by
  refine Triple.pre ?_ (Ent.frame rep_length _)
  rw [sep_assoc]
  refine Triple.getFact fun hl => ?_
  refine Triple.pre (P := fact (ho.length = O.length) ∗ rep hm M ∗ rep ho O ∗ sched al) ?_ ?_
  rotate_left
  · refine Ent.trans (Ent.sep (Ent.refl _) (Ent.frame rep_length _)) ?_
    ent_ac
  refine Triple.getFact fun hol => ?_
  unfold HMap.appendU
  rw [hl, hol]
  have hMl : M.length = M.toList.length := hM.len
  have hOl : O.length = O.toList.length := hO.len
  by_cases h1 : O.length = 0
  · simp only [h1, if_true]
    have : O.toList = [] := List.length_eq_zero_iff.1 (by rw [← hOl, h1])
    refine Triple.ofPure (Ent.hex_right ((M, O), al) (Ent.fact_right ⟨by simp [this], hMl, hOl, .inl ⟨rfl, fuel, ?_⟩⟩ ?_))
    · simp [Map.appendP, Map.len, h1]
    · show Ent _ (_ ∗ _ ∗ _ ∗ emp); simp only [sep_emp]; exact Ent.refl _
  by_cases h2 : M.length = 0
  · simp only [h1, h2, if_true, if_false]
    have : M.toList = [] := List.length_eq_zero_iff.1 (by rw [← hMl, h2])
    refine Triple.ofPure (Ent.hex_right ((O, M), al) (Ent.fact_right ⟨by simp [this], hOl, hMl, .inl ⟨rfl, fuel, ?_⟩⟩ ?_))
    · simp [Map.appendP, Map.len, h1, h2]
    · show Ent _ (_ ∗ _ ∗ _ ∗ emp); simp only [sep_emp]; ent_ac
  simp only [h1, h2, if_false]
  have hA : M.appendP O al fuel = (match ((Map.new : Map K V).ensureRootIsOwned al).1 with
    | .error _ => .ok (.unwound (((Map.new : Map K V).ensureRootIsOwned al).2.1, Map.new) .mem)
    | .ok () => do
      match ← fromSortedP ⟨((Map.new : Map K V).ensureRootIsOwned al).2.1.height, ((Map.new : Map K V).ensureRootIsOwned al).2.1.root⟩
          ((Map.new : Map K V).ensureRootIsOwned al).2.1.length (mergeIterP fuel M.toList O.toList).1 ((Map.new : Map K V).ensureRootIsOwned al).2.2 with
      | .unwound m' w => .ok (.unwound (m', Map.new) w)
      | .done (t, a) =>
        match (mergeIterP fuel M.toList O.toList).2 with
        | none => .ok (.unwound (⟨t.1, t.2, ((Map.new : Map K V).ensureRootIsOwned al).2.1.shared,
            ((Map.new : Map K V).ensureRootIsOwned al).2.1.length + (mergeIterP fuel M.toList O.toList).1.length⟩, Map.new) .cmp)
        | some fuel' => do
          let t' ← BTree.fixRightEdge t.1 t.2
          .ok (.done ((⟨t.1, t', ((Map.new : Map K V).ensureRootIsOwned al).2.1.shared,
            ((Map.new : Map K V).ensureRootIsOwned al).2.1.length + (mergeIterP fuel M.toList O.toList).1.length⟩, Map.new, a), fuel'))) := by
    unfold Map.appendP
    simp only [Map.len, h1, h2, if_false, BTree.Map.toListE_spec hM, BTree.Map.toListE_spec hO, Exec.ok_bind]
    rfl
  refine Triple.call (P₀ := rep hm M) (intoIter_spec hM.len) fun li => ?_
  simp only [sep_assoc]
  refine Triple.getFact fun hh1 => ?_
  refine Triple.call (P₀ := rep ho O) (intoIter_spec hO.len) fun ri => ?_
  simp only [sep_assoc]
  refine Triple.getFact fun hh2 => ?_
  rw [hh1, hh2]
  refine Triple.pre (P := (peeking (⟨li, M.height, none⟩ : Peek K V) M.toList ∗ peeking (⟨ri, O.height, none⟩ : Peek K V) O.toList ∗ sched al)) ?_ (by
    rw [peeking_none, peeking_none]; unfold Map.toList; ent_ac)
  unfold HMap.fromSortedIterU HMap.ensureRootIsOwned
  rw [show HMap.new.root.node = SHARED from rfl, if_pos rfl]
  refine Triple.assoc ?_
  refine Triple.assoc ?_
  refine Triple.call (P₀ := sched al) newLeaf_spec fun o => ?_
  cases o with
  | none =>
    dsimp only
    simp only [sep_assoc]
    refine Triple.getFact fun hno => ?_
    refine Triple.bindPure (a := none) ?_
    dsimp only
    refine Triple.assoc ?_
    refine Triple.call (P₀ := peeking (⟨li, M.height, none⟩ : Peek K V) M.toList) peekDrop_all fun dl => ?_
    refine Triple.getFact fun hdl => ?_
    refine Triple.assoc ?_
    refine Triple.call (P₀ := peeking (⟨ri, O.height, none⟩ : Peek K V) O.toList) peekDrop_all fun dr => ?_
    refine Triple.getFact fun hdr => ?_
    refine Triple.bindPure (a := (some Why.mem, HMap.new, dl ++ dr)) ?_
    dsimp only
    refine Triple.ofPure (Ent.hex_right ((Map.new, Map.new), al.request.2) (Ent.fact_right ⟨?_, rfl, rfl, .inr ⟨.mem, rfl, rfl, rfl, ?_⟩⟩ ?_))
    · simpa using hdl.append hdr
    · rw [hA]
      unfold Map.ensureRootIsOwned
      rcases hq : al.request with ⟨g, a⟩
      rw [hq] at hno
      simp only at hno
      subst hno
      simp [Map.new, hq]
    · dsimp only
      rw [rep_new]
      simp only [emp_sep, sep_emp]
      refine Ent.trans (Ent.of_eq (sep_emp _).symm) (Ent.sep (Ent.refl _) leak_emp)
  | some rt =>
    dsimp only
    simp only [sep_assoc]
    refine Triple.getFact fun hyes => ?_
    refine Triple.bindPure (a := some (⟨rt, 0⟩ : HMap)) ?_
    dsimp only
    have hA2 : M.appendP O al fuel = (do
      match ← fromSortedP (0, (emptyLeaf : Tree K V)) 0 (mergeIterP fuel M.toList O.toList).1 al.request.2 with
      | .unwound m' w => .ok (.unwound (m', Map.new) w)
      | .done (t, a) =>
        match (mergeIterP fuel M.toList O.toList).2 with
        | none => .ok (.unwound (⟨t.1, t.2, false, 0 + (mergeIterP fuel M.toList O.toList).1.length⟩, Map.new) .cmp)
        | some fuel' => do
          let t' ← BTree.fixRightEdge t.1 t.2
          .ok (.done ((⟨t.1, t', false, 0 + (mergeIterP fuel M.toList O.toList).1.length⟩, Map.new, a), fuel'))) := by
      rw [hA]
      unfold Map.ensureRootIsOwned
      rcases hq : al.request with ⟨g, a⟩
      rw [hq] at hyes
      simp only at hyes
      subst hyes
      rfl
    clear hA
    refine Triple.pre (P := rooted rt 0 (emptySpine 0 : Tree K V) ∗ sched al.request.2 ∗ peeking (⟨li, M.height, none⟩ : Peek K V) M.toList ∗
      peeking (⟨ri, O.height, none⟩ : Peek K V) O.toList) ?_ (by simp only [sep_emp]; ent_ac)
    refine rooted_elim fun ta pi he hr => ?_
    subst hr
    refine Triple.assoc ?_
    refine Triple.call (P₀ := tree (none, pi) 0 ta) lastLeafEdge_last fun e => ?_
    simp only [sep_assoc]
    refine Triple.getFact fun hel => ?_
    rw [hel]
    refine Triple.pre (P := peeking (⟨li, M.height, none⟩ : Peek K V) M.toList ∗ peeking (⟨ri, O.height, none⟩ : Peek K V) O.toList ∗
      built ⟨0, ta.addr⟩ ⟨0, (lastLeaf 0 ta).addr⟩ 0 (emptyLeaf : Tree K V) ∗ sched al.request.2) ?_ ?_
    rotate_left
    · unfold built
      simp only [hex_sep, sep_hex]
      refine Ent.hex_right (ta, pi) ?_
      simp only [sep_assoc]
      refine Ent.putFact ⟨he, trivial, trivial⟩ ?_
      ent_ac
    have hb : BTree.Build 0 (emptyLeaf : Tree K V) := .leaf []
    refine Triple.assoc ?_
    refine Triple.call (P₀ := peeking (⟨li, M.height, none⟩ : Peek K V) M.toList ∗ peeking (⟨ri, O.height, none⟩ : Peek K V) O.toList ∗
        built ⟨0, ta.addr⟩ ⟨0, (lastLeaf 0 ta).addr⟩ 0 (emptyLeaf : Tree K V) ∗ sched al.request.2)
      (buildLoopU_ref (m := ⟨⟨li, M.height, none⟩, ⟨ri, O.height, none⟩⟩) (fuel := fuel) (d := []) (len := 0) (bnd := M.length + O.length + 1) (by omega) hb (by simp [emptyLeaf]) (by simp)
        (by simp [emptyLeaf, BTree.toList])) fun o => ?_
    unfold BuildPost
    simp only [hex_sep]
    refine Triple.ofHex fun x => ?_
    obtain ⟨l', r', H, T, al', b, s⟩ := x
    dsimp only
    simp only [sep_assoc]
    refine Triple.getFact fun hf => ?_
    obtain ⟨rfl, k2, k3, k4⟩ := hf
    refine Triple.assoc ?_
    refine Triple.bindPure (a := (b, s)) ?_
    refine Triple.assoc ?_
    dsimp only
    refine Triple.call (P₀ := peeking s.iter.left l') peekDrop_all fun dl => ?_
    refine Triple.getFact fun hdl => ?_
    refine Triple.assoc ?_
    refine Triple.call (P₀ := peeking s.iter.right r') peekDrop_all fun dr => ?_
    refine Triple.getFact fun hdr => ?_
    refine Triple.bindPure (a := (b, (⟨s.root, s.length⟩ : HMap), s.dropped ++ dl ++ dr)) ?_
    dsimp only
    have hperm : (BTree.toList H T ++ (s.dropped ++ dl ++ dr)).Perm (M.toList ++ O.toList) := by
      refine List.Perm.trans ?_ (k3.trans ?_)
      · rw [List.append_assoc]
        exact .append_left _ (.append_left _ (hdl.append hdr))
      · simp [emptyLeaf, BTree.toList]
    cases b with
    | some w =>
      dsimp only
      have hfin : M.appendP O al fuel = .ok (.unwound (⟨H, T, false, s.length⟩, Map.new) w) := by
        rcases k4 with ⟨k, _⟩ | ⟨k, q1, q2⟩ | ⟨k, q1⟩
        · cases k
        · obtain rfl := Option.some.inj k
          rw [hA2, q1, q2]
          rcases BTree.fromSortedP_spec (mergeIterP fuel M.toList O.toList).1 hb (by simp [emptyLeaf]) (by simp) 0 (by simp [emptyLeaf, BTree.toList]) al.request.2 with
            ⟨_, g1, _⟩ | ⟨_, _, _, g1, _, _, _, _, g6⟩
          · rw [q1] at g1; cases g1
          · rw [q1] at g1
            simp only [Exec.ok.injEq, Outcome.done.injEq, Prod.mk.injEq] at g1
            obtain ⟨⟨rfl, rfl⟩, rfl⟩ := g1
            rw [k2, g6]
            simp [emptyLeaf, BTree.toList]
        · obtain rfl := Option.some.inj k
          rw [hA2, q1]; rfl
      refine Triple.ofPure (Ent.hex_right ((⟨H, T, false, s.length⟩, Map.new), al') (Ent.fact_right ⟨?_, k2, rfl, .inr ⟨w, rfl, rfl, rfl, hfin⟩⟩ ?_))
      · simpa [Map.toList, Map.new, emptyLeaf, BTree.toList] using hperm
      · dsimp only
        rw [rep_new]
        simp only [emp_sep, sep_emp]
        refine Ent.trans (Q := rooted s.root H T ∗ sched al' ∗ leak (some w != some .mem)) (by ent_ac) ?_
        exact Ent.frame rep_rooted _
    | none =>
      dsimp only
      rcases k4 with ⟨_, rfl, rfl, q1, q2⟩ | ⟨k, _⟩ | ⟨k, _⟩
      rotate_left
      · cases k
      · cases k
      rcases BTree.fromSortedP_spec (mergeIterP fuel M.toList O.toList).1 hb (by simp [emptyLeaf]) (by simp) 0 (by simp [emptyLeaf, BTree.toList]) al.request.2 with
        ⟨_, g1, _⟩ | ⟨_, _, _, g1, _, g3, _, g5, g6⟩
      · rw [q1] at g1; cases g1
      rw [q1] at g1
      simp only [Exec.ok.injEq, Outcome.done.injEq, Prod.mk.injEq] at g1
      obtain ⟨⟨rfl, rfl⟩, rfl⟩ := g1
      obtain ⟨t2, u1, u2⟩ := BTree.fixRightEdge_spec g3 g5
      refine Triple.pre (P := rooted s.root H T ∗ sched al' ∗ leak (none != some Why.mem)) ?_ (by simp only [sep_emp]; ent_ac)
      refine rooted_elim fun tb pj he' hr' => ?_
      rw [hr']
      have u1' := u1
      rw [← he'] at u1'
      refine Triple.call (P₀ := tree (none, pj) H tb) (fixRightEdge_ref u1') fun _ => ?_
      have hlen : s.length = 0 + (mergeIterP fuel M.toList O.toList).1.length := by
        rw [k2, g6]; simp [emptyLeaf, BTree.toList]
      have hlist : BTree.toList H t2 = BTree.toList H T := u2.1
      refine Triple.ofPure (Ent.hex_right ((⟨H, t2, false, s.length⟩, Map.new), al') (Ent.fact_right ⟨?_, ?_, rfl, .inl ⟨rfl, s.fuel, ?_⟩⟩ ?_))
      · simpa [Map.toList, Map.new, emptyLeaf, BTree.toList, hlist] using hperm
      · simpa [Map.toList, hlist] using k2
      · rw [hA2, q1, q2]
        simp [u1, hlen]
      · dsimp only
        rw [rep_new]
        simp only [emp_sep]
        exact Ent.frame (Ent.trans rooted_holds rep_rooted) _

/-- Two maps of a pool. -/
theorem pool_two {hs : List HMap} {p : List (Map K V)} {i j : Nat} {M O : Map K V} {hm ho : HMap} (hl : hs.length = p.length) (hi : p[i]? = some M) (hj : p[j]? = some O)
    (e1 : hs[i]? = some hm) (g1 : hs[j]? = some ho) (hij : i ≠ j) :
    ∃ F, pool hs p = (rep hm M ∗ rep ho O ∗ F) ∧
      ∀ hm' M' ho' O', pool ((hs.set i hm').set j ho') ((p.set i M').set j O') = (rep hm' M' ∗ rep ho' O' ∗ F) := by
  obtain ⟨hm1, F, e1', e2, e3⟩ := pool_split hl hi
  rw [e1] at e1'
  obtain rfl := Option.some.inj e1'
  have hj2 : (p.set i Map.new)[j]? = some O := by rw [List.getElem?_set_ne hij]; exact hj
  obtain ⟨ho2, F2, k1, k2, k3⟩ := pool_split (hs := hs.set i HMap.new) (ms := p.set i Map.new) (by simpa using hl) hj2
  rw [List.getElem?_set_ne hij, g1] at k1
  obtain rfl := Option.some.inj k1
  have eF : F = (rep ho O ∗ F2) := by
    have := e3 HMap.new Map.new
    rw [rep_new, emp_sep] at this
    rw [← this, k2]
  refine ⟨F2, by rw [e2, eF], fun hm' M' ho' O' => ?_⟩
  have a1 : ((p.set i M').set j O')[i]? = some M' := by
    rw [List.getElem?_set_ne (Ne.symm hij), List.getElem?_set_self]
    exact (List.getElem?_eq_some_iff.1 hi).1
  obtain ⟨h5, F5, b1, b2, b3⟩ := pool_split (hs := (hs.set i hm').set j ho') (by simpa using hl) a1
  have b4 : h5 = hm' := by
    rw [List.getElem?_set_ne (Ne.symm hij), List.getElem?_set_self] at b1
    · exact (Option.some.inj b1).symm
    · exact (List.getElem?_eq_some_iff.1 e1).1
  subst b4
  have b5 := b3 HMap.new Map.new
  rw [rep_new, emp_sep] at b5
  rw [List.set_comm _ _ (Ne.symm hij), List.set_set, List.set_comm _ _ (Ne.symm hij), List.set_set, k3] at b5
  rw [b2, ← b5]

end Verif.Heap
