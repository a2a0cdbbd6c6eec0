import Verif.Heap.Proofs.Sparing
import Verif.Heap.Proofs.CloneMap
/-
`try_clone` and `clone`, taken apart into accesses: the nodes of the original are looked at and nothing else.
-/
namespace Verif.Heap
open Verif
open Verif.BTree (B MIN_LEN CAPACITY Tree Handle Map emptyLeaf emptySpine Cloner)

variable {K V Q α β : Type} {E : String → Prop} {ro : Cells K V}

section
variable (ck : Cloner K) (cv : Cloner V) [PureCloner ck] [PureCloner cv]

/-- `cloneLeafStep`, taken apart. -/
noncomputable def cloneLeafStepP (src out : Addr) (s : Nat × Nat) : Prog K V ((Nat × Nat) ⊕ (Option TryReserveError × Nat)) :=
  (lookOf (lenOf src)).bind fun len =>
  if s.1 < len then
    (lookOf (kvOf ⟨0, src, s.1⟩)).bind fun kv =>
    (lookOf (newEdge ⟨0, src⟩ (s.1 + 1))).bind fun e =>
    (progOf (cloneKv ck cv kv)).bind fun r =>
    match r with
    | .error er => .done (.inr (some er, s.2))
    | .ok kv => (progOf (pushLeaf out kv)).bind fun _ => .done (.inl (e.idx, s.2 + 1))
  else .done (.inr (none, s.2))

/-- `cloneInternalStep`, taken apart. -/
noncomputable def cloneInternalStepP (rec : Addr → Prog K V (Res HMap)) (src out : NRef) (s : Nat × Nat) : Prog K V ((Nat × Nat) ⊕ (Option TryReserveError × Nat)) :=
  (lookOf (lenOf src.node)).bind fun len =>
  if s.1 < len then
    (lookOf (kvOf ⟨src.height, src.node, s.1⟩)).bind fun kv =>
    (lookOf (newEdge src (s.1 + 1))).bind fun e =>
    (progOf (cloneKv ck cv kv)).bind fun r =>
    match r with
    | .error er => .done (.inr (some er, s.2))
    | .ok kv =>
      (lookOf (descend e)).bind fun c =>
      (rec c.node).bind fun sub =>
      match sub with
      | .error er => .done (.inr (some er, s.2))
      | .ok sub => (progOf (pushInternal out kv sub.root)).bind fun _ => .done (.inl (e.idx, s.2 + (1 + sub.length)))
  else .done (.inr (none, s.2))

/-- `ended`, taken apart. -/
def endedP {σ ρ : Type} : σ ⊕ ρ → Prog K V ρ
  | .inl _ => .ub
  | .inr r => .done r

/-- `cloneSubtree`, taken apart. -/
noncomputable def cloneSubtreeP : (h : Nat) → (a : Addr) → Prog K V (Res HMap)
  | 0, a =>
    (progOf newLeaf).bind fun r =>
    match r with
    | none => .done (.error .allocError)
    | some r =>
      (lookOf (newEdge ⟨0, a⟩ 0)).bind fun e =>
      (Prog.loop (cloneLeafStepP ck cv a r.node) (CAPACITY + 1) (e.idx, 0)).bind fun x =>
      (endedP x).bind fun x =>
      match x.1 with
      | none => .done (.ok ⟨r, x.2⟩)
      | some er => (progOf (HMap.drop ⟨r, x.2⟩)).bind fun _ => .done (.error er)
  | h + 1, a =>
    (lookOf (newEdge ⟨h + 1, a⟩ 0)).bind fun e =>
    (lookOf (descend e)).bind fun c =>
    (cloneSubtreeP h c.node).bind fun first =>
    match first with
    | .error er => .done (.error er)
    | .ok first =>
      (progOf (pushLevel first.root)).bind fun r =>
      match r with
      | none => (progOf first.drop).bind fun _ => .done (.error .allocError)
      | some r =>
        (lookOf (newEdge ⟨h + 1, a⟩ 0)).bind fun e =>
        (Prog.loop (cloneInternalStepP ck cv (cloneSubtreeP h) ⟨h + 1, a⟩ r) (CAPACITY + 1) (e.idx, first.length)).bind fun x =>
        (endedP x).bind fun x =>
        match x.1 with
        | none => .done (.ok ⟨r, x.2⟩)
        | some er => (progOf (HMap.drop ⟨r, x.2⟩)).bind fun _ => .done (.error er)

/-- `HMap.tryClone`, taken apart. -/
noncomputable def HMap.tryCloneP (m : HMap) : Prog K V (Res HMap) :=
  if m.length = 0 then .done (.ok HMap.new)
  else cloneSubtreeP ck cv m.root.height m.root.node

end

section
variable {ck : Cloner K} {cv : Cloner V} [PureCloner ck] [PureCloner cv]

theorem endedP_whole {σ ρ : Type} (x : σ ⊕ ρ) : (endedP x : Prog K V ρ).whole = ended x := by cases x <;> rfl

theorem cloneLeafStepP_whole (src out : Addr) (s : Nat × Nat) : (cloneLeafStepP ck cv src out s).whole = cloneLeafStep ck cv src out s := by
  unfold cloneLeafStepP cloneLeafStep
  simp only [Prog.whole_bind, lookOf_whole]
  congr 1; funext len
  split
  · simp only [Prog.whole_bind, lookOf_whole, progOf_whole]
    congr 1; funext kv
    congr 1; funext e
    congr 1; funext r
    cases r with
    | error er => rfl
    | ok kv => simp only [Prog.whole_bind, progOf_whole]; rfl
  · rfl

theorem cloneInternalStepP_whole {rec : Addr → Prog K V (Res HMap)} {rec' : Addr → HM K V (Res HMap)} (hr : ∀ a, (rec a).whole = rec' a) (src out : NRef) (s : Nat × Nat) :
    (cloneInternalStepP ck cv rec src out s).whole = cloneInternalStep ck cv rec' src out s := by
  unfold cloneInternalStepP cloneInternalStep
  simp only [Prog.whole_bind, lookOf_whole]
  congr 1; funext len
  split
  · simp only [Prog.whole_bind, lookOf_whole, progOf_whole]
    congr 1; funext kv
    congr 1; funext e
    congr 1; funext r
    cases r with
    | error er => rfl
    | ok kv =>
      simp only [Prog.whole_bind, lookOf_whole, hr]
      congr 1; funext c
      congr 1; funext sub
      cases sub with
      | error er => rfl
      | ok sub => simp only [Prog.whole_bind, progOf_whole]; rfl
  · rfl

theorem cloneSubtreeP_whole : ∀ (h : Nat) (a : Addr), (cloneSubtreeP ck cv h a).whole = cloneSubtree ck cv h a
  | 0, a => by
    unfold cloneSubtreeP cloneSubtree
    simp only [Prog.whole_bind, progOf_whole]
    congr 1; funext r
    cases r with
    | none => rfl
    | some r =>
      simp only [Prog.whole_bind, lookOf_whole, Prog.loop_whole (cloneLeafStepP_whole (ck := ck) (cv := cv) a r.node), endedP_whole]
      congr 1; funext e
      congr 1; funext x
      congr 1; funext x
      cases x.1 with
      | none => rfl
      | some er => simp only [Prog.whole_bind, progOf_whole]; rfl
  | h + 1, a => by
    unfold cloneSubtreeP cloneSubtree
    simp only [Prog.whole_bind, lookOf_whole, cloneSubtreeP_whole h]
    congr 1; funext e
    congr 1; funext c
    congr 1; funext first
    cases first with
    | error er => rfl
    | ok first =>
      simp only [Prog.whole_bind, progOf_whole]
      congr 1; funext r
      cases r with
      | none => simp only [Prog.whole_bind, progOf_whole]; rfl
      | some r =>
        simp only [Prog.whole_bind, lookOf_whole, Prog.loop_whole (cloneInternalStepP_whole (ck := ck) (cv := cv) (cloneSubtreeP_whole h) ⟨h + 1, a⟩ r), endedP_whole]
        congr 1; funext e
        congr 1; funext x
        congr 1; funext x
        cases x.1 with
        | none => rfl
        | some er => simp only [Prog.whole_bind, progOf_whole]; rfl

theorem HMap.tryCloneP_whole (m : HMap) : (m.tryCloneP ck cv).whole = m.tryClone ck cv := by
  unfold HMap.tryCloneP HMap.tryClone
  split
  · rfl
  · exact cloneSubtreeP_whole ..

theorem Prog.bind_assoc {α β γ : Type} (t : Prog K V α) (f : α → Prog K V β) (g : β → Prog K V γ) : (t.bind f).bind g = t.bind fun a => (f a).bind g := by
  induction t with
  | done a => rfl
  | ub => rfl
  | panic msg => rfl
  | read a k ih => simp only [Prog.bind, ih]
  | write a n k ih => simp only [Prog.bind, ih]
  | alloc lay k ih => simp only [Prog.bind, ih]
  | free a lay k ih => simp only [Prog.bind, ih]

theorem LTriple.assoc {γ : Type} {P : HProp K V} {Qb : β → HProp K V} {x : Prog K V α} {g : α → Prog K V γ} {f : γ → Prog K V β}
    (h : LTriple ro E P (x.bind fun y => (g y).bind f) Qb) : LTriple ro E P ((x.bind g).bind f) Qb := by rw [Prog.bind_assoc]; exact h

theorem cloneLeafLoop_look {l : Link} {t : ATree K V} {r : NRef} (hk : Known ro (tree l 0 t)) :
    ∀ (cs done : List (K × V)) (T : Tree K V) (al al' : Alloc) (fuel : Nat) (res : Res (Tree K V)), t.kvs = done ++ cs → cs.length < fuel →
      BTree.cloneLeafLoop ck cv cs T al = .ok (res, al') →
      LTriple ro E (rooted r 0 T ∗ sched al) (Prog.loop (cloneLeafStepP ck cv t.addr r.node) fuel (done.length, T.kvs.length))
        (fun o => sched al' ∗ LoopPost r 0 (res.map fun T => (T, T.kvs.length)) o)
  | _, _, _, _, _, 0, _, _, hf, _ => by simp at hf
  | [], done, T, al, al', fuel + 1, res, ht, hf, hx => by
    simp only [BTree.cloneLeafLoop, Exec.ok.injEq, Prod.mk.injEq] at hx
    obtain ⟨rfl, rfl⟩ := hx
    unfold Prog.loop cloneLeafStepP
    dsimp only
    refine LTriple.assoc ?_
    refine LTriple.lookEq hk lenOf_tree ?_
    rw [if_neg (by rw [ht]; simp)]
    show LTriple ro E _ (.done _) _
    refine LTriple.ofPure ?_
    rw [show (Except.map (fun T : Tree K V => (T, T.kvs.length)) (.ok T) : Res (Tree K V × Nat)) = .ok (T, T.kvs.length) from rfl, loopPost_ok]
    refine Ent.putFact ⟨rfl, rfl⟩ ?_
    ent_ac
  | kv :: cs, done, T, al, al', fuel + 1, res, ht, hf, hx => by
    unfold Prog.loop cloneLeafStepP
    dsimp only
    refine LTriple.assoc ?_
    refine LTriple.lookEq hk lenOf_tree ?_
    rw [if_pos (by rw [ht]; simp)]
    refine LTriple.assoc ?_
    refine LTriple.lookEq hk (kvOf_node (by rw [ht]; exact getE_mid rfl)) ?_
    refine LTriple.assoc ?_
    refine LTriple.lookEq hk (newEdge_tree (by rw [ht]; simp)) ?_
    refine LTriple.assoc ?_
    refine LTriple.callEq (P₀ := sched al) (LTriple.prog Triple.cloneKv') ?_
    cases hc : kvClone ck cv kv al with
    | mk rr a1 =>
    cases rr with
    | error e =>
      rw [cloneLeafLoop_err hc] at hx
      simp only [Exec.ok.injEq, Prod.mk.injEq] at hx
      obtain ⟨rfl, rfl⟩ := hx
      show LTriple ro E _ (.done _) _
      refine LTriple.ofPure ?_
      rw [show (Except.map (fun T : Tree K V => (T, T.kvs.length)) (.error e) : Res (Tree K V × Nat)) = .error e from rfl, loopPost_error]
      simp only [sep_hex]
      refine Ent.hex_right (T, T.kvs.length) ?_
      refine Ent.putFact ⟨rfl, rfl⟩ ?_
      ent_ac
    | ok kv' =>
      rw [cloneLeafLoop_ok hc] at hx
      obtain ⟨T', hp, hx⟩ := Exec.bind_eq_ok.1 hx
      refine LTriple.assoc ?_
      refine LTriple.call (P₀ := rooted r 0 T) (LTriple.prog (pushLeaf_rooted hp)) fun _ => ?_
      have e : T'.kvs.length = T.kvs.length + 1 := by
        simp only [BTree.Tree.pushLeaf] at hp
        obtain ⟨_, hq, hp⟩ := Exec.bind_eq_ok.1 hp
        simp only [Exec.ok.injEq] at hp
        rw [← hp]; simp
      show LTriple ro E _ (Prog.loop _ fuel (done.length + 1, T.kvs.length + 1)) _
      rw [← e, show done.length + 1 = (done ++ [kv]).length by simp]
      refine LTriple.pre (P := rooted r 0 T' ∗ sched a1) ?_ (by ent_ac)
      exact cloneLeafLoop_look hk cs (done ++ [kv]) T' a1 al' fuel res (by rw [ht]; simp) (by simpa using hf) hx

theorem cloneInternalLoop_look {l : Link} {h : Nat} {t : ATree K V} {r : NRef} (hk : Known ro (tree l (h + 1) t))
    (hrec : ∀ {l : Link} {c : ATree K V} {al al' : Alloc} {res : Res (Tree K V × Nat)}, Known ro (tree l h c) → BTree.cloneSubtree ck cv h c.erase al = .ok (res, al') →
      LTriple ro E (sched al) (cloneSubtreeP ck cv h c.addr) (fun o => sched al' ∗ ClonePost h res o)) :
    ∀ (cs done : List (K × V)) (es X : List (ATree K V)) (T : Tree K V) (n : Nat) (al al' : Alloc) (fuel : Nat) (res : Res (Tree K V × Nat)),
      t.kvs = done ++ cs → t.edges = X ++ es → X.length = done.length + 1 → es.length = cs.length → cs.length < fuel →
      n = (BTree.toList (h + 1) T).length →
      BTree.cloneInternalLoop ck cv (fun e a => BTree.cloneSubtree ck cv h e a) cs (es.map ATree.erase) T n al = .ok (res, al') →
      LTriple ro E (rooted r (h + 1) T ∗ sched al)
        (Prog.loop (cloneInternalStepP ck cv (cloneSubtreeP ck cv h) ⟨h + 1, t.addr⟩ r) fuel (done.length, n))
        (fun o => sched al' ∗ LoopPost r (h + 1) res o)
  | _, _, _, _, _, _, _, _, 0, _, _, _, _, _, hf, _, _ => by simp at hf
  | [], done, es, X, T, n, al, al', fuel + 1, res, ht, he, hX, hl, hf, hn, hx => by
    simp only [BTree.cloneInternalLoop, Exec.ok.injEq, Prod.mk.injEq] at hx
    obtain ⟨rfl, rfl⟩ := hx
    unfold Prog.loop cloneInternalStepP
    dsimp only
    refine LTriple.assoc ?_
    refine LTriple.lookEq hk lenOf_tree ?_
    rw [if_neg (by rw [ht]; simp)]
    show LTriple ro E _ (.done _) _
    refine LTriple.ofPure ?_
    rw [loopPost_ok]
    refine Ent.putFact ⟨rfl, hn⟩ ?_
    ent_ac
  | kv :: cs, done, [], X, T, n, al, al', fuel + 1, res, ht, he, hX, hl, hf, hn, hx => by simp at hl
  | kv :: cs, done, c :: es, X, T, n, al, al', fuel + 1, res, ht, he, hX, hl, hf, hn, hx => by
    unfold Prog.loop cloneInternalStepP
    dsimp only
    refine LTriple.assoc ?_
    refine LTriple.lookEq hk lenOf_tree ?_
    rw [if_pos (by rw [ht]; simp)]
    refine LTriple.assoc ?_
    refine LTriple.lookEq hk (kvOf_node (by rw [ht]; exact getE_mid rfl)) ?_
    refine LTriple.assoc ?_
    refine LTriple.lookEq hk (newEdge_tree (by rw [ht]; simp)) ?_
    refine LTriple.assoc ?_
    refine LTriple.callEq (P₀ := sched al) (LTriple.prog Triple.cloneKv') ?_
    rw [List.map_cons] at hx
    cases hc : kvClone ck cv kv al with
    | mk rr a1 =>
    cases rr with
    | error e =>
      rw [cloneInternalLoop_err hc] at hx
      simp only [Exec.ok.injEq, Prod.mk.injEq] at hx
      obtain ⟨rfl, rfl⟩ := hx
      show LTriple ro E _ (.done _) _
      refine LTriple.ofPure ?_
      rw [loopPost_error]
      simp only [sep_hex]
      refine Ent.hex_right (T, n) ?_
      refine Ent.putFact ⟨rfl, hn⟩ ?_
      ent_ac
    | ok kv' =>
      obtain ⟨⟨y, a2⟩, hy, hx⟩ := cloneInternalLoop_rec hc hx
      dsimp only at hy hx ⊢
      refine LTriple.assoc ?_
      refine LTriple.lookEq hk (descend_tree (c := c) (by rw [he, ← hX]; simp)) ?_
      obtain ⟨l', F, e, _⟩ := focus_self (h := h + 1) l (at_one he hX) (by simp)
      simp only [List.length_singleton, Nat.add_sub_cancel] at e
      refine LTriple.assoc ?_
      refine LTriple.call (P₀ := sched a1) (hrec (e ▸ hk).left hy) fun o => ?_
      cases y with
      | error er =>
        rw [clonePost_error]
        simp only [sep_assoc]
        refine LTriple.getFact fun ho => ?_
        subst ho
        simp only [Prod.mk.injEq] at hx
        obtain ⟨rfl, rfl⟩ := hx
        show LTriple ro E _ (.done _) _
        refine LTriple.ofPure ?_
        rw [loopPost_error]
        simp only [sep_hex]
        refine Ent.hex_right (T, n) ?_
        refine Ent.putFact ⟨rfl, hn⟩ ?_
        ent_ac
      | ok s =>
        obtain ⟨S, m⟩ := s
        obtain ⟨T', hp, hx⟩ := hx
        rw [clonePost_ok]
        simp only [sep_hex, hex_sep]
        refine LTriple.ofHex fun sr => ?_
        simp only [sep_assoc]
        refine LTriple.getFact fun ho => ?_
        obtain ⟨rfl, hm⟩ := ho
        dsimp only
        refine LTriple.assoc ?_
        refine LTriple.pre (P := rooted r (h + 1) T ∗ rooted sr h S ∗ sched a2) ?_ (by ent_ac)
        refine LTriple.pre ?_ rooted_shape
        refine LTriple.getFact fun hsh => ?_
        have hlen := pushInternal_length (h := h) hp hsh.2
        refine LTriple.pre (P := (rooted r (h + 1) T ∗ rooted sr h S) ∗ sched a2) ?_ (by ent_ac)
        refine LTriple.call (P₀ := rooted r (h + 1) T ∗ rooted sr h S) (LTriple.prog (pushInternal_rooted hp)) fun _ => ?_
        show LTriple ro E _ (Prog.loop _ fuel (done.length + 1, n + (1 + m))) _
        rw [show done.length + 1 = (done ++ [kv]).length by simp]
        exact cloneInternalLoop_look hk hrec cs (done ++ [kv]) es (X ++ [c]) T' (n + (1 + m)) a2 al' fuel res (by rw [ht]; simp) (by rw [he]; simp)
          (by simp [hX]) (by simpa using hl) (by simpa using hf) (by rw [hlen, hn, hm]) hx

theorem cloneSubtree_look : ∀ {h : Nat} {l : Link} {t : ATree K V} {al al' : Alloc} {res : Res (Tree K V × Nat)}, Known ro (tree l h t) →
    BTree.cloneSubtree ck cv h t.erase al = .ok (res, al') →
    LTriple ro E (sched al) (cloneSubtreeP ck cv h t.addr) (fun o => sched al' ∗ ClonePost h res o)
  | 0, l, t, al, al', res, hk, hx => by
    simp only [BTree.cloneSubtree] at hx
    unfold cloneSubtreeP
    refine LTriple.call (P₀ := sched al) (LTriple.prog newLeaf_spec) fun o => ?_
    cases o with
    | none =>
      dsimp only
      simp only [sep_assoc]
      refine LTriple.getFact fun hno => ?_
      simp only [hno, Bool.false_eq_true, if_false, Exec.ok.injEq, Prod.mk.injEq] at hx
      obtain ⟨rfl, rfl⟩ := hx
      refine LTriple.ofPure ?_
      rw [clonePost_error]
      simp only [fact_of]
      ent_ac
    | some r =>
      dsimp only
      simp only [sep_assoc]
      refine LTriple.getFact fun hyes => ?_
      simp only [hyes, if_true] at hx
      obtain ⟨⟨rr, a1⟩, hl, hx⟩ := Exec.bind_eq_ok.1 hx
      refine LTriple.lookEq hk (newEdge_tree (Nat.zero_le _)) ?_
      have hcap := (hk.mono tree_cap).fact.1
      rw [ATree.erase_kvs] at hl
      refine LTriple.pre (P := (rooted r 0 (emptySpine 0) ∗ sched al.request.2)) ?_ (by simp only [sep_emp]; ent_ac)
      refine LTriple.call (P₀ := rooted r 0 (emptySpine 0) ∗ sched al.request.2)
        (cloneLeafLoop_look (l := l) (t := t) (r := r) hk t.kvs [] (emptySpine 0) _ a1 (CAPACITY + 1) rr (by simp) (by omega) hl) fun o => ?_
      cases rr with
      | error e =>
        simp only [Exec.ok.injEq, Prod.mk.injEq] at hx
        obtain ⟨rfl, rfl⟩ := hx
        rw [show (Except.map (fun T : Tree K V => (T, T.kvs.length)) (.error e) : Res (Tree K V × Nat)) = .error e from rfl, loopPost_error]
        simp only [sep_hex, hex_sep]
        refine LTriple.ofHex fun x => ?_
        simp only [sep_assoc]
        refine LTriple.getFact fun ho => ?_
        obtain ⟨rfl, hn⟩ := ho
        dsimp only [endedP, Prog.bind]
        refine LTriple.pre (P := (rep ⟨r, x.2⟩ (⟨0, x.1, false, x.2⟩ : Map K V)) ∗ sched a1) ?_
          (by rw [own_rooted rfl, fact_of rfl, emp_sep]; simp only [sep_emp]; ent_ac)
        refine LTriple.call (P₀ := rep ⟨r, x.2⟩ (⟨0, x.1, false, x.2⟩ : Map K V)) (LTriple.prog (mapDrop_spec hn)) fun _ => ?_
        refine LTriple.getFact fun _ => ?_
        refine LTriple.ofPure ?_
        rw [clonePost_error]
        simp only [fact_of]
        ent_ac
      | ok T =>
        simp only [Exec.ok.injEq, Prod.mk.injEq] at hx
        obtain ⟨rfl, rfl⟩ := hx
        rw [show (Except.map (fun T : Tree K V => (T, T.kvs.length)) (.ok T) : Res (Tree K V × Nat)) = .ok (T, T.kvs.length) from rfl, loopPost_ok]
        simp only [sep_assoc]
        refine LTriple.getFact fun ho => ?_
        obtain ⟨rfl, hn⟩ := ho
        show LTriple ro E _ (.done _) _
        refine LTriple.ofPure ?_
        rw [clonePost_ok]
        simp only [sep_hex]
        refine Ent.hex_right r ?_
        refine Ent.putFact ⟨rfl, hn⟩ ?_
        ent_ac
  | h + 1, l, t, al, al', res, hk, hx => by
    simp only [BTree.cloneSubtree] at hx
    obtain ⟨c0, hc0, hx⟩ := Exec.bind_eq_ok.1 hx
    obtain ⟨⟨rr, a1⟩, hr, hx⟩ := Exec.bind_eq_ok.1 hx
    have hs := (hk.mono tree_shape).fact.1
    have hs2 : t.edges.length = t.kvs.length + 1 := hs.2
    rw [ATree.erase_edges] at hc0
    obtain ⟨X, c, Y, he, hX, rfl⟩ := getE_map_ok hc0
    obtain rfl : X = [] := List.eq_nil_of_length_eq_zero hX
    rw [List.nil_append] at he
    unfold cloneSubtreeP
    refine LTriple.lookEq hk (newEdge_tree (Nat.zero_le _)) ?_
    refine LTriple.lookEq hk (descend_tree (c := c) (by rw [he]; simp)) ?_
    obtain ⟨l', F, e, _⟩ := focus_self (h := h + 1) l (at_one (X := []) he rfl) (by simp)
    simp only [List.length_singleton, Nat.add_sub_cancel] at e
    refine LTriple.call (P₀ := sched al) (cloneSubtree_look (e ▸ hk).left hr) fun o => ?_
    cases rr with
    | error er =>
      simp only [Exec.ok.injEq, Prod.mk.injEq] at hx
      obtain ⟨rfl, rfl⟩ := hx
      rw [clonePost_error]
      simp only [sep_assoc]
      refine LTriple.getFact fun ho => ?_
      subst ho
      dsimp only
      refine LTriple.ofPure ?_
      rw [clonePost_error]
      simp only [fact_of]
      ent_ac
    | ok s =>
      obtain ⟨S, m⟩ := s
      dsimp only at hx
      rw [clonePost_ok]
      simp only [sep_hex, hex_sep]
      refine LTriple.ofHex fun sr => ?_
      simp only [sep_assoc]
      refine LTriple.getFact fun ho => ?_
      obtain ⟨rfl, hm⟩ := ho
      dsimp only
      refine LTriple.pre (P := (sched a1 ∗ rooted sr h S) ∗ emp) ?_ (by simp only [sep_emp]; ent_ac)
      refine LTriple.call (P₀ := sched a1 ∗ rooted sr h S) (LTriple.prog pushLevel_rooted) fun o => ?_
      cases o with
      | none =>
        dsimp only
        simp only [sep_assoc]
        refine LTriple.getFact fun hno => ?_
        simp only [hno, Bool.false_eq_true, if_false, Exec.ok.injEq, Prod.mk.injEq] at hx
        obtain ⟨rfl, rfl⟩ := hx
        refine LTriple.pre (P := (rep ⟨sr, m⟩ (⟨h, S, false, m⟩ : Map K V)) ∗ sched a1.request.2) ?_
          (by rw [own_rooted rfl, fact_of rfl, emp_sep]; simp only [sep_emp]; ent_ac)
        refine LTriple.call (P₀ := rep ⟨sr, m⟩ (⟨h, S, false, m⟩ : Map K V)) (LTriple.prog (mapDrop_spec hm)) fun _ => ?_
        refine LTriple.getFact fun _ => ?_
        refine LTriple.ofPure ?_
        rw [clonePost_error]
        simp only [fact_of]
        ent_ac
      | some r =>
        dsimp only
        simp only [sep_assoc]
        refine LTriple.getFact fun hyes => ?_
        simp only [hyes, if_true] at hx
        refine LTriple.pre (P := (rooted r (h + 1) ⟨[], [S]⟩ ∗ sched a1.request.2) ∗ emp) ?_ (by simp only [sep_emp]; ent_ac)
        refine LTriple.lookEq hk (newEdge_tree (Nat.zero_le _)) ?_
        rw [ATree.erase_kvs, ATree.erase_edges, he] at hx
        have hlen : m = (BTree.toList (h + 1) (⟨[], [S]⟩ : Tree K V)).length := by rw [hm, BTree.toList_succ]; simp [BTree.inter]
        refine LTriple.call (P₀ := rooted r (h + 1) ⟨[], [S]⟩ ∗ sched a1.request.2)
          (cloneInternalLoop_look (l := l) (t := t) (r := r) hk (fun hk hr => cloneSubtree_look hk hr) t.kvs [] Y [c] ⟨[], [S]⟩ m _ al' (CAPACITY + 1) res (by simp) (by rw [he]; simp) rfl
            (by rw [he] at hs2; simpa using hs2) (by have := hs.1; omega) hlen hx) fun o => ?_
        cases res with
        | error er =>
          rw [loopPost_error]
          simp only [sep_hex, hex_sep]
          refine LTriple.ofHex fun x => ?_
          simp only [sep_assoc]
          refine LTriple.getFact fun ho => ?_
          obtain ⟨rfl, hn⟩ := ho
          dsimp only [endedP, Prog.bind]
          refine LTriple.pre (P := (rep ⟨r, x.2⟩ (⟨h + 1, x.1, false, x.2⟩ : Map K V)) ∗ sched al') ?_
            (by rw [own_rooted rfl, fact_of rfl, emp_sep]; simp only [sep_emp]; ent_ac)
          refine LTriple.call (P₀ := rep ⟨r, x.2⟩ (⟨h + 1, x.1, false, x.2⟩ : Map K V)) (LTriple.prog (mapDrop_spec hn)) fun _ => ?_
          refine LTriple.getFact fun _ => ?_
          refine LTriple.ofPure ?_
          rw [clonePost_error]
          simp only [fact_of]
          ent_ac
        | ok y =>
          obtain ⟨T, n⟩ := y
          rw [loopPost_ok]
          simp only [sep_assoc]
          refine LTriple.getFact fun ho => ?_
          obtain ⟨rfl, hn⟩ := ho
          show LTriple ro E _ (.done _) _
          refine LTriple.ofPure ?_
          rw [clonePost_ok]
          simp only [sep_hex]
          refine Ent.hex_right r ?_
          refine Ent.putFact ⟨rfl, hn⟩ ?_
          simp only [sep_emp]
          ent_ac


/-! ### the operations -/

/-- What `try_clone` adds: the copy if it succeeds, and nothing if it does not. -/
def CopyPost (res : Res (Map K V)) (o : Res HMap) : HProp K V :=
  match res with
  | .ok C => hex fun hc : HMap => fact (o = .ok hc) ∗ rep hc C
  | .error e => fact (o = .error e)

theorem copyPost_ok {C : Map K V} {o : Res HMap} : CopyPost (.ok C) o = hex fun hc : HMap => fact (o = .ok hc) ∗ rep hc C := rfl
theorem copyPost_error {e : TryReserveError} {o : Res HMap} : (CopyPost (.error e) o : HProp K V) = fact (o = .error e) := rfl

theorem tryClone_look {hm : HMap} {M : Map K V} {al al' : Alloc} {res : Res (Map K V)} (hk : Known ro (rep hm M))
    (hsh : M.shared = true → M.length = 0) (hx : M.tryClone ck cv al = .ok (res, al')) :
    LTriple ro E (sched al) (hm.tryCloneP ck cv) (fun o => sched al' ∗ CopyPost res o) := by
  by_cases h0 : M.length = 0
  · simp only [BTree.Map.tryClone, BTree.Map.len, h0, if_true, Exec.ok.injEq, Prod.mk.injEq] at hx
    obtain ⟨rfl, rfl⟩ := hx
    have hl := (hk.mono rep_length).fact.1
    unfold HMap.tryCloneP
    rw [if_pos (by rw [hl, h0])]
    refine LTriple.ofPure ?_
    rw [copyPost_ok]
    simp only [sep_hex]
    refine Ent.hex_right HMap.new ?_
    rw [rep_new]
    refine Ent.putFact rfl ?_
    simp only [sep_emp]
    ent_ac
  · have hs : M.shared = false := by
      cases h : M.shared with
      | false => rfl
      | true => exact absurd (hsh h) h0
    simp only [BTree.Map.tryClone, BTree.Map.len, h0, if_false] at hx
    obtain ⟨⟨rr, a1⟩, hr, hx⟩ := Exec.bind_eq_ok.1 hx
    rw [own_rooted hs] at hk
    obtain ⟨hlen, hk⟩ := hk.fact
    obtain ⟨c, hc, ⟨ta, pi⟩, hk⟩ := hk
    obtain ⟨⟨he, hroot⟩, hk⟩ := fact_sep.1 hk
    dsimp only at he hroot hk
    unfold HMap.tryCloneP
    rw [if_neg (by rw [hlen]; exact h0), hroot]
    dsimp only
    rw [← he] at hr
    refine (cloneSubtree_look ⟨c, hc, hk⟩ hr).post fun o => ?_
    cases rr with
    | error e =>
      simp only [Exec.ok.injEq, Prod.mk.injEq] at hx
      obtain ⟨rfl, rfl⟩ := hx
      rw [clonePost_error, copyPost_error]
      exact Ent.refl _
    | ok y =>
      obtain ⟨T, n⟩ := y
      simp only [Exec.ok.injEq, Prod.mk.injEq] at hx
      obtain ⟨rfl, rfl⟩ := hx
      rw [clonePost_ok, copyPost_ok]
      simp only [sep_hex]
      intro w hw
      obtain ⟨r, hw⟩ := hw
      refine ⟨⟨r, n⟩, ?_⟩
      have : Ent (sched a1 ∗ fact (o = .ok ⟨r, n⟩ ∧ n = (BTree.toList M.height T).length) ∗ rooted r M.height T)
          (sched a1 ∗ fact (o = .ok ⟨r, n⟩) ∗ rep ⟨r, n⟩ (⟨M.height, T, false, n⟩ : Map K V)) := by
        rw [own_rooted (M := (⟨M.height, T, false, n⟩ : Map K V)) rfl, fact_of rfl, emp_sep]
        refine Ent.getFact fun ho => ?_
        refine Ent.putFact ho.1 ?_
        ent_ac
      exact this w hw

end

theorem shared_empty {M : Map K V} (hM : M.WF) (h : M.shared = true) : M.length = 0 := by
  have h2 := hM.shared h
  have h3 := hM.len
  simp [BTree.Map.toList, h2.1, h2.2, BTree.emptyLeaf] at h3
  exact h3

/-- `HMap.clone`, taken apart. -/
noncomputable def HMap.cloneP (m : HMap) (fk : K → K) (fv : V → V) : Prog K V HMap :=
  (m.tryCloneP (fun k a => (.ok (fk k), a)) (fun v a => (.ok (fv v), a))).bind fun r =>
  match r with
  | .ok m => .done m
  | .error _ => .panic "Out of Mem"

theorem HMap.cloneP_whole (m : HMap) (fk : K → K) (fv : V → V) : (m.cloneP fk fv).whole = m.clone fk fv := by
  unfold HMap.cloneP HMap.clone
  rw [Prog.whole_bind, HMap.tryCloneP_whole]
  congr 1; funext r
  cases r <;> rfl

theorem clone_look {fk : K → K} {fv : V → V} {hm : HMap} {M : Map K V} {al : Alloc} (hk : Known ro (rep hm M)) (hw : M.WF) (hE : ∀ msg, M.clone fk fv al = .panic msg → E msg) :
    LTriple ro E (sched al) (hm.cloneP fk fv) (fun hc => hex fun x : Map K V × Alloc => fact (M.clone fk fv al = .ok x) ∗ sched x.2 ∗ rep hc x.1) := by
  obtain ⟨rr, a1, hr, _⟩ := BTree.Map.tryClone_wf (fun k a => (.ok (fk k), a)) (fun v a => (.ok (fv v), a)) hw al
  unfold HMap.cloneP
  refine LTriple.seq (tryClone_look hk (shared_empty hw) hr) fun o => ?_
  simp only [BTree.Map.clone, hr, Exec.ok_bind] at hE ⊢
  cases rr with
  | error e =>
    rw [copyPost_error]
    refine LTriple.getFact fun ho => ?_
    subst ho
    exact LTriple.ofPanic (hE _ rfl)
  | ok C =>
    rw [copyPost_ok]
    simp only [sep_hex]
    refine LTriple.ofHex fun hc => ?_
    refine LTriple.getFact fun ho => ?_
    subst ho
    refine LTriple.ofPure (Ent.hex_right (C, a1) (Ent.putFact rfl ?_))
    ent_ac

end Verif.Heap
