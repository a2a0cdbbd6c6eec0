import Verif.Heap.Proofs.Focus
/-
Insertion in memory does what the level-1 model says.
-/
namespace Verif.Heap
open Verif
open Verif.BTree (B MIN_LEN CAPACITY Tree Handle setE sliceInsert sliceRemove InsertRes)

variable {K V α β : Type} {E : String → Prop}

/-- How an insertion step ends. -/
inductive Outcome (K V : Type) where
  | fit
  | split (c : Carry K V)
  | oom

/-- The memory that a failed insertion leaves without an owner: nothing, or the nodes of one tree. -/
def leaked : Option (Nat × Tree K V) → HProp K V
  | none => emp
  | some r => hex fun x : ATree K V => fact (x.erase = r.2) ∗ tree (none, none) r.1 x

theorem leaked_any {x : Option (Nat × Tree K V)} : Ent (leaked x) anything := fun _ _ => trivial

/-- What an insertion into a tree of height `h` rooted at `a` with parent link `l` leaves in memory; `pos` is where the
inserted value is. -/
def InsPost (l : Link) (h : Nat) (a : Addr) (pos : HRef) : InsertRes K V → Outcome K V → HProp K V
  | .fit t loc, .fit => hex fun ta : ATree K V =>
      fact (ta.erase = t ∧ ta.addr = a ∧ HandleAt h ta loc pos) ∗ tree l h ta
  | .oom t gone, .oom => hex fun ta : ATree K V => fact (ta.erase = t ∧ ta.addr = a) ∗ tree l h ta ∗ leaked gone.half
  | .split L mid R inRight loc, .split c => hex fun x : ATree K V × ATree K V =>
      fact (c = ⟨⟨h, a⟩, mid, ⟨h, x.2.addr⟩⟩ ∧ x.1.addr = a ∧ x.1.erase = L ∧ x.2.erase = R ∧
        HandleAt h (if inRight then x.2 else x.1) loc pos ∧ loc.up.length = h) ∗ tree l h x.1 ∗ tree (none, none) h x.2
  | _, _ => fact False

/-- The outcome and position in the answer of `insertLeaf`. -/
def LeafPost (l : Link) (a : Addr) (r : InsertRes K V) : Ins K V → HProp K V
  | .fit pos => InsPost l 0 a pos r .fit
  | .split left kv right pos => InsPost l 0 a pos r (.split ⟨left, kv, right⟩)
  | .oom => InsPost l 0 a ⟨0, a, 0⟩ r .oom

theorem take_drop_split {l : List α} {i : Nat} (h : i ≤ l.length) : ∃ A C, l = A ++ C ∧ A.length = i :=
  ⟨l.take i, l.drop i, (List.take_append_drop ..).symm, by simp; omega⟩

theorem sliceInsert_ok {l l' : List α} {i : Nat} {x : α} (h : sliceInsert l i x = .ok l') :
    ∃ A C, l = A ++ C ∧ A.length = i ∧ l' = A ++ x :: C := by
  unfold Verif.BTree.sliceInsert at h
  split at h
  · next hi =>
    simp only [Exec.ok.injEq] at h
    exact ⟨l.take i, l.drop i, (List.take_append_drop ..).symm, by simp; omega, h.symm⟩
  · cases h

theorem require_ok {c : Bool} {u : Unit} (h : require c = .ok u) : c = true := by
  unfold require at h
  split at h
  · assumption
  · cases h

theorem leaked_tree {h : Nat} {R : ATree K V} {n : Nat} (e : n = h) : Ent (tree (none, none) h R) (leaked (some (n, R.erase))) := by
  subst e
  exact Ent.hex_right R (Ent.fact_right rfl (Ent.refl _))

theorem ent_anything (P : HProp K V) : Ent P anything := fun _ _ => trivial

theorem insertLeaf_spec {l : Link} {t : ATree K V} {idx : Nat} {kv : K × V} {al al' : Alloc} {r : InsertRes K V}
    (hr : BTree.leafInsert t.erase idx kv al = .ok (r, al')) :
    Triple E (tree l 0 t ∗ sched al) (insertLeaf ⟨0, t.addr, idx⟩ kv) (fun o => sched al' ∗ LeafPost l t.addr r o) := by
  obtain ⟨a, kvs, es⟩ := t
  simp only [tree_zero, sep_assoc, ATree.node, layOf]
  refine Triple.getFact fun hf => ?_
  obtain ⟨rfl, hcap⟩ := hf
  simp only [addrs, List.map_nil]
  unfold insertLeaf
  dsimp only
  refine Triple.bindLenEq kvs.length rfl ?_
  unfold BTree.leafInsert at hr
  simp only [ATree.erase_len] at hr
  split at hr
  · next hlt =>
    obtain ⟨t', ht', hr⟩ := Exec.bind_eq_ok.1 hr
    simp only [Exec.ok.injEq, Prod.mk.injEq] at hr
    obtain ⟨rfl, rfl⟩ := hr
    simp only [BTree.Tree.insertFitLeaf] at ht'
    obtain ⟨_, _, ht'⟩ := Exec.bind_eq_ok.1 ht'
    obtain ⟨kvs', hs, ht'⟩ := Exec.bind_eq_ok.1 ht'
    simp only [Exec.ok.injEq] at ht'
    subst ht'
    rw [ATree.erase_kvs] at hs
    obtain ⟨A, C, rfl, hA, rfl⟩ := sliceInsert_ok hs
    rw [if_pos hlt]
    refine Triple.call (P₀ := pts a (nd .leaf l (A ++ C) [])) (insertFitLeaf_spec hA.symm (by len_omega)) fun _ => ?_
    refine Triple.ofPure ?_
    simp only [LeafPost, InsPost]
    rw [sep_hex]
    refine Ent.hex_right ⟨a, A ++ kv :: C, []⟩ ?_
    refine Ent.putFact ⟨by rw [ATree.erase_mk, ATree.erase_edges], rfl, HandleAt.nil⟩ ?_
    rw [tree_leaf]
    refine Ent.putFact (by len_omega) ?_
    ent_ac
  · next hge =>
    rw [if_neg hge]
    have hlen : kvs.length = 11 := by len_omega
    obtain ⟨A, C', rfl, hA⟩ := take_drop_split (l := kvs) (i := B) (by simp only [hlen]; decide)
    obtain _ | ⟨mid, C⟩ := C'
    · rw [List.append_nil] at hlen; rw [hlen] at hA; exact absurd hA (by decide)
    have hA' : A.length = 6 := hA
    have hC : C.length = 4 := by len_omega
    refine Triple.bindNewKv (a := a) (n := nd .leaf l (A ++ mid :: C) []) (by show 6 < (A ++ mid :: C).length; omega) ?_
    refine Triple.call (P₀ := sched al ∗ pts a (nd .leaf l (A ++ mid :: C) [])) (splitLeaf_spec hA.symm (by len_omega)) fun x => ?_
    rw [sep_emp]
    have hsp : ∀ al1 : Alloc, (do
        let (l, mid, r) ← (ATree.erase ⟨a, A ++ mid :: C, []⟩ : Tree K V).splitLeaf B
        if idx ≤ B then do
          let l ← l.insertFitLeaf idx kv
          Exec.ok (InsertRes.split l mid r false ⟨[], idx⟩, al1)
        else do
          let r ← r.insertFitLeaf (idx - (B + 1)) kv
          Exec.ok (InsertRes.split l mid r true ⟨[], idx - (B + 1)⟩, al1)) =
        (if idx ≤ B then do
          let l ← (⟨A, []⟩ : Tree K V).insertFitLeaf idx kv
          Exec.ok (InsertRes.split l mid ⟨C, []⟩ false ⟨[], idx⟩, al1)
        else do
          let r ← (⟨C, []⟩ : Tree K V).insertFitLeaf (idx - (B + 1)) kv
          Exec.ok (InsertRes.split ⟨A, []⟩ mid r true ⟨[], idx - (B + 1)⟩, al1)) := by
      intro al1
      have : (ATree.erase ⟨a, A ++ mid :: C, []⟩ : Tree K V).splitLeaf B = .ok (⟨A, []⟩, mid, ⟨C, []⟩) := by
        simp only [BTree.Tree.splitLeaf, ATree.erase_mk, getE_mid hA, Exec.ok_bind, List.map_nil]
        rw [List.take_left' hA, show A ++ mid :: C = (A ++ [mid]) ++ C by simp, List.drop_left' (by simp [hA'])]
      rw [this, Exec.ok_bind]
    rw [hsp] at hr
    rcases x with _ | ⟨kv', rt⟩
    · dsimp only
      refine Triple.getFact fun hno => ?_
      rw [hno] at hr
      simp only [Bool.false_eq_true, if_false, Exec.ok.injEq, Prod.mk.injEq] at hr
      obtain ⟨rfl, rfl⟩ := hr
      refine Triple.ofPure ?_
      simp only [LeafPost, InsPost]
      rw [sep_hex]
      refine Ent.hex_right ⟨a, A ++ mid :: C, []⟩ ?_
      refine Ent.putFact ⟨rfl, rfl⟩ ?_
      simp only [tree_leaf, sep_assoc]
      refine Ent.putFact (by len_omega) ?_
      exact Ent.of_eq (by simp only [leaked, sep_emp])
    · dsimp only
      refine Triple.getFact fun hyes => ?_
      obtain ⟨hyes, hkv, hh⟩ := hyes
      obtain ⟨h0, ra⟩ := rt
      dsimp only at hkv hh ⊢
      subst hkv hh
      rw [hyes] at hr
      simp only [if_true] at hr
      split at hr
      · next hle =>
        rw [if_pos hle]
        obtain ⟨t', ht', hr⟩ := Exec.bind_eq_ok.1 hr
        simp only [Exec.ok.injEq, Prod.mk.injEq] at hr
        obtain ⟨rfl, rfl⟩ := hr
        simp only [BTree.Tree.insertFitLeaf] at ht'
        obtain ⟨_, _, ht'⟩ := Exec.bind_eq_ok.1 ht'
        obtain ⟨kvs', hs, ht'⟩ := Exec.bind_eq_ok.1 ht'
        simp only [Exec.ok.injEq] at ht'
        subst ht'
        obtain ⟨A1, A2, rfl, hA1, rfl⟩ := sliceInsert_ok hs
        simp only [HRef.ref]
        refine Triple.bindNewEdge (a := a) (by show idx ≤ (A1 ++ A2).length; len_omega) ?_
        refine Triple.call (P₀ := pts a (nd .leaf l (A1 ++ A2) [])) (insertFitLeaf_spec hA1.symm (by len_omega)) fun _ => ?_
        refine Triple.ofPure ?_
        simp only [LeafPost, InsPost]
        rw [sep_hex]
        refine Ent.hex_right (⟨a, A1 ++ kv :: A2, []⟩, ⟨ra, C, []⟩) ?_
        refine Ent.putFact ⟨rfl, rfl, by rw [ATree.erase_mk]; rfl, by rw [ATree.erase_mk]; rfl, HandleAt.nil, rfl⟩ ?_
        dsimp only
        simp only [tree_leaf, sep_assoc]
        refine Ent.putFact (by len_omega) ?_
        refine Ent.putFact (by len_omega) ?_
        ent_ac
      · next hgt =>
        rw [if_neg hgt]
        obtain ⟨t', ht', hr⟩ := Exec.bind_eq_ok.1 hr
        simp only [Exec.ok.injEq, Prod.mk.injEq] at hr
        obtain ⟨rfl, rfl⟩ := hr
        simp only [BTree.Tree.insertFitLeaf] at ht'
        obtain ⟨_, _, ht'⟩ := Exec.bind_eq_ok.1 ht'
        obtain ⟨kvs', hs, ht'⟩ := Exec.bind_eq_ok.1 ht'
        simp only [Exec.ok.injEq] at ht'
        subst ht'
        obtain ⟨C1, C2, rfl, hC1, rfl⟩ := sliceInsert_ok hs
        simp only [HRef.ref]
        refine Triple.bindNewEdge (a := ra) (by show idx - (B + 1) ≤ (C1 ++ C2).length; len_omega) ?_
        refine Triple.call (P₀ := pts ra (nd .leaf (none, none) (C1 ++ C2) [])) (insertFitLeaf_spec hC1.symm (by len_omega)) fun _ => ?_
        refine Triple.ofPure ?_
        simp only [LeafPost, InsPost]
        rw [sep_hex]
        refine Ent.hex_right (⟨a, A, []⟩, ⟨ra, C1 ++ kv :: C2, []⟩) ?_
        refine Ent.putFact ⟨rfl, rfl, by rw [ATree.erase_mk]; rfl, by rw [ATree.erase_mk]; rfl, HandleAt.nil, rfl⟩ ?_
        dsimp only
        simp only [tree_leaf, sep_assoc]
        refine Ent.putFact (by len_omega) ?_
        refine Ent.putFact (by len_omega) ?_
        ent_ac

/-- The outcome in the answer of `insertInternal` (whose position the caller drops). -/
def Ins.outcome : Ins K V → Outcome K V
  | .fit _ => .fit
  | .split left kv right _ => .split ⟨left, kv, right⟩
  | .oom => .oom

theorem insertFit_erase {A C : List (K × V)} {X Y : List (ATree K V)} {kv : K × V} {e : ATree K V} {i : Nat}
    (hA : A.length = i) (hX : X.length = i + 1) (hc : A.length + C.length < CAPACITY) :
    (⟨A ++ C, (X ++ Y).map ATree.erase⟩ : Tree K V).insertFitInternal i kv e.erase =
      .ok ⟨A ++ kv :: C, (X ++ e :: Y).map ATree.erase⟩ := by
  simp only [BTree.Tree.insertFitInternal]
  have h1 : require (decide ((⟨A ++ C, (X ++ Y).map ATree.erase⟩ : Tree K V).len < CAPACITY)) = .ok () := by
    rw [require, if_pos]; simp only [decide_eq_true_eq, BTree.Tree.len, List.length_append]; exact hc
  have h2 : sliceInsert (A ++ C) i kv = .ok (A ++ kv :: C) := by
    rw [sliceInsert, if_pos (by simp; omega), List.take_left' hA, List.drop_left' hA]
  have h3 : sliceInsert ((X ++ Y).map ATree.erase) (i + 1) e.erase = .ok ((X ++ e :: Y).map ATree.erase) := by
    rw [List.map_append, sliceInsert, if_pos (by simp; omega), List.take_left' (by simpa using hX), List.drop_left' (by simpa using hX)]
    simp
  rw [h1, Exec.ok_bind, h2, Exec.ok_bind, h3, Exec.ok_bind]

theorem HandleAt.halves {h : Nat} {a : Addr} {kvs : List (K × V)} {X Y : List (ATree K V)} {L R : ATree K V} {i : Nat} {loc : Handle} {pos : HRef}
    {inRight : Bool} (hp : HandleAt h (if inRight then R else L) loc pos) (hi : X.length = i) :
    HandleAt (h + 1) ⟨a, kvs, X ++ L :: R :: Y⟩ (loc.under (if inRight then i + 1 else i)) pos := by
  cases inRight with
  | false => exact HandleAt.under hp hi
  | true =>
    rw [show X ++ L :: R :: Y = (X ++ [L]) ++ R :: Y by simp]
    exact HandleAt.under hp (by simp [hi])

theorem insertInternal_spec {l : Link} {a : Addr} {h i : Nat} {kvs : List (K × V)} {X Y : List (ATree K V)} {L R : ATree K V} {mid : K × V}
    {al al' : Alloc} {r : InsertRes K V} {inRight : Bool} {loc : Handle} {pos : HRef} (hi : X.length = i)
    (hpos : HandleAt h (if inRight then R else L) loc pos) (hup : loc.up.length = h)
    (hr : BTree.internalInsert ⟨kvs, (X ++ L :: Y).map ATree.erase⟩ i mid R.erase inRight loc al = .ok (r, al')) :
    Triple E (tree l (h + 1) ⟨a, kvs, X ++ L :: Y⟩ ∗ tree (none, none) h R ∗ sched al) (insertInternal ⟨h + 1, a, i⟩ mid ⟨h, R.addr⟩)
      (fun o => sched al' ∗ InsPost l (h + 1) a pos r o.outcome) := by
  subst hi
  simp only [tree_internal', sep_assoc]
  refine Triple.getFact fun hf => ?_
  obtain ⟨hXY, hcap⟩ := hf
  unfold insertInternal
  dsimp only
  refine Triple.bindReq (by simp) ?_
  refine Triple.bindLenEq kvs.length rfl ?_
  unfold BTree.internalInsert at hr
  simp only [BTree.Tree.len] at hr
  split at hr
  · next hlt =>
    obtain ⟨A, C, rfl, hA⟩ := take_drop_split (l := kvs) (i := X.length) (by omega)
    rw [show X ++ L :: Y = (X ++ [L]) ++ Y by simp, insertFit_erase hA (by simp) (by simpa using hlt), Exec.ok_bind] at hr
    simp only [Exec.ok.injEq, Prod.mk.injEq] at hr
    obtain ⟨rfl, rfl⟩ := hr
    rw [if_pos hlt]
    have e : addrs X ++ L.addr :: addrs Y = addrs ((X ++ [L]) ++ Y) := by simp
    rw [e]
    refine Triple.call (P₀ := pts a (nd .internal l (A ++ C) (addrs ((X ++ [L]) ++ Y))) ∗ kids h a (X.length + 1) Y ∗ tree (none, none) h R)
      (insertFitInternal_spec hA.symm (by simp [hA]) (by len_omega) (by simpa using hlt)) fun _ => ?_
    refine Triple.ofPure ?_
    simp only [InsPost, Ins.outcome]
    rw [sep_hex]
    refine Ent.hex_right ⟨a, A ++ mid :: C, X ++ L :: R :: Y⟩ ?_
    refine Ent.putFact ⟨by rw [ATree.erase_mk]; simp, rfl, HandleAt.halves hpos rfl⟩ ?_
    simp only [tree_internal', sep_assoc]
    refine Ent.putFact (by len_omega) ?_
    simp only [List.append_assoc, List.singleton_append, addrs, List.map_append, List.map_cons, List.map_nil, List.cons_append, List.nil_append]
    rw [kids_cons]
    ent_ac
  · next hge =>
    rw [if_neg hge]
    have hlen : kvs.length = 11 := by len_omega
    obtain ⟨A, C', rfl, hA⟩ := take_drop_split (l := kvs) (i := B) (by simp only [hlen]; decide)
    obtain _ | ⟨m, C⟩ := C'
    · rw [List.append_nil] at hlen; rw [hlen] at hA; exact absurd hA (by decide)
    have hA' : A.length = 6 := hA
    have hC : C.length = 4 := by len_omega
    have hXYl : X.length + Y.length = 11 := by len_omega
    refine Triple.bindNewKv (a := a) (n := nd .internal l (A ++ m :: C) (addrs X ++ L.addr :: addrs Y)) (by show 6 < (A ++ m :: C).length; omega) ?_
    have hsp : ∀ E1 E2 : List (ATree K V), E1.length = 7 → E2.length = 5 →
        (⟨A ++ m :: C, (E1 ++ E2).map ATree.erase⟩ : Tree K V).splitInternal B =
          .ok (⟨A, E1.map ATree.erase⟩, m, ⟨C, E2.map ATree.erase⟩) := by
      intro E1 E2 h1 h2
      simp only [BTree.Tree.splitInternal, getE_mid hA, Exec.ok_bind]
      rw [require, if_pos (by simp only [decide_eq_true_eq, List.length_map]; len_omega), Exec.ok_bind, List.take_left' hA, List.map_append,
        List.take_left' (l₁ := E1.map ATree.erase) (by simpa using h1), List.drop_left' (l₁ := E1.map ATree.erase) (by simpa using h1),
        show A ++ m :: C = (A ++ [m]) ++ C by simp, List.drop_left' (l₁ := A ++ [m]) (by simp [hA'])]
    by_cases hle : X.length ≤ B
    · have hle' : X.length ≤ 6 := hle
      obtain ⟨Y1, E2, rfl, hY1⟩ := take_drop_split (l := Y) (i := 6 - X.length) (by omega)
      have e1 : X ++ L :: (Y1 ++ E2) = (X ++ L :: Y1) ++ E2 := by simp
      rw [e1, hsp _ _ (by len_omega) (by len_omega), Exec.ok_bind] at hr
      have e : addrs X ++ L.addr :: addrs (Y1 ++ E2) = addrs ((X ++ L :: Y1) ++ E2) := by simp
      rw [e, kids_append, show X.length + 1 + Y1.length = B + 1 by simp only [hY1]; omega]
      simp only [sep_assoc]
      refine Triple.call (P₀ := sched al ∗ pts a (nd .internal l (A ++ m :: C) (addrs ((X ++ L :: Y1) ++ E2))) ∗ kids h a (B + 1) E2)
        (splitInternal_spec hA.symm (by len_omega) (by len_omega) (by len_omega)) fun x => ?_
      rcases x with _ | ⟨kv', rt⟩
      · dsimp only
        simp only [sep_assoc]
        refine Triple.getFact fun hno => ?_
        rw [hno] at hr
        simp only [Bool.false_eq_true, if_false, Exec.ok.injEq, Prod.mk.injEq] at hr
        obtain ⟨rfl, rfl⟩ := hr
        refine Triple.ofPure ?_
        simp only [InsPost, Ins.outcome]
        rw [sep_hex]
        refine Ent.hex_right ⟨a, A ++ m :: C, X ++ L :: (Y1 ++ E2)⟩ ?_
        refine Ent.putFact ⟨by rw [ATree.erase_mk, e1], rfl⟩ ?_
        simp only [tree_internal', sep_assoc]
        refine Ent.putFact (by len_omega) ?_
        rw [e, kids_append, show X.length + 1 + Y1.length = B + 1 by simp only [hY1]; omega]
        refine Ent.trans (Ent.of_eq ?_) (Ent.sep (Ent.refl (sched al.request.2 ∗ pts a (nd .internal l (A ++ m :: C) (addrs ((X ++ L :: Y1) ++ E2))) ∗
          kids h a 0 X ∗ tree (some a, some X.length) h L ∗ kids h a (X.length + 1) Y1 ∗ kids h a (B + 1) E2)) (leaked_tree (R := R) hup)) |>.trans (Ent.of_eq ?_)
        · simp only [sep_emp]; ac_rfl
        · ac_rfl
      · dsimp only
        simp only [sep_assoc]
        refine Triple.getFact fun hyes => ?_
        obtain ⟨hyes, hkv, hh⟩ := hyes
        obtain ⟨h0, ra⟩ := rt
        dsimp only at hkv hh ⊢
        subst hkv hh
        rw [hyes] at hr
        simp only [if_true] at hr
        rw [if_pos hle] at hr ⊢
        obtain ⟨A1, A2, rfl, hA1⟩ := take_drop_split (l := A) (i := X.length) (by omega)
        rw [show X ++ L :: Y1 = (X ++ [L]) ++ Y1 by simp, insertFit_erase hA1 (by simp) (by len_omega), Exec.ok_bind] at hr
        simp only [Exec.ok.injEq, Prod.mk.injEq] at hr
        obtain ⟨rfl, rfl⟩ := hr
        simp only [HRef.ref]
        refine Triple.bindNewEdge (a := a) (by show X.length ≤ (A1 ++ A2).length; len_omega) ?_
        rw [show X ++ L :: Y1 = (X ++ [L]) ++ Y1 by simp]
        refine Triple.call (P₀ := pts a (nd .internal l (A1 ++ A2) (addrs ((X ++ [L]) ++ Y1))) ∗ kids h a (X.length + 1) Y1 ∗ tree (none, none) h R)
          (insertFitInternal_spec hA1.symm (by simp [hA1]) (by len_omega) (by len_omega)) fun _ => ?_
        refine Triple.ofPure ?_
        simp only [InsPost, Ins.outcome]
        rw [sep_hex]
        refine Ent.hex_right (⟨a, A1 ++ mid :: A2, X ++ L :: R :: Y1⟩, ⟨ra, C, E2⟩) ?_
        refine Ent.putFact ⟨rfl, rfl, by rw [ATree.erase_mk]; simp, by rw [ATree.erase_mk], HandleAt.halves hpos rfl, by simp [Handle.under, hup]⟩ ?_
        dsimp only
        rw [tree_internal', tree_internal]
        simp only [sep_assoc]
        refine Ent.putFact (by len_omega) ?_
        refine Ent.putFact (by len_omega) ?_
        simp only [List.append_assoc, List.singleton_append, addrs, List.map_append, List.map_cons, List.map_nil, List.cons_append, List.nil_append]
        rw [kids_cons]
        ent_ac
    · have hgt : 6 < X.length := Nat.lt_of_not_le hle
      obtain ⟨E1, X2, rfl, hE1⟩ := take_drop_split (l := X) (i := 7) (by omega)
      have e1 : (E1 ++ X2) ++ L :: Y = E1 ++ (X2 ++ L :: Y) := by simp
      have hX2 : (E1 ++ X2).length - (B + 1) = X2.length := by simp only [List.length_append, hE1]; omega
      rw [e1, hsp _ _ hE1 (by len_omega), Exec.ok_bind] at hr
      have e : addrs (E1 ++ X2) ++ L.addr :: addrs Y = addrs (E1 ++ (X2 ++ L :: Y)) := by simp
      have ek : (kids h a 0 (E1 ++ X2) ∗ tree (some a, some (E1 ++ X2).length) h L ∗ kids h a ((E1 ++ X2).length + 1) Y) =
          (kids h a 0 E1 ∗ kids h a (B + 1) (X2 ++ L :: Y)) := by
        rw [kids_append, kids_append, kids_cons, Nat.zero_add, hE1, List.length_append, hE1]
        simp only [sep_assoc]
      rw [e]
      refine Triple.pre ?_ (Ent.of_eq (show _ = (kids h a 0 E1 ∗ kids h a (B + 1) (X2 ++ L :: Y) ∗ pts a (nd .internal l (A ++ m :: C) (addrs (E1 ++ (X2 ++ L :: Y)))) ∗
        tree (none, none) h R ∗ sched al) from ?_))
      rotate_left
      · rw [← sep_assoc (kids h a 0 E1), ← ek]; ac_rfl
      refine Triple.call (P₀ := sched al ∗ pts a (nd .internal l (A ++ m :: C) (addrs (E1 ++ (X2 ++ L :: Y)))) ∗ kids h a (B + 1) (X2 ++ L :: Y))
        (splitInternal_spec hA.symm (by len_omega) (by len_omega) (by len_omega)) fun x => ?_
      rcases x with _ | ⟨kv', rt⟩
      · dsimp only
        simp only [sep_assoc]
        refine Triple.getFact fun hno => ?_
        rw [hno] at hr
        simp only [Bool.false_eq_true, if_false, Exec.ok.injEq, Prod.mk.injEq] at hr
        obtain ⟨rfl, rfl⟩ := hr
        refine Triple.ofPure ?_
        simp only [InsPost, Ins.outcome]
        rw [sep_hex]
        refine Ent.hex_right ⟨a, A ++ m :: C, E1 ++ (X2 ++ L :: Y)⟩ ?_
        refine Ent.putFact ⟨by rw [ATree.erase_mk], rfl⟩ ?_
        simp only [tree_internal, sep_assoc]
        refine Ent.putFact (by len_omega) ?_
        rw [kids_append (xs := E1), Nat.zero_add, hE1]
        refine Ent.trans (Ent.of_eq ?_) (Ent.sep (Ent.refl (sched al.request.2 ∗ pts a (nd .internal l (A ++ m :: C) (addrs (E1 ++ (X2 ++ L :: Y)))) ∗
          kids h a 0 E1 ∗ kids h a (B + 1) (X2 ++ L :: Y))) (leaked_tree (R := R) hup)) |>.trans (Ent.of_eq ?_)
        · simp only [sep_emp]; ac_rfl
        · simp only [sep_assoc]
      · dsimp only
        simp only [sep_assoc]
        refine Triple.getFact fun hyes => ?_
        obtain ⟨hyes, hkv, hh⟩ := hyes
        obtain ⟨h0, ra⟩ := rt
        dsimp only at hkv hh ⊢
        subst hkv hh
        rw [hyes] at hr
        simp only [if_true] at hr
        rw [if_neg hle] at hr ⊢
        rw [hX2] at hr ⊢
        obtain ⟨C1, C2, rfl, hC1⟩ := take_drop_split (l := C) (i := X2.length) (by len_omega)
        rw [show X2 ++ L :: Y = (X2 ++ [L]) ++ Y by simp, insertFit_erase hC1 (by simp) (by len_omega), Exec.ok_bind] at hr
        simp only [Exec.ok.injEq, Prod.mk.injEq] at hr
        obtain ⟨rfl, rfl⟩ := hr
        refine Triple.bindNewEdge (a := ra) (by show X2.length ≤ (C1 ++ C2).length; len_omega) ?_
        rw [show X2 ++ L :: Y = (X2 ++ [L]) ++ Y by simp]
        rw [kids_append, Nat.zero_add, sep_assoc, show (X2 ++ [L]).length = X2.length + 1 by simp]
        refine Triple.call (P₀ := pts ra (nd .internal (none, none) (C1 ++ C2) (addrs ((X2 ++ [L]) ++ Y))) ∗ kids h ra (X2.length + 1) Y ∗ tree (none, none) h R)
          (insertFitInternal_spec hC1.symm (by simp [hC1]) (by len_omega) (by len_omega)) fun _ => ?_
        refine Triple.ofPure ?_
        simp only [InsPost, Ins.outcome]
        rw [sep_hex]
        refine Ent.hex_right (⟨a, A, E1⟩, ⟨ra, C1 ++ mid :: C2, X2 ++ L :: R :: Y⟩) ?_
        refine Ent.putFact ⟨rfl, rfl, by rw [ATree.erase_mk], by rw [ATree.erase_mk]; simp, HandleAt.halves hpos rfl, by simp [Handle.under, hup]⟩ ?_
        simp only [tree_internal, sep_assoc]
        refine Ent.putFact (by len_omega) ?_
        refine Ent.putFact (by len_omega) ?_
        rw [show X2 ++ L :: R :: Y = (X2 ++ [L]) ++ R :: Y by simp, kids_append (ys := R :: Y), Nat.zero_add, show (X2 ++ [L]).length = X2.length + 1 by simp]
        ent_ac

/-! ### the loop -/

theorem bind_pure_right {m : HM K V α} : (m >>= fun x => pure x) = m := by
  funext s
  show HM.bind m (fun x => pure x) s = m s
  unfold HM.bind
  cases m s <;> rfl

theorem bind_assoc' {γ : Type} {x : HM K V α} {g : α → HM K V γ} {f : γ → HM K V β} :
    ((x >>= g) >>= f) = (x >>= fun y => (g y >>= f)) := by
  funext s
  show HM.bind (HM.bind x g) f s = HM.bind x _ s
  unfold HM.bind
  cases x s <;> rfl

theorem bind_congr' {m : HM K V α} {f g : α → HM K V β} (h : ∀ x, f x = g x) : (m >>= f) = (m >>= g) := by
  rw [show f = g from funext h]

theorem pure_bind' {x : α} {f : α → HM K V β} : ((pure x : HM K V α) >>= f) = f x := rfl

/-- Go on with a loop that has not ended. -/
def goOn {σ ρ : Type} (f : σ → HM K V (σ ⊕ ρ)) : σ ⊕ ρ → HM K V (σ ⊕ ρ)
  | .inl s => f s
  | .inr r => pure (.inr r)

theorem loopN_succ {σ ρ : Type} (step : σ → HM K V (σ ⊕ ρ)) (n : Nat) (s : σ) :
    loopN step (n + 1) s = (step s >>= goOn (loopN step n)) := by
  show (step s >>= _) = _
  congr 1

/-- The last round of a loop split off. -/
theorem loopN_snoc {σ ρ : Type} (step : σ → HM K V (σ ⊕ ρ)) (n : Nat) (s : σ) :
    loopN step (n + 1) s = (loopN step n s >>= goOn step) := by
  induction n generalizing s with
  | zero =>
    rw [loopN_succ]
    show (step s >>= _) = step s
    rw [show goOn (loopN step 0) = fun x => pure x from funext fun x => by cases x <;> rfl, bind_pure_right]
  | succ n ih =>
    rw [loopN_succ, loopN_succ, bind_assoc']
    congr 1
    funext x
    cases x with
    | inl s => exact ih s
    | inr r => rfl

theorem Triple.bindAscend {P R : HProp K V} {Qb : β → HProp K V} {f : Option HRef → HM K V β} {a p : Addr} {i ht : Nat} {n : Node K V}
    [hp : HasPts a P n R] (h1 : n.parent = some p) (h2 : n.pidx = some i)
    (h : Triple E P (f (some ⟨ht + 1, p, i⟩)) Qb) : Triple E P (ascend ⟨ht, a⟩ >>= f) Qb := by
  have e := hp.eq; rw [e] at h ⊢
  refine Triple.pre ?_ (Ent.frame pts_pos R)
  rw [sep_assoc]
  refine Triple.ofFact fun ha => ?_
  unfold ascend
  rw [if_neg ha]
  refine Triple.assoc ?_
  refine Triple.bindGet ?_
  rw [h1, h2]
  exact Triple.bindPure h

theorem Triple.bindAscendNone {P R : HProp K V} {Qb : β → HProp K V} {f : Option HRef → HM K V β} {a : Addr} {ht : Nat} {n : Node K V}
    [hp : HasPts a P n R] (h1 : n.parent = none)
    (h : Triple E P (f none) Qb) : Triple E P (ascend ⟨ht, a⟩ >>= f) Qb := by
  have e := hp.eq; rw [e] at h ⊢
  refine Triple.pre ?_ (Ent.frame pts_pos R)
  rw [sep_assoc]
  refine Triple.ofFact fun ha => ?_
  unfold ascend
  rw [if_neg ha]
  refine Triple.assoc ?_
  refine Triple.bindGet ?_
  rw [h1]
  exact Triple.bindPure h

/-- `VacantEntry::try_insert` up to `h` rounds of its loop, with the position of the inserted value. -/
def climb (root : NRef) (h : Nat) (leaf : HRef) (kv : K × V) : HM K V (HRef × (Carry K V ⊕ (NRef × Bool))) := do
  let r ← insertLeaf leaf kv
  match r with
  | .fit pos => pure (pos, .inr (root, true))
  | .oom => pure (leaf, .inr (root, false))
  | .split l kv r pos => do
    let x ← loopN (insertStep root) h ⟨l, kv, r⟩
    pure (pos, x)

theorem climb_succ (root : NRef) (h : Nat) (leaf : HRef) (kv : K × V) :
    climb root (h + 1) leaf kv = (climb root h leaf kv >>= fun x => (goOn (insertStep root) x.2 >>= fun y => pure (x.1, y))) := by
  unfold climb
  rw [bind_assoc']
  congr 1
  funext r
  cases r with
  | fit pos => rfl
  | oom => rfl
  | split l kv r pos =>
    dsimp only
    rw [loopN_snoc, bind_assoc', bind_assoc']
    rfl

theorem vacantInsert_climb (m : HMap) (h : HRef) (kv : K × V) :
    m.vacantInsert h kv = (climb m.root (m.root.height + 1) h kv >>= fun x => (ended x.2 >>= fun y =>
      pure (if y.2 then some x.1 else none, ⟨y.1, m.length + 1⟩))) := by
  unfold climb HMap.vacantInsert
  rw [bind_assoc']
  refine bind_congr' fun r => ?_
  cases r with
  | fit pos => rfl
  | oom => rfl
  | split l kv r pos =>
    dsimp only
    rw [bind_assoc']
    rfl

/-- What some rounds of the insertion loop leave in memory. -/
def ClimbPost (root : NRef) (l : Link) (h : Nat) (a : Addr) (r : InsertRes K V) : HRef × (Carry K V ⊕ (NRef × Bool)) → HProp K V
  | (pos, .inl c) => InsPost l h a pos r (.split c)
  | (pos, .inr (rt, true)) => fact (rt = root) ∗ InsPost l h a pos r .fit
  | (pos, .inr (rt, false)) => fact (rt = root) ∗ InsPost l h a pos r .oom

theorem climb_zero_spec {root : NRef} {l : Link} {t : ATree K V} {idx : Nat} {kv : K × V} {al al' : Alloc} {r : InsertRes K V}
    (hr : BTree.leafInsert t.erase idx kv al = .ok (r, al')) :
    Triple E (tree l 0 t ∗ sched al) (climb root 0 ⟨0, t.addr, idx⟩ kv) (fun x => sched al' ∗ ClimbPost root l 0 t.addr r x) := by
  unfold climb
  refine Triple.seq (insertLeaf_spec hr) fun o => ?_
  cases o with
  | fit pos =>
    refine Triple.ofPure ?_
    exact Ent.sep (Ent.refl _) (Ent.fact_right rfl (Ent.refl _))
  | oom =>
    refine Triple.ofPure (Ent.sep (Ent.refl _) (Ent.fact_right rfl ?_))
    cases r <;> exact Ent.refl _
  | split l kv r pos => exact Triple.bindPure (Triple.ofPure (Ent.refl _))

theorem climb_spec {root : NRef} : ∀ {h : Nat} {l : Link} {t n : ATree K V} {p : List Nat} {idx : Nat} {kv : K × V} {al al' : Alloc}
    {r : InsertRes K V}, t.at p = some n → BTree.insertRec h t.erase p idx kv al = .ok (r, al') →
    Triple E (tree l h t ∗ sched al) (climb root h ⟨0, n.addr, idx⟩ kv) (fun x => sched al' ∗ ClimbPost root l h t.addr r x)
  | 0, l, t, n, p, idx, kv, al, al', r, hp, hr => by
    cases p with
    | nil =>
      simp only [ATree.at, Option.some.injEq] at hp
      subst hp
      exact climb_zero_spec hr
    | cons i p => simp [BTree.insertRec] at hr
  | h + 1, l, t, n, [], idx, kv, al, al', r, hp, hr => by simp [BTree.insertRec] at hr
  | h + 1, l, t, n, i :: p, idx, kv, al, al', r, hp, hr => by
    simp only [BTree.insertRec] at hr
    obtain ⟨c, hc, hr⟩ := Exec.bind_eq_ok.1 hr
    obtain ⟨⟨r1, al1⟩, h1, hr⟩ := Exec.bind_eq_ok.1 hr
    rw [ATree.erase_edges] at hc
    obtain ⟨X, c, Y, e, hi, rfl⟩ := getE_map_ok hc
    obtain ⟨a, kvs, es⟩ := t
    dsimp only at e; subst e
    rw [ATree.at_cons hi] at hp
    have ih := climb_spec (root := root) (l := (some a, some X.length)) hp h1
    rw [climb_succ, tree_internal']
    simp only [sep_assoc]
    refine Triple.call (P₀ := tree (some a, some X.length) h c ∗ sched al) ih fun x => ?_
    obtain ⟨pos, x⟩ := x
    have hset : ∀ c', setE (ATree.erase ⟨a, kvs, X ++ c :: Y⟩).edges i c' = .ok (X.map ATree.erase ++ c' :: Y.map ATree.erase) := fun c' => by
      simp only [ATree.erase_edges, List.map_append, List.map_cons]
      exact setE_mid (by simpa using hi)
    cases r1 with
    | fit c' loc =>
      simp only [hset, Exec.ok_bind, ATree.erase_kvs, Exec.ok.injEq, Prod.mk.injEq] at hr
      obtain ⟨rfl, rfl⟩ := hr
      match x with
      | .inl c2 =>
        simp only [ClimbPost, InsPost, sep_assoc]
        exact Triple.getFact fun h => h.elim
      | .inr (rt, false) =>
        simp only [ClimbPost, InsPost, sep_assoc]
        exact Triple.getFact fun _ => Triple.getFact fun h => h.elim
      | .inr (rt, true) =>
        simp only [ClimbPost, InsPost, sep_assoc]
        refine Triple.getFact fun hrt => ?_
        subst hrt
        simp only [hex_sep, sep_hex]
        refine Triple.ofHex fun ta => ?_
        simp only [sep_assoc]
        refine Triple.getFact fun hta => Triple.getFact fun hf => ?_
        obtain ⟨rfl, hta, hpos⟩ := hta
        refine Triple.bindPure (Triple.ofPure ?_)
        simp only [ClimbPost, InsPost, sep_hex]
        refine Ent.hex_right ⟨a, kvs, X ++ ta :: Y⟩ ?_
        refine Ent.putFact trivial (Ent.putFact ⟨by rw [ATree.erase_mk]; simp, rfl, hpos.under hi⟩ ?_)
        simp only [tree_internal', sep_assoc]
        refine Ent.putFact hf ?_
        rw [hta]
        ent_ac
    | oom c' gone =>
      simp only [hset, Exec.ok_bind, ATree.erase_kvs, Exec.ok.injEq, Prod.mk.injEq] at hr
      obtain ⟨rfl, rfl⟩ := hr
      match x with
      | .inl c2 =>
        simp only [ClimbPost, InsPost, sep_assoc]
        exact Triple.getFact fun h => h.elim
      | .inr (rt, true) =>
        simp only [ClimbPost, InsPost, sep_assoc]
        exact Triple.getFact fun _ => Triple.getFact fun h => h.elim
      | .inr (rt, false) =>
        simp only [ClimbPost, InsPost, sep_assoc]
        refine Triple.getFact fun hrt => ?_
        subst hrt
        simp only [hex_sep, sep_hex]
        refine Triple.ofHex fun ta => ?_
        simp only [sep_assoc]
        refine Triple.getFact fun hta => Triple.getFact fun hf => ?_
        obtain ⟨rfl, hta⟩ := hta
        refine Triple.bindPure (Triple.ofPure ?_)
        simp only [ClimbPost, InsPost, sep_hex]
        refine Ent.hex_right ⟨a, kvs, X ++ ta :: Y⟩ ?_
        refine Ent.putFact trivial (Ent.putFact ⟨by rw [ATree.erase_mk]; simp, rfl⟩ ?_)
        simp only [tree_internal', sep_assoc]
        refine Ent.putFact hf ?_
        rw [hta]
        ent_ac
    | split L mid R inRight loc =>
      simp only [hset, Exec.ok_bind, ATree.erase_kvs] at hr
      match x with
      | .inr (rt, true) =>
        simp only [ClimbPost, InsPost, sep_assoc]
        exact Triple.getFact fun _ => Triple.getFact fun h => h.elim
      | .inr (rt, false) =>
        simp only [ClimbPost, InsPost, sep_assoc]
        exact Triple.getFact fun _ => Triple.getFact fun h => h.elim
      | .inl c2 =>
        simp only [ClimbPost, InsPost, sep_assoc]
        simp only [hex_sep, sep_hex]
        refine Triple.ofHex fun ta => ?_
        obtain ⟨L', R'⟩ := ta
        simp only [sep_assoc]
        refine Triple.getFact fun hta => Triple.getFact fun hf => ?_
        obtain ⟨rfl, hL, rfl, rfl, hpos, hup⟩ := hta
        show Triple E _ (insertStep root _ >>= _) _
        unfold insertStep
        dsimp only
        refine Triple.assoc ?_
        rw [← hL]
        have hlink : tree (some a, some X.length) h L' = (pts L'.addr (L'.node (some a, some X.length) h) ∗ below h L') := rfl
        rw [hlink]
        simp only [sep_assoc]
        refine Triple.bindAscend (a := L'.addr) rfl rfl ?_
        dsimp only
        refine Triple.assoc ?_
        have hr' : BTree.internalInsert ⟨kvs, (X ++ L' :: Y).map ATree.erase⟩ X.length mid R'.erase inRight loc al1 = .ok (r, al') := by
          rw [hi]; simpa using hr
        have hins := insertInternal_spec (E := E) (l := l) (a := a) (h := h) rfl hpos hup hr'
        refine Triple.pre (P := (tree l (h + 1) ⟨a, kvs, X ++ L' :: Y⟩ ∗ tree (none, none) h R' ∗ sched al1)) ?_ ?_
        · refine Triple.seq hins fun o => ?_
          cases o with
          | fit _ => exact Triple.bindPure (Triple.ofPure (Ent.sep (Ent.refl _) (Ent.fact_right rfl (Ent.refl _))))
          | oom => exact Triple.bindPure (Triple.ofPure (Ent.sep (Ent.refl _) (Ent.fact_right rfl (Ent.refl _))))
          | split l2 k2 r2 p2 => exact Triple.bindPure (Triple.ofPure (Ent.refl _))
        · simp only [tree_internal', sep_assoc, hlink]
          refine Ent.putFact hf ?_
          ent_ac

end Verif.Heap
