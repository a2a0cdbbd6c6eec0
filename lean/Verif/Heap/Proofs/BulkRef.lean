import Verif.Heap.Proofs.Refine
/-
Bulk stealing and moving a suffix in memory refine the level-1 operations.
-/
namespace Verif.Heap
open Verif
open Verif.BTree (B MIN_LEN CAPACITY Tree Handle setE sliceInsert sliceRemove)

variable {K V Q α β : Type} {E : String → Prop}

theorem setE_two {α : Type} {X Y : List α} {a b x y : α} {i : Nat} {e1 e2 : List α} (hX : X.length = i)
    (h1 : setE (X ++ a :: b :: Y) i x = .ok e1) (h2 : setE e1 (i + 1) y = .ok e2) : e2 = X ++ x :: y :: Y := by
  rw [setE_mid hX] at h1
  simp only [Exec.ok.injEq] at h1
  subst h1
  rw [show X ++ x :: b :: Y = (X ++ [x]) ++ b :: Y by simp, setE_mid (by simpa using hX)] at h2
  simp only [Exec.ok.injEq] at h2
  rw [← h2]; simp

theorem edges_zero {h : Nat} {t : ATree K V} (hs : AShape h t) (hne : h ≠ 0) : t.edges.length = t.kvs.length + 1 := by
  cases h with
  | zero => exact absurd rfl hne
  | succ h => exact hs.2

theorem bulkStealLeft_ref {l : Link} {h i count : Nat} {t : ATree K V} {t' : Tree K V} (hi : i < t.kvs.length)
    (hb : BTree.bulkStealLeft t.erase i count = .ok t') :
    Triple E (tree l (h + 1) t) (bulkStealLeft ⟨h + 1, t.addr, i⟩ count) (fun _ => holds l (h + 1) t.addr t') := by
  refine Triple.openPair hi fun A kv C X L R Y e1 e2 hA hX hY hc hL hR => ?_
  obtain ⟨a, kvs, es⟩ := t
  dsimp only at *
  subst e1 e2
  simp only [BTree.bulkStealLeft, ATree.erase_mk] at hb
  obtain ⟨l1, hl1, hb⟩ := Exec.bind_eq_ok.1 hb
  obtain rfl := getE_left hX hl1
  obtain ⟨r1, hr1, hb⟩ := Exec.bind_eq_ok.1 hb
  obtain rfl := getE_right hX hr1
  obtain ⟨_, hq1, hb⟩ := Exec.bind_eq_ok.1 hb
  obtain ⟨_, hq2, hb⟩ := Exec.bind_eq_ok.1 hb
  obtain ⟨_, hq3, hb⟩ := Exec.bind_eq_ok.1 hb
  obtain ⟨pk, hpk, hb⟩ := Exec.bind_eq_ok.1 hb
  obtain ⟨up, hup, hb⟩ := Exec.bind_eq_ok.1 hb
  obtain ⟨kvs', hk, hb⟩ := Exec.bind_eq_ok.1 hb
  obtain ⟨e1, he1, hb⟩ := Exec.bind_eq_ok.1 hb
  obtain ⟨e2, he2, hb⟩ := Exec.bind_eq_ok.1 hb
  have h1 := require_ok hq1
  have h2 := require_ok hq2
  have h3 := require_ok hq3
  simp only [ATree.erase_len, decide_eq_true_eq] at h1 h2 h3
  rw [getE_mid hA] at hpk
  simp only [Exec.ok.injEq] at hpk
  subst hpk
  rw [setE_mid hA] at hk
  simp only [Exec.ok.injEq] at hk
  subst hk
  rw [List.map_append, List.map_cons, List.map_cons] at he1
  obtain rfl := setE_two (by simpa using hX) he1 he2
  simp only [Exec.ok.injEq] at hb
  obtain ⟨la, LK, LE⟩ := L
  obtain ⟨ra, RK, RE⟩ := R
  simp only [ATree.erase_mk, BTree.Tree.len] at hup hb h1 h2 ⊢
  obtain ⟨LA, LB, rfl, hLA⟩ := getE_ok hup
  rw [← hLA] at hb
  have hLB : count = LB.length + 1 := by simp at hLA h2; omega
  have hcomp : t' = ⟨A ++ up :: C, (X ++ ⟨la, LA, LE.take (LA.length + 1)⟩ :: ⟨ra, LB ++ kv :: RK, LE.drop (LA.length + 1) ++ RE⟩ :: Y).map ATree.erase⟩ := by
    rw [← hb]
    simp [ATree.erase_mk, List.map_take, List.map_drop]
  rw [show LE = LE.take (LA.length + 1) ++ LE.drop (LA.length + 1) from (List.take_append_drop ..).symm]
  refine Triple.callLast (P₀ := par a l A kv C X la ra Y ∗
      tree (some a, some i) h ⟨la, LA ++ up :: LB, LE.take (LA.length + 1) ++ LE.drop (LA.length + 1)⟩ ∗ tree (some a, some (i + 1)) h ⟨ra, RK, RE⟩)
    (bulkStealLeft_spec hA.symm (by omega) hc hLB h1 (fun hne => ?_)) fun r => ?_
  · have := edges_zero hL hne
    simp at this ⊢
    omega
  refine Ent.trans ?_ (holds_pair hA hX hY hc hcomp)
  ent_ac

theorem bulkStealRight_ref {l : Link} {h i count : Nat} {t : ATree K V} {t' : Tree K V} (hi : i < t.kvs.length)
    (hb : BTree.bulkStealRight t.erase i count = .ok t') :
    Triple E (tree l (h + 1) t) (bulkStealRight ⟨h + 1, t.addr, i⟩ count) (fun _ => holds l (h + 1) t.addr t') := by
  refine Triple.openPair hi fun A kv C X L R Y e1 e2 hA hX hY hc hL hR => ?_
  obtain ⟨a, kvs, es⟩ := t
  dsimp only at *
  subst e1 e2
  simp only [BTree.bulkStealRight, ATree.erase_mk] at hb
  obtain ⟨l1, hl1, hb⟩ := Exec.bind_eq_ok.1 hb
  obtain rfl := getE_left hX hl1
  obtain ⟨r1, hr1, hb⟩ := Exec.bind_eq_ok.1 hb
  obtain rfl := getE_right hX hr1
  obtain ⟨_, hq1, hb⟩ := Exec.bind_eq_ok.1 hb
  obtain ⟨_, hq2, hb⟩ := Exec.bind_eq_ok.1 hb
  obtain ⟨_, hq3, hb⟩ := Exec.bind_eq_ok.1 hb
  obtain ⟨pk, hpk, hb⟩ := Exec.bind_eq_ok.1 hb
  obtain ⟨up, hup, hb⟩ := Exec.bind_eq_ok.1 hb
  obtain ⟨kvs', hk, hb⟩ := Exec.bind_eq_ok.1 hb
  obtain ⟨e1, he1, hb⟩ := Exec.bind_eq_ok.1 hb
  obtain ⟨e2, he2, hb⟩ := Exec.bind_eq_ok.1 hb
  have h1 := require_ok hq1
  have h2 := require_ok hq2
  have h3 := require_ok hq3
  simp only [ATree.erase_len, decide_eq_true_eq] at h1 h2 h3
  rw [getE_mid hA] at hpk
  simp only [Exec.ok.injEq] at hpk
  subst hpk
  rw [setE_mid hA] at hk
  simp only [Exec.ok.injEq] at hk
  subst hk
  rw [List.map_append, List.map_cons, List.map_cons] at he1
  obtain rfl := setE_two (by simpa using hX) he1 he2
  simp only [Exec.ok.injEq] at hb
  obtain ⟨la, LK, LE⟩ := L
  obtain ⟨ra, RK, RE⟩ := R
  simp only [ATree.erase_mk] at hup hb h1 h2 ⊢
  obtain ⟨RA, RB, rfl, hRA⟩ := getE_ok hup
  have hRB : count = RA.length + 1 := by omega
  subst hRB
  have hcomp : t' = ⟨A ++ up :: C, (X ++ ⟨la, LK ++ kv :: RA, LE ++ RE.take (RA.length + 1)⟩ :: ⟨ra, RB, RE.drop (RA.length + 1)⟩ :: Y).map ATree.erase⟩ := by
    rw [← hb]
    simp [ATree.erase_mk, List.map_take, List.map_drop]
  rw [show RE = RE.take (RA.length + 1) ++ RE.drop (RA.length + 1) from (List.take_append_drop ..).symm]
  refine Triple.callLast (P₀ := par a l A kv C X la ra Y ∗
      tree (some a, some i) h ⟨la, LK, LE⟩ ∗ tree (some a, some (i + 1)) h ⟨ra, RA ++ up :: RB, RE.take (RA.length + 1) ++ RE.drop (RA.length + 1)⟩)
    (bulkStealRight_spec hA.symm (by omega) hc rfl h1 (fun hne => ?_)) fun r => ?_
  · have := edges_zero hR hne
    simp at this ⊢
    omega
  refine Ent.trans ?_ (holds_pair hA hX hY hc hcomp)
  ent_ac

theorem moveSuffix_spec {ll lr : Link} {A C : List (K × V)} {X Y RE : List (ATree K V)} {la ra : Addr} {h i : Nat}
    (hi : i = A.length) (hX : h ≠ 0 → X.length = A.length + 1) :
    Triple E (tree ll h ⟨la, A ++ C, X ++ Y⟩ ∗ tree lr h ⟨ra, [], RE⟩) (moveSuffix ⟨h, la, i⟩ ⟨h, ra⟩)
      (fun _ => tree ll h ⟨la, A, X⟩ ∗ tree lr h ⟨ra, C, RE ++ Y⟩) := by
  unfold moveSuffix
  dsimp only
  have h1 : (A ++ C).length ≤ CAPACITY → (Slots.ofList (A ++ C)).moveTo (Slots.ofList ([] : List (K × V))) CAPACITY i 0 C.length =
      .ok (.ofList A, .ofList ([] ++ C)) := fun hcap => Slots.moveTo_tail hi rfl rfl (by len_omega) (by len_omega)
  cases h with
  | zero =>
    simp only [tree_zero, sep_assoc, ATree.node, layOf, List.append_eq_nil_iff]
    refine Triple.getFact fun hl => Triple.getFact fun hr' => ?_
    obtain ⟨⟨rfl, rfl⟩, hl2⟩ := hl
    obtain ⟨rfl, hr2⟩ := hr'
    simp only [List.append_nil, addrs, List.map_nil]
    refine Triple.bindLenEq (a := la) (A.length + C.length) (by show (A ++ C).length = _; len_omega) ?_
    refine Triple.bindReq (by simp; omega) ?_
    refine Triple.bindLenEq (a := ra) 0 rfl ?_
    refine Triple.bindReq (by simp) ?_
    refine Triple.bindReq (by simp) ?_
    rw [show A.length + C.length - i = C.length by omega]
    refine Triple.bindMoveKv (h1 hl2) ?_
    refine Triple.bindSetLen ?_
    refine Triple.bindSetLen ?_
    simp only [Nat.lt_irrefl, and_self, if_false, if_true]
    refine Triple.ofPure ?_
    refine Ent.putFact (by node_fact) ?_
    refine Ent.putFact (by node_fact) ?_
    subst hi
    norm_lists
    ent_ac
  | succ h =>
    simp only [tree_succ, sep_assoc, ATree.node, layOf]
    refine Triple.getFact fun hl => Triple.getFact fun hr' => ?_
    obtain ⟨hl1, hl2⟩ := hl
    obtain ⟨hr1, hr2⟩ := hr'
    have hX' := hX (by simp)
    refine Triple.bindLenEq (a := la) (A.length + C.length) (by show (A ++ C).length = _; len_omega) ?_
    refine Triple.bindReq (by simp; omega) ?_
    refine Triple.bindLenEq (a := ra) 0 rfl ?_
    refine Triple.bindReq (by simp) ?_
    refine Triple.bindReq (by simp) ?_
    rw [show A.length + C.length - i = C.length by omega]
    refine Triple.bindMoveKv (h1 hl2) ?_
    refine Triple.bindSetLen ?_
    refine Triple.bindSetLen ?_
    simp only [Nat.zero_lt_succ, and_self, if_true]
    unfold moveEdges
    have e2 : (Slots.ofList (addrs X ++ addrs Y)).moveTo (.ofList (addrs RE)) EDGES (i + 1) 1 C.length =
        .ok (.ofList (addrs X), .ofList (addrs RE ++ addrs Y)) :=
      Slots.moveTo_tail (by len_omega) (by len_omega) (by len_omega) (by len_omega) (by len_omega)
    rw [show addrs (X ++ Y) = addrs X ++ addrs Y from List.map_append ..]
    refine Triple.bindMoveEdgesRaw e2 ?_
    rw [kids_append, Nat.zero_add, sep_assoc]
    refine Triple.last ?_
    refine Triple.bindCorrect (h := h) (linked la X.length Y) (kids h la X.length Y) rfl (cs := Y) (linked_map_snd ..) (xs := addrs RE) (ys := []) (by simp)
      (by len_omega) (by len_omega) (by len_omega) (by len_omega) ?_
    refine Triple.ofPure ?_
    refine Ent.putFact (by node_fact) ?_
    refine Ent.putFact (by node_fact) ?_
    subst hi
    rw [kids_append, Nat.zero_add, show RE.length = 1 from hr1]
    norm_lists
    ent_ac

theorem moveSuffix_ref {ll lr : Link} {h i : Nat} {tl tr : ATree K V} {x : Tree K V × Tree K V} (hb : tl.erase.moveSuffix tr.erase i = .ok x) :
    ∃ tl' tr' : ATree K V, x = (tl'.erase, tr'.erase) ∧ tl'.addr = tl.addr ∧ tr'.addr = tr.addr ∧ i ≤ tl.kvs.length ∧ tl'.kvs.length = i ∧
    Triple E (tree ll h tl ∗ tree lr h tr) (moveSuffix ⟨h, tl.addr, i⟩ ⟨h, tr.addr⟩) (fun _ => tree ll h tl' ∗ tree lr h tr') := by
  obtain ⟨la, lk, le⟩ := tl
  obtain ⟨ra, rk, re⟩ := tr
  simp only [BTree.Tree.moveSuffix] at hb
  obtain ⟨_, hq1, hb⟩ := Exec.bind_eq_ok.1 hb
  obtain ⟨_, hq2, hb⟩ := Exec.bind_eq_ok.1 hb
  have h1 := require_ok hq1
  have h2 := require_ok hq2
  simp only [ATree.erase_len, decide_eq_true_eq] at h1 h2
  simp only [ATree.erase_mk, Exec.ok.injEq] at hb
  subst hb
  have hrk : rk = [] := List.eq_nil_of_length_eq_zero h2
  subst hrk
  refine ⟨⟨la, lk.take i, le.take (i + 1)⟩, ⟨ra, lk.drop i, re ++ le.drop (i + 1)⟩, ?_, rfl, rfl, h1, by simp; omega, ?_⟩
  · simp [ATree.erase_mk, List.map_take, List.map_drop]
  · refine Triple.pre ?_ (Ent.frame tree_shape _)
    rw [sep_assoc]
    refine Triple.getFact fun hs => ?_
    have hsp := moveSuffix_spec (E := E) (ll := ll) (lr := lr) (A := lk.take i) (C := lk.drop i) (X := le.take (i + 1)) (Y := le.drop (i + 1)) (RE := re)
      (la := la) (ra := ra) (h := h) (i := i) (by simp; omega) (fun hne => ?_)
    · rw [List.take_append_drop, List.take_append_drop] at hsp
      exact hsp
    · have := edges_zero hs hne
      dsimp only at this
      simp; omega

end Verif.Heap
