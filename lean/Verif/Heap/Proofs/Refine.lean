import Verif.Heap.Proofs.InsertMap
import Verif.BTree.Proofs.NodeOps
/-
The rebalancing operations on memory refine those on level-1 trees.
-/
namespace Verif.Heap
open Verif
open Verif.BTree (B MIN_LEN CAPACITY Tree Handle setE sliceInsert sliceRemove)

variable {K V Q α β : Type} {E : String → Prop}

/-- The number of edges of a node of height `h` fits the number of its pairs. -/
def AShape (h : Nat) (t : ATree K V) : Prop :=
  t.kvs.length ≤ CAPACITY ∧
  match h with
  | 0 => t.edges = []
  | _ + 1 => t.edges.length = t.kvs.length + 1

theorem tree_shape {l : Link} {h : Nat} {t : ATree K V} : Ent (tree l h t) (fact (AShape h t) ∗ tree l h t) := by
  cases h with
  | zero =>
    rw [tree_zero]
    exact Ent.getFact fun hf => Ent.putFact ⟨hf.2, hf.1⟩ (Ent.putFact hf (Ent.refl _))
  | succ h =>
    rw [tree_succ]
    exact Ent.getFact fun hf => Ent.putFact ⟨hf.2, hf.1⟩ (Ent.putFact hf (Ent.refl _))

/-- Some tree of height `h` in memory, with root node at `a`, that is the level-1 tree `t`. -/
def holds (l : Link) (h : Nat) (a : Addr) (t : Tree K V) : HProp K V :=
  hex fun ta : ATree K V => fact (ta.erase = t ∧ ta.addr = a) ∗ tree l h ta

theorem pair_ok {kvs : List (K × V)} {es : List (ATree K V)} {i : Nat} (hs : es.length = kvs.length + 1) (hi : i < kvs.length) :
    ∃ A kv C X L R Y, kvs = A ++ kv :: C ∧ es = X ++ L :: R :: Y ∧ A.length = i ∧ X.length = i ∧ Y.length = C.length := by
  refine ⟨kvs.take i, kvs[i], kvs.drop (i + 1), es.take i, es[i], es[i + 1], es.drop (i + 2), ?_, ?_, ?_, ?_, ?_⟩
  · simp
  · rw [List.getElem_cons_drop, List.getElem_cons_drop, List.take_append_drop]
  · simp; omega
  · simp; omega
  · simp; omega

theorem tree_pair (l : Link) (h : Nat) (a : Addr) (A C : List (K × V)) (kv : K × V) (X Y : List (ATree K V)) (L R : ATree K V) :
    tree l (h + 1) ⟨a, A ++ kv :: C, X ++ L :: R :: Y⟩ =
      (fact (X.length + Y.length + 1 = A.length + C.length + 1 ∧ A.length + C.length + 1 ≤ CAPACITY) ∗
      par a l A kv C X L.addr R.addr Y ∗ kids h a 0 X ∗ tree (some a, some X.length) h L ∗ tree (some a, some (X.length + 1)) h R ∗
        kids h a (X.length + 2) Y) := by
  rw [tree_internal, kids_append, kids_cons, kids_cons, Nat.zero_add]
  have : ((X ++ L :: R :: Y).length = (A ++ kv :: C).length + 1 ∧ (A ++ kv :: C).length ≤ CAPACITY) =
      (X.length + Y.length + 1 = A.length + C.length + 1 ∧ A.length + C.length + 1 ≤ CAPACITY) := by
    simp only [List.length_append, List.length_cons, eq_iff_iff]
    omega
  rw [this]
  simp only [par, addrs, List.map_append, List.map_cons]

/-- Open the node around a pair. -/
theorem Triple.openPair {m : HM K V β} {Qb : β → HProp K V} {l : Link} {h i : Nat} {t : ATree K V} (hi : i < t.kvs.length)
    (h' : ∀ A kv C X L R Y, t.kvs = A ++ kv :: C → t.edges = X ++ L :: R :: Y → A.length = i → X.length = i → Y.length = C.length →
      A.length + C.length + 1 ≤ CAPACITY → AShape h L → AShape h R →
      Triple E (par t.addr l A kv C X L.addr R.addr Y ∗ kids h t.addr 0 X ∗ tree (some t.addr, some i) h L ∗ tree (some t.addr, some (i + 1)) h R ∗
        kids h t.addr (i + 2) Y) m Qb) : Triple E (tree l (h + 1) t) m Qb := by
  refine Triple.pre ?_ tree_shape
  refine Triple.getFact fun hs => ?_
  obtain ⟨A, kv, C, X, L, R, Y, e1, e2, hA, hX, hY⟩ := pair_ok hs.2 hi
  obtain ⟨a, kvs, es⟩ := t
  dsimp only at *
  subst e1 e2
  rw [tree_pair, hX]
  refine Triple.getFact fun hf => ?_
  refine Triple.pre ?_ (Ent.sep (Ent.refl _) (Ent.sep (Ent.refl _) (Ent.sep tree_shape (Ent.frame tree_shape _))))
  simp only [sep_assoc]
  refine Triple.getFact fun hL => ?_
  refine Triple.getFact fun hR => ?_
  exact h' A kv C X L R Y rfl rfl hA hX hY hf.2 hL hR

/-- Close the node around a pair. -/
theorem holds_pair {l : Link} {h i : Nat} {a : Addr} {A C : List (K × V)} {kv : K × V} {X Y : List (ATree K V)} {L R : ATree K V} {t' : Tree K V}
    (hA : A.length = i) (hX : X.length = i) (hY : Y.length = C.length) (hc : A.length + C.length + 1 ≤ CAPACITY)
    (ht : t' = ⟨A ++ kv :: C, (X ++ L :: R :: Y).map ATree.erase⟩) :
    Ent (par a l A kv C X L.addr R.addr Y ∗ kids h a 0 X ∗ tree (some a, some i) h L ∗ tree (some a, some (i + 1)) h R ∗
        kids h a (i + 2) Y) (holds l (h + 1) a t') := by
  refine Ent.hex_right ⟨a, A ++ kv :: C, X ++ L :: R :: Y⟩ ?_
  refine Ent.putFact ⟨by rw [ATree.erase_mk, ht], rfl⟩ ?_
  rw [tree_pair, hX]
  exact Ent.putFact ⟨by omega, hc⟩ (Ent.refl _)

theorem canMerge_ref {l : Link} {h i : Nat} {t : ATree K V} {b : Bool} (hi : i < t.kvs.length) (hb : BTree.canMerge t.erase i = .ok b) :
    Triple E (tree l (h + 1) t) (canMerge ⟨h + 1, t.addr, i⟩) (fun r => fact (r = b) ∗ tree l (h + 1) t) := by
  refine Triple.openPair hi fun A kv C X L R Y e1 e2 hA hX hY hc hL hR => ?_
  obtain ⟨a, kvs, es⟩ := t
  dsimp only at *
  subst e1 e2
  rw [ATree.erase_mk, List.map_append, List.map_cons, List.map_cons] at hb
  have h2 := BTree.canMerge_split (A := A) (C := C) (kv := kv) (X := X.map ATree.erase) (Y := Y.map ATree.erase) (l := L.erase) (r := R.erase)
    (by simp; omega)
  rw [List.length_map, hX] at h2
  rw [h2] at hb
  simp only [Exec.ok.injEq] at hb
  subst hb
  refine Triple.callLast (P₀ := par a l A kv C X L.addr R.addr Y ∗ tree (some a, some i) h L ∗ tree (some a, some (i + 1)) h R)
    (canMerge_spec hA.symm (by omega) (by omega)) fun r => ?_
  simp only [sep_assoc]
  refine Ent.getFact fun e => ?_
  refine Ent.putFact (by rw [e]; simp) ?_
  rw [tree_pair, hX]
  refine Ent.putFact ⟨by omega, by omega⟩ ?_
  ent_ac

theorem merge_ref {l : Link} {h i : Nat} {t : ATree K V} {t' : Tree K V} (hi : i < t.kvs.length) (hb : BTree.merge t.erase i = .ok t') :
    Triple E (tree l (h + 1) t) (merge ⟨h + 1, t.addr, i⟩) (fun r => fact (r = ⟨h + 1, t.addr, i⟩) ∗ holds l (h + 1) t.addr t') := by
  refine Triple.openPair hi fun A kv C X L R Y e1 e2 hA hX hY hc hL hR => ?_
  obtain ⟨a, kvs, es⟩ := t
  dsimp only at *
  subst e1 e2
  rw [ATree.erase_mk, List.map_append, List.map_cons, List.map_cons] at hb
  have hlen : L.kvs.length + R.kvs.length + 1 ≤ CAPACITY := by
    simp only [BTree.merge] at hb
    rw [getE_mid (by simp; omega)] at hb
    obtain ⟨l1, hl1, hb⟩ := Exec.bind_eq_ok.1 hb
    simp only [Exec.ok.injEq] at hl1
    subst hl1
    rw [show X.map ATree.erase ++ L.erase :: R.erase :: Y.map ATree.erase = (X.map ATree.erase ++ [L.erase]) ++ R.erase :: Y.map ATree.erase by simp,
      getE_mid (by simp; omega)] at hb
    obtain ⟨r1, hr1, hb⟩ := Exec.bind_eq_ok.1 hb
    simp only [Exec.ok.injEq] at hr1
    subst hr1
    obtain ⟨_, hq, hb⟩ := Exec.bind_eq_ok.1 hb
    have := require_ok hq
    simpa using this
  have h2 := BTree.merge_split (A := A) (C := C) (kv := kv) (X := X.map ATree.erase) (Y := Y.map ATree.erase) (l := L.erase) (r := R.erase)
    (by simp; omega) (by simpa using hlen)
  rw [List.length_map, hX] at h2
  rw [h2] at hb
  simp only [Exec.ok.injEq] at hb
  subst hb
  refine Triple.callLast (P₀ := par a l A kv C X L.addr R.addr Y ∗ tree (some a, some i) h L ∗ tree (some a, some (i + 1)) h R ∗ kids h a (i + 2) Y)
    (merge_spec hA.symm (by omega) (by omega) (by omega) hlen) fun r => ?_
  simp only [sep_assoc]
  refine Ent.getFact fun e => ?_
  refine Ent.putFact e ?_
  refine Ent.hex_right ⟨a, A ++ C, X ++ ⟨L.addr, L.kvs ++ kv :: R.kvs, L.edges ++ R.edges⟩ :: Y⟩ ?_
  refine Ent.putFact ⟨by rw [ATree.erase_mk, List.map_append, List.map_cons, ATree.erase_mk]; simp [BTree.join], rfl⟩ ?_
  rw [tree_internal', hX]
  refine Ent.putFact ⟨by simp only [List.length_append]; omega, by simp only [List.length_append]; omega⟩ ?_
  ent_ac

/-- The two children around pair `i`, read off a successful level-1 operation. -/
theorem getE_left {X Y : List (ATree K V)} {L R : ATree K V} {i : Nat} {x : Tree K V} (hX : X.length = i)
    (h : getE ((X ++ L :: R :: Y).map ATree.erase) i = .ok x) : x = L.erase := by
  rw [List.map_append, List.map_cons, getE_mid (by simpa using hX)] at h
  simpa using h.symm

theorem getE_right {X Y : List (ATree K V)} {L R : ATree K V} {i : Nat} {x : Tree K V} (hX : X.length = i)
    (h : getE ((X ++ L :: R :: Y).map ATree.erase) (i + 1) = .ok x) : x = R.erase := by
  rw [show X ++ L :: R :: Y = (X ++ [L]) ++ R :: Y by simp, List.map_append, List.map_cons, getE_mid (by simpa using hX)] at h
  simpa using h.symm

section
open Verif.BTree
variable {i : Nat} {A C LA RK LK RC : List (K × V)} {kv lkv rkv : K × V} {X Y LX RE LE : List (Tree K V)} {e : Tree K V}

theorem stealLeft_leaf_eq (hA : A.length = i) (hX : X.length = i) (hr11 : RK.length < 11) :
    BTree.stealLeft 0 ⟨A ++ kv :: C, X ++ ⟨LA ++ [lkv], []⟩ :: ⟨RK, []⟩ :: Y⟩ i =
      .ok ⟨A ++ lkv :: C, X ++ ⟨LA, []⟩ :: ⟨kv :: RK, []⟩ :: Y⟩ := by
  have hg : getE (A ++ kv :: C) i = .ok kv := getE_mid hA
  have hs : ∀ x, setE (A ++ kv :: C) i x = .ok (A ++ x :: C) := fun x => setE_mid hA
  subst hX
  simp [BTree.stealLeft, Tree.pop, Tree.pushFront, hg, hs, Tree.len, hr11]

theorem stealLeft_int_eq {h : Nat} (hA : A.length = i) (hX : X.length = i) (hr11 : RK.length < 11) (hl' : LX.length = LA.length + 1) :
    BTree.stealLeft (h + 1) ⟨A ++ kv :: C, X ++ ⟨LA ++ [lkv], LX ++ [e]⟩ :: ⟨RK, RE⟩ :: Y⟩ i =
      .ok ⟨A ++ lkv :: C, X ++ ⟨LA, LX⟩ :: ⟨kv :: RK, e :: RE⟩ :: Y⟩ := by
  have hg : getE (A ++ kv :: C) i = .ok kv := getE_mid hA
  have hs : ∀ x, setE (A ++ kv :: C) i x = .ok (A ++ x :: C) := fun x => setE_mid hA
  have hg2 : getE (LX ++ [e]) (LA.length + 1) = .ok e := by rw [← hl']; simp
  have ht : List.take (LA.length + 1) (LX ++ [e]) = LX := by rw [← hl']; simp
  subst hX
  simp [BTree.stealLeft, Tree.pop, Tree.pushFront, hg, hs, Tree.len, hr11, hg2, ht]

theorem stealRight_leaf_eq (hA : A.length = i) (hX : X.length = i) (hr11 : LK.length < 11) :
    BTree.stealRight 0 ⟨A ++ kv :: C, X ++ ⟨LK, []⟩ :: ⟨rkv :: RC, []⟩ :: Y⟩ i =
      .ok ⟨A ++ rkv :: C, X ++ ⟨LK ++ [kv], []⟩ :: ⟨RC, []⟩ :: Y⟩ := by
  have hg : getE (A ++ kv :: C) i = .ok kv := getE_mid hA
  have hs : ∀ x, setE (A ++ kv :: C) i x = .ok (A ++ x :: C) := fun x => setE_mid hA
  have h0 : ∀ {α : Type} (x : α) (l : List α), sliceRemove (x :: l) 0 = .ok (x, l) := by
    intro α x l; simpa using BTree.sliceRemove_append [] x l
  subst hX
  simp [BTree.stealRight, Tree.popFront, Tree.pushAny, Tree.pushLeaf, hg, hs, Tree.len, hr11, h0]

theorem stealRight_int_eq {h : Nat} (hA : A.length = i) (hX : X.length = i) (hr11 : LK.length < 11) :
    BTree.stealRight (h + 1) ⟨A ++ kv :: C, X ++ ⟨LK, LE⟩ :: ⟨rkv :: RC, e :: RE⟩ :: Y⟩ i =
      .ok ⟨A ++ rkv :: C, X ++ ⟨LK ++ [kv], LE ++ [e]⟩ :: ⟨RC, RE⟩ :: Y⟩ := by
  have hg : getE (A ++ kv :: C) i = .ok kv := getE_mid hA
  have hs : ∀ x, setE (A ++ kv :: C) i x = .ok (A ++ x :: C) := fun x => setE_mid hA
  have h0 : ∀ {α : Type} (x : α) (l : List α), sliceRemove (x :: l) 0 = .ok (x, l) := by
    intro α x l; simpa using BTree.sliceRemove_append [] x l
  subst hX
  simp [BTree.stealRight, Tree.popFront, Tree.pushAny, Tree.pushInternal, hg, hs, Tree.len, hr11, h0]

end

theorem stealLeft_ref {l : Link} {h i : Nat} {t : ATree K V} {t' : Tree K V} (hi : i < t.kvs.length) (hb : BTree.stealLeft h t.erase i = .ok t') :
    Triple E (tree l (h + 1) t) (stealLeft ⟨h + 1, t.addr, i⟩) (fun _ => holds l (h + 1) t.addr t') := by
  refine Triple.openPair hi fun A kv C X L R Y e1 e2 hA hX hY hc hL hR => ?_
  obtain ⟨a, kvs, es⟩ := t
  obtain ⟨la, LK, LE⟩ := L
  obtain ⟨ra, RK, RE⟩ := R
  dsimp only at *
  subst e1 e2
  obtain ⟨hLc, hLe⟩ := hL
  obtain ⟨hRc, hRe⟩ := hR
  dsimp only at hLc hLe hRc hRe
  have hlen : 0 < LK.length ∧ RK.length < CAPACITY := by
    simp only [BTree.stealLeft, ATree.erase_mk] at hb
    obtain ⟨l1, hl1, hb⟩ := Exec.bind_eq_ok.1 hb
    obtain rfl := getE_left hX hl1
    obtain ⟨⟨l2, k2, e2⟩, hpop, hb⟩ := Exec.bind_eq_ok.1 hb
    obtain ⟨_, _, hb⟩ := Exec.bind_eq_ok.1 hb
    obtain ⟨_, _, hb⟩ := Exec.bind_eq_ok.1 hb
    obtain ⟨r1, hr1, hb⟩ := Exec.bind_eq_ok.1 hb
    obtain rfl := getE_right hX hr1
    obtain ⟨r2, hpush, hb⟩ := Exec.bind_eq_ok.1 hb
    simp only [BTree.Tree.pop] at hpop
    obtain ⟨_, hq, _⟩ := Exec.bind_eq_ok.1 hpop
    simp only [BTree.Tree.pushFront] at hpush
    obtain ⟨_, hq', _⟩ := Exec.bind_eq_ok.1 hpush
    have h1 := require_ok hq
    have h2 := require_ok hq'
    simp only [ATree.erase_len, decide_eq_true_eq] at h1 h2
    exact ⟨h1, h2⟩
  rcases List.eq_nil_or_concat LK with rfl | ⟨LA, lkv, rfl⟩
  · simp at hlen
  rw [List.concat_eq_append] at *
  have hg : getE (A ++ kv :: C) i = .ok kv := getE_mid hA
  have hs : ∀ x, setE (A ++ kv :: C) i x = .ok (A ++ x :: C) := fun x => setE_mid hA
  have hXm : (X.map ATree.erase).length = i := by simpa using hX
  cases h with
  | zero =>
    dsimp only at hLe hRe
    subst hLe hRe
    have hcomp : t' = ⟨A ++ lkv :: C, (X ++ ⟨la, LA, []⟩ :: ⟨ra, kv :: RK, []⟩ :: Y).map ATree.erase⟩ := by
      simp only [ATree.erase_mk, List.map_append, List.map_cons, List.map_nil] at hb
      rw [stealLeft_leaf_eq hA hXm hlen.2] at hb
      simpa [ATree.erase_mk] using hb.symm
    refine Triple.callLast (P₀ := par a l A kv C X la ra Y ∗ tree (some a, some i) 0 ⟨la, LA ++ [lkv], []⟩ ∗ tree (some a, some (i + 1)) 0 ⟨ra, RK, []⟩)
      (stealLeft_spec (LX := []) (LY := []) hA.symm (by omega) (by omega) hlen.2 (by simp)) fun r => ?_
    refine Ent.trans ?_ (holds_pair hA hX hY (by omega) hcomp)
    ent_ac
  | succ h =>
    dsimp only at hLe hRe
    simp only [List.length_append, List.length_cons, List.length_nil, List.concat_eq_append] at hLe
    rcases List.eq_nil_or_concat LE with rfl | ⟨LX, e, rfl⟩
    · simp at hLe
    rw [List.concat_eq_append] at *
    simp only [List.length_append, List.length_cons, List.length_nil] at hLe
    have hl' : LX.length = LA.length + 1 := by omega
    have hcomp : t' = ⟨A ++ lkv :: C, (X ++ ⟨la, LA, LX⟩ :: ⟨ra, kv :: RK, [e] ++ RE⟩ :: Y).map ATree.erase⟩ := by
      simp only [ATree.erase_mk, List.map_append, List.map_cons, List.map_nil] at hb
      rw [stealLeft_int_eq hA hXm hlen.2 (by simpa using hl')] at hb
      simpa [ATree.erase_mk] using hb.symm
    refine Triple.callLast (P₀ := par a l A kv C X la ra Y ∗ tree (some a, some i) (h + 1) ⟨la, LA ++ [lkv], LX ++ [e]⟩ ∗ tree (some a, some (i + 1)) (h + 1) ⟨ra, RK, RE⟩)
      (stealLeft_spec hA.symm (by omega) (by omega) hlen.2 (fun _ => hl')) fun r => ?_
    refine Ent.trans ?_ (holds_pair hA hX hY (by omega) hcomp)
    ent_ac

theorem stealRight_ref {l : Link} {h i : Nat} {t : ATree K V} {t' : Tree K V} (hi : i < t.kvs.length) (hb : BTree.stealRight h t.erase i = .ok t') :
    Triple E (tree l (h + 1) t) (stealRight ⟨h + 1, t.addr, i⟩) (fun _ => holds l (h + 1) t.addr t') := by
  refine Triple.openPair hi fun A kv C X L R Y e1 e2 hA hX hY hc hL hR => ?_
  obtain ⟨a, kvs, es⟩ := t
  obtain ⟨la, LK, LE⟩ := L
  obtain ⟨ra, RK, RE⟩ := R
  dsimp only at *
  subst e1 e2
  obtain ⟨hLc, hLe⟩ := hL
  obtain ⟨hRc, hRe⟩ := hR
  dsimp only at hLc hLe hRc hRe
  have hlen : 0 < RK.length ∧ LK.length < CAPACITY := by
    simp only [BTree.stealRight, ATree.erase_mk] at hb
    obtain ⟨r1, hr1, hb⟩ := Exec.bind_eq_ok.1 hb
    obtain rfl := getE_right hX hr1
    obtain ⟨⟨l2, k2, e2⟩, hpop, hb⟩ := Exec.bind_eq_ok.1 hb
    obtain ⟨_, _, hb⟩ := Exec.bind_eq_ok.1 hb
    obtain ⟨_, _, hb⟩ := Exec.bind_eq_ok.1 hb
    obtain ⟨l1, hl1, hb⟩ := Exec.bind_eq_ok.1 hb
    obtain rfl := getE_left hX hl1
    obtain ⟨r2, hpush, hb⟩ := Exec.bind_eq_ok.1 hb
    simp only [BTree.Tree.popFront] at hpop
    obtain ⟨_, hq, _⟩ := Exec.bind_eq_ok.1 hpop
    have h1 := require_ok hq
    simp only [ATree.erase_len, decide_eq_true_eq] at h1
    refine ⟨h1, ?_⟩
    simp only [BTree.Tree.pushAny] at hpush
    split at hpush
    · simp only [BTree.Tree.pushLeaf] at hpush
      obtain ⟨_, hq', _⟩ := Exec.bind_eq_ok.1 hpush
      have h2 := require_ok hq'
      simpa only [ATree.erase_len, decide_eq_true_eq] using h2
    · split at hpush
      · simp only [BTree.Tree.pushInternal] at hpush
        obtain ⟨_, hq', _⟩ := Exec.bind_eq_ok.1 hpush
        have h2 := require_ok hq'
        simpa only [ATree.erase_len, decide_eq_true_eq] using h2
      · cases hpush
  cases RK with
  | nil => simp at hlen
  | cons rkv RC =>
  have hg : getE (A ++ kv :: C) i = .ok kv := getE_mid hA
  have hs : ∀ x, setE (A ++ kv :: C) i x = .ok (A ++ x :: C) := fun x => setE_mid hA
  have h0 : ∀ {α : Type} (x : α) (l : List α), sliceRemove (x :: l) 0 = .ok (x, l) := by
    intro α x l; simpa using BTree.sliceRemove_append [] x l
  have hXm : (X.map ATree.erase).length = i := by simpa using hX
  have hr11 : LK.length < 11 := hlen.2
  cases h with
  | zero =>
    dsimp only at hLe hRe
    subst hLe hRe
    have hcomp : t' = ⟨A ++ rkv :: C, (X ++ ⟨la, LK ++ [kv], []⟩ :: ⟨ra, RC, []⟩ :: Y).map ATree.erase⟩ := by
      simp only [ATree.erase_mk, List.map_append, List.map_cons, List.map_nil] at hb
      rw [stealRight_leaf_eq hA hXm hlen.2] at hb
      simpa [ATree.erase_mk] using hb.symm
    refine Triple.callLast (P₀ := par a l A kv C X la ra Y ∗ tree (some a, some i) 0 ⟨la, LK, []⟩ ∗ tree (some a, some (i + 1)) 0 ⟨ra, rkv :: RC, []⟩)
      (stealRight_spec (RX := []) (RY := []) hA.symm (by omega) (by omega) hlen.2 (by simp)) fun r => ?_
    refine Ent.trans ?_ (holds_pair hA hX hY (by omega) hcomp)
    ent_ac
  | succ h =>
    dsimp only at hLe hRe
    simp only [List.length_append, List.length_cons, List.length_nil] at hRe
    cases RE with
    | nil => simp at hRe
    | cons e RE =>
    have hcomp : t' = ⟨A ++ rkv :: C, (X ++ ⟨la, LK ++ [kv], LE ++ [e]⟩ :: ⟨ra, RC, RE⟩ :: Y).map ATree.erase⟩ := by
      simp only [ATree.erase_mk, List.map_append, List.map_cons, List.map_nil] at hb
      rw [stealRight_int_eq hA hXm hlen.2] at hb
      simpa [ATree.erase_mk] using hb.symm
    refine Triple.callLast (P₀ := par a l A kv C X la ra Y ∗ tree (some a, some i) (h + 1) ⟨la, LK, LE⟩ ∗ tree (some a, some (i + 1)) (h + 1) ⟨ra, rkv :: RC, e :: RE⟩)
      (stealRight_spec (RX := [e]) (RY := RE) hA.symm (by omega) (by omega) hlen.2 (fun _ => rfl)) fun r => ?_
    refine Ent.trans ?_ (holds_pair hA hX hY (by omega) hcomp)
    ent_ac

end Verif.Heap
