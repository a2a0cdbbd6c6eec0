import Verif.Misc.TryClone
import Verif.Props.Hash
import Verif.Props.Boxed
import Verif.Props.Map
/-
`try_clone` composes (C50).
-/
namespace Verif.Props
open Verif Verif.Misc Verif.Spec

variable {T K V σ : Type}

/-! ### specification -/

/-- A good `try_clone`: on good values it returns, and `Ok(c)` is a copy of the original and again a good value. -/
def Copies (Copy : T → T → Prop) (Good : T → Prop) (c : Cl T) : Prop :=
  ∀ x, Good x → ∀ a, ∃ r a', c x a = .ok (r, a') ∧ ∀ y, r = .ok y → Copy x y ∧ Good y

/-- Copies of options. -/
def OptCopy (Copy : T → T → Prop) : Option T → Option T → Prop
  | none, none => True
  | some x, some y => Copy x y
  | _, _ => False

/-- A property of the content of an option. -/
def OptAll (P : T → Prop) : Option T → Prop
  | none => True
  | some x => P x

/-- Copies of hash maps: as many entries, and every key has a copy of its value. -/
def HashCopy [BEq K] (Copy : V → V → Prop) (m m' : HMap K V σ) : Prop :=
  tryHashLen m' = tryHashLen m ∧ ∀ q, OptCopy Copy (tryHashGet id q m) (tryHashGet id q m')

/-- Copies of tree maps: the same keys in the same order with copies of the values. -/
def TreeCopy (Copy : V → V → Prop) (m m' : BTree.Map K V) : Prop :=
  ∃ l l', m.toListE = .ok l ∧ m'.toListE = .ok l' ∧ m'.len = m.len ∧ All2 (fun x y => y.1 = x.1 ∧ Copy x.2 y.2) l l'

/-! ### one level -/

theorem elem_ok {c : Cl T} {x : T} {a : Alloc} {y : T} {a' : Alloc} (h : c.elem x a = (.ok (.ok y), a')) : c x a = .ok (.ok y, a') := by
  simp only [Cl.elem] at h
  rcases hc : c x a with ⟨r, b⟩ | _ | m <;> simp [hc] at h
  rw [h.1, h.2]

theorem elemB_ok {c : Cl T} {x : T} {a : Alloc} {y : T} {a' : Alloc} (h : c.elemB x a = (.ok y, a')) : c x a = .ok (.ok y, a') := by
  simp only [Cl.elemB] at h
  rcases hc : c x a with ⟨r, b⟩ | _ | m <;> simp [hc] at h
  rw [h.1, h.2]

theorem elem_total {Copy : T → T → Prop} {Good : T → Prop} {c : Cl T} (hc : Copies Copy Good c) {x : T} (hx : Good x) (a : Alloc) :
    ∃ r a', c.elem x a = (.ok r, a') ∧ ∀ y, r = .ok y → Copy x y ∧ Good y := by
  obtain ⟨r, a', h1, h2⟩ := hc x hx a
  exact ⟨r, a', by simp [Cl.elem, h1], h2⟩

/-- **C50** primitive types are copied. -/
theorem C50_prim : Copies (· = ·) (fun _ : T => True) (primClone T) := by
  intro x _ a
  exact ⟨.ok x, a, rfl, fun y h => by simpa using h⟩

/-- **C50** `Option`. -/
theorem C50_option {Copy : T → T → Prop} {Good : T → Prop} {c : Cl T} (hc : Copies Copy Good c) :
    Copies (OptCopy Copy) (OptAll Good) (optClone c) := by
  intro x hx a
  cases x with
  | none => exact ⟨.ok none, a, rfl, fun y h => by obtain rfl : none = y := by simpa using h
                                                   exact ⟨trivial, trivial⟩⟩
  | some t =>
    obtain ⟨r, a', h1, h2⟩ := hc t hx a
    simp only [optClone, h1]
    rcases r with er | t'
    · exact ⟨.error er, a', rfl, by simp⟩
    · refine ⟨.ok (some t'), a', rfl, fun y h => ?_⟩
      obtain rfl : some t' = y := by simpa using h
      exact h2 t' rfl

/-- **C50** `Box` and `TryBox`. -/
theorem C50_box {e : Vec.Env T} (he : SaneTarget e) (hp : ∀ x, e.dropPanics x = false) {Copy : T → T → Prop} {Good : T → Prop} {c : Cl T}
    (hc : Copies Copy Good c) : Copies Copy Good (boxClone e c) := by
  intro x hx a
  obtain ⟨r, a', h1, h2⟩ := elem_total hc hx a
  simp only [boxClone, boxTryClone, h1]
  rcases r with er | t'
  · exact ⟨.error er, a', rfl, by simp⟩
  · simp only [C46_try_new he, hp]
    split
    · exact ⟨.ok t', _, rfl, fun y h => by obtain rfl : t' = y := by simpa using h
                                           exact h2 _ rfl⟩
    · split
      · exact ⟨.ok t', _, rfl, fun y h => by obtain rfl : t' = y := by simpa using h
                                             exact h2 _ rfl⟩
      · exact ⟨.error .allocError, _, rfl, by simp⟩

theorem cloneAll_copies {Copy : T → T → Prop} {Good : T → Prop} {c : Cl T} (hc : Copies Copy Good c) {xs : List T} (hx : ∀ x ∈ xs, Good x) (a : Alloc) :
    (∀ m, (Vec.cloneAll c.elem xs a).2.1 ≠ .panicked m) ∧
    ((Vec.cloneAll c.elem xs a).2.1 = .done → All2 Copy xs (Vec.cloneAll c.elem xs a).1) ∧ (∀ y ∈ (Vec.cloneAll c.elem xs a).1, Good y) := by
  induction xs generalizing a with
  | nil => exact ⟨by simp [Vec.cloneAll], fun _ => trivial, by simp [Vec.cloneAll]⟩
  | cons x xs ih =>
    obtain ⟨r, a', h1, h2⟩ := elem_total hc (hx x (by simp)) a
    simp only [Vec.cloneAll, h1]
    rcases r with er | y
    · simp
    · obtain ⟨g1, g2, g3⟩ := ih (fun z hz => hx z (by simp [hz])) a'
      refine ⟨g1, fun h => ⟨(h2 y rfl).1, g2 h⟩, ?_⟩
      intro z hz
      rcases List.mem_cons.1 hz with rfl | hz
      · exact (h2 _ rfl).2
      · exact g3 z hz

/-- **C50** `Vec` and `TryVec`. -/
theorem C50_vec {e : Vec.Env T} (he : e.OK) (hp : ∀ x, e.dropPanics x = false) {Copy : T → T → Prop} {Good : T → Prop} {c : Cl T}
    (hc : Copies Copy Good c) : Copies (All2 Copy) (fun l => ∀ x ∈ l, Good x) (vecClone e c) := by
  intro xs hxs a
  obtain ⟨r, c', a', h1, h2⟩ := Vec.tryCloneSlice_spec he c.elem xs ⟨a, 0, [], [], []⟩
  obtain ⟨g1, g2, g3⟩ := cloneAll_copies hc hxs a'
  simp only [vecClone, h2]
  rcases r with er | u
  · exact ⟨.error er, _, rfl, by simp⟩
  · simp only []
    cases hs : (Vec.cloneAll c.elem xs a').2.1 with
    | panicked m => exact absurd hs (g1 m)
    | failed er =>
      have : (Vec.cloneAll c.elem xs a').1.any e.dropPanics = false := by simp [hp]
      simp only [this]
      exact ⟨.error er, _, rfl, by simp⟩
    | done =>
      refine ⟨.ok (Vec.cloneAll c.elem xs a').1, _, by simp only [toCl, Vec.items_of]; rfl, fun y h => ?_⟩
      obtain rfl : (Vec.cloneAll c.elem xs a').1 = y := by simpa using h
      exact ⟨g2 hs, g3⟩

theorem clonePairs_copies {Copy : V → V → Prop} {Good : V → Prop} {ck : Cl K} {cv : Cl V} (hk : Copies (· = ·) (fun _ => True) ck)
    (hv : Copies Copy Good cv) {xs : List (K × V)} (hx : ∀ x ∈ xs, Good x.2) (a : Alloc) :
    (∀ m, (clonePairs ck.elem cv.elem xs a).2.1 ≠ .panicked m) ∧
    ((clonePairs ck.elem cv.elem xs a).2.1 = .done →
      All2 (fun x y => y.1 = x.1 ∧ Copy x.2 y.2) xs (clonePairs ck.elem cv.elem xs a).1) ∧
    (∀ y ∈ (clonePairs ck.elem cv.elem xs a).1, Good y.2) := by
  induction xs generalizing a with
  | nil => exact ⟨by simp [clonePairs], fun _ => trivial, by simp [clonePairs]⟩
  | cons x xs ih =>
    obtain ⟨k, v⟩ := x
    obtain ⟨r, a', h1, h2⟩ := elem_total hk (x := k) trivial a
    simp only [clonePairs, h1]
    rcases r with er | k'
    · simp
    · simp only []
      obtain ⟨r, a₂, h3, h4⟩ := elem_total hv (hx (k, v) (by simp)) a'
      simp only [h3]
      rcases r with er | v'
      · simp
      · obtain ⟨g1, g2, g3⟩ := ih (fun z hz => hx z (by simp [hz])) a₂
        refine ⟨g1, fun h => ⟨⟨(h2 k' rfl).1.symm, (h4 v' rfl).1⟩, g2 h⟩, ?_⟩
        intro z hz
        rcases List.mem_cons.1 hz with rfl | hz
        · exact (h4 _ rfl).2
        · exact g3 z hz

theorem all2_length {R : T → T → Prop} {a b : List T} (h : All2 R a b) : b.length = a.length := by
  induction a generalizing b with
  | nil => cases b <;> simp_all [All2]
  | cons x a ih => cases b with
    | nil => simp [All2] at h
    | cons y b => simp [ih h.2]

theorem lookup_copies [BEq K] {Copy : V → V → Prop} {l l' : List (K × V)} (h : All2 (fun x y => y.1 = x.1 ∧ Copy x.2 y.2) l l') (q : K) :
    OptCopy Copy (Misc.lookup id q l) (Misc.lookup id q l') := by
  induction l generalizing l' with
  | nil => cases l' with
    | nil => exact trivial
    | cons => simp [All2] at h
  | cons x l ih => cases l' with
    | nil => simp [All2] at h
    | cons y l' =>
      have h1 := h.1.1
      have := ih h.2
      simp only [Misc.lookup, List.find?_cons, id, h1] at this ⊢
      split
      · exact h.1.2
      · exact this

theorem all2_distinct [BEq K] {R : V → V → Prop} {l l' : List (K × V)} (h : All2 (fun x y => y.1 = x.1 ∧ R x.2 y.2) l l') (hd : Distinct l) :
    Distinct l' := by
  have hm : l'.map (·.1) = l.map (·.1) := by
    clear hd
    induction l generalizing l' with
    | nil => cases l' <;> simp_all [All2]
    | cons x l ih => cases l' with
      | nil => simp [All2] at h
      | cons y l' => simp [h.1.1, ih h.2]
  have h1 : (l.map (·.1)).Pairwise (fun a b => (a == b) = false) := List.pairwise_map.2 hd
  rw [← hm] at h1
  exact List.pairwise_map.1 h1

/-- **C50** `TryHashMap`. -/
theorem C50_hash_map [BEq K] [EquivBEq K] {e : HEnv K V σ} (he : e.OK) {Copy : V → V → Prop} {Good : V → Prop} {ck : Cl K} {cv : Cl V}
    (hk : Copies (· = ·) (fun _ => True) ck) (hv : Copies Copy Good cv) :
    Copies (HashCopy Copy) (fun m : HMap K V σ => Distinct m.items ∧ ∀ x ∈ tryHashIter m, Good x.2) (hashClone e ck cv) := by
  intro m hm a
  obtain ⟨r', a', h1, h2, h3⟩ := C48_with_capacity (e := e) he m.items.length ⟨a, 0, [], []⟩
  simp only [hashClone, tryHashClone, h1]
  rcases r' with er | m₁
  · exact ⟨.error er, a', rfl, by simp⟩
  · obtain ⟨g1, g2⟩ := h2 m₁ rfl
    rcases hc : clonePairs ck.elem cv.elem m.items a' with ⟨made, stop, a₂⟩
    obtain ⟨m₂, dk, dv, p1, p2, p3⟩ := cloneLoop_spec he ck.elem cv.elem m.items (m := m₁) (by rw [g1]; exact .nil) g2
      ⟨a', 0, [], []⟩ hc
    obtain ⟨q1, q2, q3⟩ := clonePairs_copies hk hv hm.2 a'
    simp only [tryHashIter] at q1 q2 q3
    rw [hc] at q1 q2 q3
    simp only [p1]
    cases stop with
    | panicked msg => exact absurd rfl (q1 msg)
    | failed er => exact ⟨.error er, _, rfl, by simp⟩
    | done =>
      refine ⟨.ok m₂, _, rfl, fun y h => ?_⟩
      obtain rfl : m₂ = y := by simpa using h
      have hall := q2 rfl
      simp only at hall q3
      have hd := all2_distinct hall hm.1
      have hp : m₂.items.Perm made := by simpa [g1] using p3 (by rw [g1]; exact hd)
      refine ⟨⟨?_, ?_⟩, p2, ?_⟩
      · simp only [tryHashLen]; rw [hp.length_eq, all2_length hall]
      · intro q
        have h5 : tryHashGet id q m₂ = Misc.lookup id q made := lookup_perm borrowEq_id p2 hp q
        rw [h5]
        exact lookup_copies hall q
      · intro x hx
        exact q3 x (hp.mem_iff.1 hx)

/-- **C50** `BTreeMap`. -/
theorem C50_tree_map [Ord K] [Std.TransOrd K] {Copy : V → V → Prop} {Good : V → Prop} {ck : Cl K} {cv : Cl V}
    (hk : Copies (· = ·) (fun _ => True) ck) (hv : Copies Copy Good cv) :
    Copies (TreeCopy Copy) (fun m : BTree.Map K V => BTree.Reach m ∧ ∀ l, m.toListE = .ok l → ∀ x ∈ l, Good x.2) (treeClone ck cv) := by
  intro m hm a
  have hs := hm.1.valid
  have hl := BTree.Map.toListE_spec hs.toShaped
  obtain ⟨r, a', h1, h2, -⟩ := BTree.Map.tryClone_wf ck.elemB cv.elemB hs.toShaped a
  refine ⟨r, a', h1, ?_⟩
  rintro c rfl
  obtain ⟨g1, g2⟩ := h2 c rfl
  have hkk : ∀ {k a k' a'}, ck.elemB k a = (.ok k', a') → k' = k := by
    intro k a k' a' h
    obtain ⟨r, b, e1, e2⟩ := hk k trivial a
    rw [elemB_ok h] at e1
    simp only [Exec.ok.injEq, Prod.mk.injEq] at e1
    exact (e2 k' e1.1.symm).1.symm
  have hvv : ∀ {v a v' a'}, Good v → cv.elemB v a = (.ok v', a') → Copy v v' ∧ Good v' := by
    intro v a v' a' hg h
    obtain ⟨r, b, e1, e2⟩ := hv v hg a
    rw [elemB_ok h] at e1
    simp only [Exec.ok.injEq, Prod.mk.injEq] at e1
    exact e2 v' e1.1.symm
  have hall : ∀ {l l' : List (K × V)}, (∀ x ∈ l, Good x.2) → All2 (BTree.PairClone ck.elemB cv.elemB) l l' →
      All2 (fun x y => y.1 = x.1 ∧ Copy x.2 y.2) l l' ∧ ∀ y ∈ l', Good y.2 := by
    intro l
    induction l with
    | nil =>
      intro l' _ h
      cases l' with
      | nil => exact ⟨trivial, by simp⟩
      | cons => simp [All2] at h
    | cons x l ih =>
      intro l' hg h
      cases l' with
      | nil => simp [All2] at h
      | cons y l' =>
        obtain ⟨⟨a1, a2, e1⟩, b1, b2, e2⟩ := h.1
        obtain ⟨i1, i2⟩ := ih (fun z hz => hg z (by simp [hz])) h.2
        have := hvv (hg x (by simp)) e2
        refine ⟨⟨⟨hkk e1, this.1⟩, i1⟩, ?_⟩
        intro z hz
        rcases List.mem_cons.1 hz with rfl | hz
        · exact this.2
        · exact i2 z hz
  obtain ⟨q1, q2⟩ := hall (hm.2 _ hl) g2
  refine ⟨⟨_, _, hl, BTree.Map.toListE_spec g1, ?_, q1⟩, BTree.Reach.clone (fun k a k' a' e => ?_) hm.1 h1, ?_⟩
  · have e1 := g1.len; have e2 := hs.len; have e3 := all2_length q1
    simp only [BTree.Map.len]
    simp at e1 e2
    omega
  · rw [hkk e]; exact Std.ReflCmp.compare_self
  · intro l hl' x hx
    obtain rfl := BTree.Exec.ok_unique hl' (BTree.Map.toListE_spec g1)
    exact q2 x hx

/-! ### any nesting -/

/-- Being a copy, for every type: equal data; hash maps with copies of the values for the same keys, tree maps with the same
keys in order and copies of the values. -/
def CopyOf [∀ k, BEq (KVal k)] : (t : Ty) → Val σ t → Val σ t → Prop
  | .key _ => fun x y => x = y
  | .opt t => OptCopy (CopyOf t)
  | .box t => CopyOf t
  | .vec t => All2 (CopyOf t)
  | .hashMap _ t => HashCopy (CopyOf t)
  | .treeMap _ t => TreeCopy (CopyOf t)

/-- Values a program can have: the hash maps in them have distinct keys, the tree maps were made through the API. -/
def GoodVal [∀ k, BEq (KVal k)] [∀ k, Ord (KVal k)] : (t : Ty) → Val σ t → Prop
  | .key _ => fun _ => True
  | .opt t => OptAll (GoodVal t)
  | .box t => GoodVal t
  | .vec t => fun (l : List (Val σ t)) => ∀ x ∈ l, GoodVal t x
  | .hashMap _ t => fun m => Distinct m.items ∧ ∀ x ∈ tryHashIter m, GoodVal t x.2
  | .treeMap _ t => fun m => BTree.Reach m ∧ ∀ l, m.toListE = .ok l → ∀ x ∈ l, GoodVal t x.2

/-- What is assumed of the target for every type (see `SaneTarget`); destructors do not panic. -/
structure Target.OK (g : Target σ) : Prop where
  kelem : ∀ k, (g.kelem k).OK ∧ SaneTarget (g.kelem k) ∧ ∀ x, (g.kelem k).dropPanics x = false
  elem : ∀ t, (g.elem t).OK ∧ SaneTarget (g.elem t) ∧ ∀ x, (g.elem t).dropPanics x = false
  hash : ∀ k t, (g.hash k t).OK

theorem all2_eq_iff {a b : List T} (h : All2 (· = ·) a b) : a = b := h.eq

/-- **C50** `try_clone` of a key type gives back an equal key or an error. -/
theorem C50_keys {g : Target σ} (hg : Target.OK g) (k : KTy) : Copies (· = ·) (fun _ => True) (kclone g k) := by
  induction k with
  | prim => exact C50_prim
  | opt k ih =>
    intro x _ a
    obtain ⟨r, a', h1, h2⟩ := C50_option ih x (by change Option (KVal k) at x; cases x <;> trivial) a
    refine ⟨r, a', h1, fun y h => ⟨?_, trivial⟩⟩
    have h3 := (h2 y h).1
    change Option (KVal k) at x y
    cases x with
    | none => cases y with
      | none => rfl
      | some y => exact h3.elim
    | some x => cases y with
      | none => exact h3.elim
      | some y => exact congrArg some h3
  | box k ih => exact C50_box (hg.kelem k).2.1 (hg.kelem k).2.2 ih
  | vec k ih =>
    intro x _ a
    obtain ⟨r, a', h1, h2⟩ := C50_vec (hg.kelem k).1 (hg.kelem k).2.2 ih x (by simp) a
    exact ⟨r, a', h1, fun y h => ⟨all2_eq_iff (h2 y h).1, trivial⟩⟩

/-- **C50** For every type built from primitive types by `Option`, `Box`, `Vec`, `TryHashMap` and `BTreeMap`, nested to any
depth, every value and every allocator: `try_clone` returns without fault, and `Ok(c)` is a copy. -/
theorem C50_nested [∀ k, BEq (KVal k)] [∀ k, EquivBEq (KVal k)] [∀ k, Ord (KVal k)] [∀ k, Std.TransOrd (KVal k)] {g : Target σ}
    (hg : Target.OK g) (t : Ty) : Copies (CopyOf t) (GoodVal t) (clone g t) := by
  induction t with
  | key k => exact C50_keys hg k
  | opt t ih => exact C50_option ih
  | box t ih => exact C50_box (hg.elem t).2.1 (hg.elem t).2.2 ih
  | vec t ih => exact C50_vec (hg.elem t).1 (hg.elem t).2.2 ih
  | hashMap k t ih => exact C50_hash_map (hg.hash k t) (C50_keys hg k) ih
  | treeMap k t ih => exact C50_tree_map (C50_keys hg k) ih

/-! ### concrete cases -/

/-- 8-byte elements everywhere; a plain hash table. -/
def demoTarget : Target Unit where
  kelem _ := ⟨65535, 8, fun c r => max (2 * c) r, fun _ r => r, fun _ => false, true⟩
  elem _ := ⟨65535, 8, fun c r => max (2 * c) r, fun _ r => r, fun _ => false, true⟩
  hash _ _ := ⟨1000, fun n => 2 * n, (), fun _ l _ => ((), l.reverse), fun _ l x => ((), x :: l, true), fun _ _ _ => ((), false),
    ⟨65535, 1024, fun c r => max (2 * c) r, fun _ r => r, fun _ => false, true⟩⟩

theorem demoTarget_ok : Target.OK demoTarget where
  kelem _ := ⟨⟨fun _ _ => Nat.le_max_right _ _, fun _ _ => Nat.le_refl _⟩,
    ⟨(by decide : 0 < 65535), (by decide : 8 ≤ 65535 / 2), rfl⟩, fun _ => rfl⟩
  elem _ := ⟨⟨fun _ _ => Nat.le_max_right _ _, fun _ _ => Nat.le_refl _⟩,
    ⟨(by decide : 0 < 65535), (by decide : 8 ≤ 65535 / 2), rfl⟩, fun _ => rfl⟩
  hash _ _ :=
    { capFor := fun n => (by omega : n ≤ 2 * n)
      rehash := fun _ l _ => l.reverse_perm
      place := fun _ _ _ => .refl _
      errGrow := ⟨fun _ _ => Nat.le_max_right _ _, fun _ _ => Nat.le_refl _⟩
      errSize := rfl
      errWord := (by decide : 0 < 65535) }

instance : BEq (KVal .prim) := inferInstanceAs (BEq Nat)
instance : EquivBEq (KVal .prim) := inferInstanceAs (EquivBEq Nat)

/-- A `Vec<Option<Box<u64>>>` and its clone. -/
example : (vecClone (T := Option Nat) (demoTarget.elem (.opt (.key .prim))) (optClone (boxClone (demoTarget.kelem .prim) (primClone Nat)))
    [some (3 : Nat), none, some 5] (fun _ => true) matches .ok (.ok [some 3, none, some 5], _)) = true := by decide +kernel

/-- One refused request on the way: `Err`. -/
example : (vecClone (T := Option Nat) (demoTarget.elem (.opt (.key .prim))) (optClone (boxClone (demoTarget.kelem .prim) (primClone Nat)))
    [some (3 : Nat), none, some 5] (fun n => n != 2) matches .ok (.error .allocError, _)) = true := by decide +kernel

end Verif.Props
