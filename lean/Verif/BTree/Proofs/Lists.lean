import Verif.BTree.Iter
/-
List algebra behind the proofs: interleaving the pairs of a node with the contents of its children, the in-order
contents `toList`, the shape invariant `Below`, and positions in a tree as splits of its contents.
-/
namespace Verif.BTree
open Verif

variable {K V α : Type}

@[simp] theorem B_eq : B = 6 := rfl
@[simp] theorem MIN_LEN_eq : MIN_LEN = 5 := rfl
@[simp] theorem CAPACITY_eq : CAPACITY = 11 := rfl

/-! ### getE, setE, sliceInsert, sliceRemove on split lists -/

theorem getE_split {l : List α} {A : List α} {x : α} {B : List α} {i : Nat}
    (h : l = A ++ x :: B) (hi : i = A.length) : getE l i = .ok x := by
  subst h hi; simp

@[simp] theorem setE_append (A : List α) (x y : α) (B : List α) :
    setE (A ++ x :: B) A.length y = .ok (A ++ y :: B) := by
  simp [setE]

@[simp] theorem sliceInsert_append (A B : List α) (x : α) :
    sliceInsert (A ++ B) A.length x = .ok (A ++ x :: B) := by
  simp [sliceInsert]

@[simp] theorem sliceRemove_append (A : List α) (x : α) (B : List α) :
    sliceRemove (A ++ x :: B) A.length = .ok (x, A ++ B) := by
  simp [sliceRemove, List.drop_append]

@[simp] theorem getE_append_succ (A : List α) (x y : α) (B : List α) :
    getE (A ++ x :: y :: B) (A.length + 1) = .ok y := by
  simp [getE, List.getElem?_append_right]

@[simp] theorem setE_append_succ (A : List α) (x y z : α) (B : List α) :
    setE (A ++ x :: y :: B) (A.length + 1) z = .ok (A ++ x :: z :: B) := by
  simp [setE, List.set_append_right]

@[simp] theorem sliceInsert_append_succ (A : List α) (x y : α) (B : List α) :
    sliceInsert (A ++ x :: B) (A.length + 1) y = .ok (A ++ x :: y :: B) := by
  have := sliceInsert_append (A ++ [x]) B y
  simpa using this

@[simp] theorem sliceRemove_append_succ (A : List α) (x y : α) (B : List α) :
    sliceRemove (A ++ x :: y :: B) (A.length + 1) = .ok (y, A ++ x :: B) := by
  have := sliceRemove_append (A ++ [x]) y B
  simpa using this

/-! ### interleaving -/

/-- `[k₀, k₁, …]` and `[e₀, e₁, …]` to `k₀ :: e₀ ++ k₁ :: e₁ ++ …`. -/
def post (ks : List α) (es : List (List α)) : List α := (ks.zip es).flatMap fun p => p.1 :: p.2

/-- `[k₀, k₁, …]` and `[e₀, e₁, …]` to `e₀ ++ [k₀] ++ e₁ ++ [k₁] ++ …`. -/
def pre (ks : List α) (es : List (List α)) : List α := (ks.zip es).flatMap fun p => p.2 ++ [p.1]

/-- In-order interleaving of pairs and children contents. -/
def inter (ks : List α) : List (List α) → List α
  | [] => ks
  | e :: es => e ++ post ks es

@[simp] theorem post_nil (es : List (List α)) : post [] es = [] := by simp [post]
@[simp] theorem pre_nil (es : List (List α)) : pre [] es = [] := by simp [pre]
@[simp] theorem post_cons (k : α) (ks : List α) (e : List α) (es : List (List α)) :
    post (k :: ks) (e :: es) = k :: e ++ post ks es := by simp [post]
@[simp] theorem pre_cons (k : α) (ks : List α) (e : List α) (es : List (List α)) :
    pre (k :: ks) (e :: es) = e ++ k :: pre ks es := by simp [pre]

theorem post_append {A C : List α} {X Y : List (List α)} (h : X.length = A.length) :
    post (A ++ C) (X ++ Y) = post A X ++ post C Y := by
  simp [post, List.zip_append h.symm]

theorem pre_append {A C : List α} {X Y : List (List α)} (h : X.length = A.length) :
    pre (A ++ C) (X ++ Y) = pre A X ++ pre C Y := by
  simp [pre, List.zip_append h.symm]

theorem inter_split {A C : List α} {X Y : List (List α)} (e : List α) (h : X.length = A.length) :
    inter (A ++ C) (X ++ e :: Y) = pre A X ++ (e ++ post C Y) := by
  induction A generalizing X with
  | nil => cases X <;> simp_all [inter]
  | cons a A ih =>
    cases X with
    | nil => simp at h
    | cons x X =>
      have h' : X.length = A.length := by simpa using h
      have := ih h'
      cases X with
      | nil =>
        have hA : A = [] := by simpa using h'.symm
        subst hA
        simp [inter]
      | cons y X => simpa [inter] using this

/-- Split around a pair. -/
theorem inter_split_kv {A C : List α} {X Y : List (List α)} (l r : List α) (k : α) (h : X.length = A.length) :
    inter (A ++ k :: C) (X ++ l :: r :: Y) = pre A X ++ (l ++ (k :: (r ++ post C Y))) := by
  rw [inter_split l h]; simp

/-- Concatenating two nodes around a pair. -/
theorem inter_append {A C : List α} {X Y : List (List α)} (k : α)
    (hX : X.length = A.length + 1) :
    inter (A ++ k :: C) (X ++ Y) = inter A X ++ (k :: inter C Y) ∨ Y = [] := by
  cases Y with
  | nil => simp
  | cons y Y =>
    left
    rcases List.eq_nil_or_concat X with rfl | ⟨X', x, rfl⟩
    · simp at hX
    · have hl : X'.length = A.length := by simpa using hX
      have h1 := inter_split_kv (A := A) (C := C) (X := X') (Y := Y) x y k hl
      have h2 := inter_split (A := A) (C := []) (X := X') (Y := []) x hl
      simp only [List.append_assoc, List.cons_append, List.nil_append, List.append_nil, List.concat_eq_append,
        post_nil] at h1 h2 ⊢
      rw [h1, h2]
      simp [inter]

theorem length_inter_ge {A : List α} {X : List (List α)} (h : X.length = A.length + 1) :
    (inter A X).length = A.length + (X.map List.length).sum := by
  induction A generalizing X with
  | nil => match X, h with
    | [x], _ => simp [inter]
  | cons a A ih => match X, h with
    | x :: y :: X, h =>
      have := ih (X := y :: X) (by simpa using h)
      simp [inter] at this ⊢
      omega

/-! ### contents of a tree -/

/-- In-order contents of a tree of height `h`. -/
def toList : (h : Nat) → Tree K V → List (K × V)
  | 0, t => t.kvs
  | h + 1, t => inter t.kvs (t.edges.map (toList h))

@[simp] theorem toList_zero (t : Tree K V) : toList 0 t = t.kvs := rfl
theorem toList_succ (h : Nat) (t : Tree K V) : toList (h + 1) t = inter t.kvs (t.edges.map (toList h)) := rfl

/-- Contents of the pairs left of a child. -/
def preT (h : Nat) (A : List (K × V)) (X : List (Tree K V)) := pre A (X.map (toList h))
/-- Contents of the pairs right of a child. -/
def postT (h : Nat) (C : List (K × V)) (Y : List (Tree K V)) := post C (Y.map (toList h))

@[simp] theorem preT_nil (h : Nat) (X : List (Tree K V)) : preT h [] X = [] := by simp [preT]
@[simp] theorem postT_nil (h : Nat) (X : List (Tree K V)) : postT h [] X = [] := by simp [postT]
@[simp] theorem preT_cons (h : Nat) (k : K × V) (A : List (K × V)) (c : Tree K V) (X : List (Tree K V)) :
    preT h (k :: A) (c :: X) = toList h c ++ k :: preT h A X := by simp [preT]
@[simp] theorem postT_cons (h : Nat) (k : K × V) (A : List (K × V)) (c : Tree K V) (X : List (Tree K V)) :
    postT h (k :: A) (c :: X) = k :: (toList h c ++ postT h A X) := by simp [postT]
theorem preT_append {h : Nat} {A C : List (K × V)} {X Y : List (Tree K V)} (hX : X.length = A.length) :
    preT h (A ++ C) (X ++ Y) = preT h A X ++ preT h C Y := by
  simp only [preT, List.map_append]; exact pre_append (by simpa)
theorem postT_append {h : Nat} {A C : List (K × V)} {X Y : List (Tree K V)} (hX : X.length = A.length) :
    postT h (A ++ C) (X ++ Y) = postT h A X ++ postT h C Y := by
  simp only [postT, List.map_append]; exact post_append (by simpa)

theorem toList_split {h : Nat} {A C : List (K × V)} {X Y : List (Tree K V)} {c : Tree K V}
    (hX : X.length = A.length) :
    toList (h + 1) ⟨A ++ C, X ++ c :: Y⟩ = preT h A X ++ (toList h c ++ postT h C Y) := by
  simp only [toList_succ, List.map_append, List.map_cons]
  exact inter_split _ (by simpa)

theorem toList_split_kv {h : Nat} {A C : List (K × V)} {X Y : List (Tree K V)} {l r : Tree K V} {kv : K × V}
    (hX : X.length = A.length) :
    toList (h + 1) ⟨A ++ kv :: C, X ++ l :: r :: Y⟩ =
      preT h A X ++ (toList h l ++ (kv :: (toList h r ++ postT h C Y))) := by
  rw [toList_split hX]; simp

/-! ### shape -/

/-- Shape of everything below a node of height `h`: a leaf has no edges; an internal node has one more edge than
pairs, and every child has between `lo` and 11 pairs and the same shape one level down. -/
def BelowN (lo : Nat) : Nat → Tree K V → Prop
  | 0, t => t.edges = []
  | h + 1, t => t.edges.length = t.len + 1 ∧ ∀ c ∈ t.edges, lo ≤ c.len ∧ c.len ≤ 11 ∧ BelowN lo h c

/-- The shape of the trees the API builds: every child has between 4 and 11 pairs. -/
abbrev Below (h : Nat) (t : Tree K V) : Prop := BelowN 4 h t

/-- A non-root node with at least `lo` pairs. -/
def InnerN (lo h : Nat) (t : Tree K V) : Prop := lo ≤ t.len ∧ t.len ≤ 11 ∧ BelowN lo h t

/-- A non-root node. -/
abbrev Inner (h : Nat) (t : Tree K V) : Prop := InnerN 4 h t

/-- A root node: at most 11 pairs, at least `rt` unless it is a leaf. -/
def RootN (lo rt h : Nat) (t : Tree K V) : Prop := t.len ≤ 11 ∧ (0 < h → rt ≤ t.len) ∧ BelowN lo h t

/-- A root node: at most 11 pairs, at least one unless it is a leaf. -/
abbrev RootOK (h : Nat) (t : Tree K V) : Prop := RootN 4 1 h t

theorem Below_succ {h : Nat} {t : Tree K V} :
    Below (h + 1) t ↔ t.edges.length = t.len + 1 ∧ ∀ c ∈ t.edges, Inner h c := Iff.rfl

theorem Inner.root {h : Nat} {t : Tree K V} (ht : Inner h t) : RootOK h t :=
  ⟨ht.2.1, fun _ => by have := ht.1; omega, ht.2.2⟩

/-- Split a node at edge `i`. -/
theorem split_edge {t : Tree K V} {i : Nat} (he : t.edges.length = t.len + 1) (hi : i ≤ t.len) :
    ∃ A C X c Y, t = ⟨A ++ C, X ++ c :: Y⟩ ∧ A.length = i ∧ X.length = i ∧ Y.length = C.length := by
  obtain ⟨kvs, edges⟩ := t
  simp only [Tree.len] at he hi
  refine ⟨kvs.take i, kvs.drop i, edges.take i, edges[i]'(by omega), edges.drop (i + 1), ?_, ?_, ?_, ?_⟩
  · simp
  · simp; omega
  · simp; omega
  · simp; omega

/-- Split a node at pair `i`. -/
theorem split_kv {t : Tree K V} {i : Nat} (he : t.edges.length = t.len + 1) (hi : i < t.len) :
    ∃ A kv C X l r Y, t = ⟨A ++ kv :: C, X ++ l :: r :: Y⟩ ∧ A.length = i ∧ X.length = i ∧
      Y.length = C.length := by
  obtain ⟨A, C, X, l, Y, rfl, hA, hX, hY⟩ := split_edge he (Nat.le_of_lt hi)
  cases C with
  | nil => simp [Tree.len] at hi; omega
  | cons kv C =>
    cases Y with
    | nil => simp at hY
    | cons r Y => exact ⟨A, kv, C, X, l, r, Y, rfl, hA, hX, by simpa using hY⟩

@[simp] theorem len_mk (kvs : List (K × V)) (es : List (Tree K V)) : (Tree.mk kvs es).len = kvs.length := rfl

/-! ### positions -/

/-- `EdgeAt h t p idx A B`: leaf edge `idx` of the leaf reached by path `p` splits the contents of `t` into `A`
(before) and `B` (after). -/
inductive EdgeAt : Nat → Tree K V → List Nat → Nat → List (K × V) → List (K × V) → Prop
  | leaf (A B : List (K × V)) : EdgeAt 0 ⟨A ++ B, []⟩ [] A.length A B
  | child {h : Nat} {c : Tree K V} {p : List Nat} {idx : Nat} {A B : List (K × V)}
      (A0 C0 : List (K × V)) (X Y : List (Tree K V))
      (hX : X.length = A0.length) (hY : Y.length = C0.length) (hc : EdgeAt h c p idx A B) :
      EdgeAt (h + 1) ⟨A0 ++ C0, X ++ c :: Y⟩ (X.length :: p) idx (preT h A0 X ++ A) (B ++ postT h C0 Y)

/-- `KvAt h t p idx A kv B`: the pair `idx` of the node reached by path `p` is `kv`, with contents `A` before it and `B`
after it. -/
inductive KvAt : Nat → Tree K V → List Nat → Nat → List (K × V) → K × V → List (K × V) → Prop
  | leaf (A : List (K × V)) (kv : K × V) (B : List (K × V)) :
      KvAt 0 ⟨A ++ kv :: B, []⟩ [] A.length A kv B
  | node {h : Nat} (A0 : List (K × V)) (kv : K × V) (C0 : List (K × V)) (X : List (Tree K V)) (l r : Tree K V)
      (Y : List (Tree K V)) (hX : X.length = A0.length) (hY : Y.length = C0.length) :
      KvAt (h + 1) ⟨A0 ++ kv :: C0, X ++ l :: r :: Y⟩ [] A0.length (preT h A0 X ++ toList h l) kv
        (toList h r ++ postT h C0 Y)
  | child {h : Nat} {c : Tree K V} {p : List Nat} {idx : Nat} {A B : List (K × V)} {kv : K × V}
      (A0 C0 : List (K × V)) (X Y : List (Tree K V))
      (hX : X.length = A0.length) (hY : Y.length = C0.length) (hc : KvAt h c p idx A kv B) :
      KvAt (h + 1) ⟨A0 ++ C0, X ++ c :: Y⟩ (X.length :: p) idx (preT h A0 X ++ A) kv (B ++ postT h C0 Y)

theorem EdgeAt.toList_eq {h : Nat} {t : Tree K V} {p idx A B} (he : EdgeAt h t p idx A B) :
    toList h t = A ++ B := by
  induction he with
  | leaf A B => rfl
  | child A0 C0 X Y hX hY hc ih => rw [toList_split hX, ih]; simp

theorem KvAt.toList_eq {h : Nat} {t : Tree K V} {p idx A kv B} (he : KvAt h t p idx A kv B) :
    toList h t = A ++ kv :: B := by
  induction he with
  | leaf A kv B => rfl
  | node A0 kv C0 X l r Y hX hY => rw [toList_split_kv hX]; simp
  | child A0 C0 X Y hX hY hc ih => rw [toList_split hX, ih]; simp

end Verif.BTree
