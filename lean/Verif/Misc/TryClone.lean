import Verif.Misc.Boxed
import Verif.Misc.HashMap
import Verif.BTree.Bulk
/-
Model of `TryClone` and its implementations by nesting: src/try_clone.rs, src/boxed.rs:49-53, 76-81, src/vec.rs:169-174, 679-689,
src/hashmap.rs:105-120, src/btree/map.rs:139-217.  (In the crate `TryHashMap` and `BTreeMap` exist under opposite feature settings;
here they may even be nested in each other.)
-/
namespace Verif.Misc
open Verif

/-- `TryClone::try_clone` of a type, src/lib.rs:73-79: the result and the allocator afterwards, or a fault. -/
abbrev Cl (T : Type) := T → Alloc → Exec (Res T × Alloc)

/-- As the element cloner of the vector and hash map models. -/
def Cl.elem {T : Type} (c : Cl T) : Vec.Cloner T := fun x a =>
  match c x a with
  | .ok (r, a) => (.ok r, a)
  | .ub => (.error "undefined behaviour", a)
  | .panic m => (.error m, a)

/-- As the element cloner of the B-tree model, which has no panicking element clones; `C50` shows that no fault occurs. -/
def Cl.elemB {T : Type} (c : Cl T) : BTree.Cloner T := fun x a =>
  match c x a with
  | .ok (r, a) => (r, a)
  | .ub => (.error .allocError, a)
  | .panic _ => (.error .allocError, a)

/-- The outcome of a run that starts with empty logs, as a `try_clone` outcome. -/
def toCl {T S : Type} (f : S → T) : Exec (Res S) → Alloc → Exec (Res T × Alloc)
  | .ok (.ok x), a => .ok (.ok (f x), a)
  | .ok (.error e), a => .ok (.error e, a)
  | .ub, _ => .ub
  | .panic m, _ => .panic m

/-- Primitive types: src/try_clone.rs:6-20. -/
def primClone (T : Type) : Cl T := fun x a => .ok (.ok x, a)

/-- `Option`: src/try_clone.rs:22-30. -/
def optClone {T : Type} (c : Cl T) : Cl (Option T) := fun x a =>
  match x with
  | none => .ok (.ok none, a)
  | some t =>
    match c t a with
    | .ok (.ok t', a) => .ok (.ok (some t'), a)
    | .ok (.error e, a) => .ok (.error e, a)
    | .ub => .ub
    | .panic m => .panic m

/-- `Box`, `TryBox`: a box is represented by its content. -/
def boxClone {T : Type} (e : Vec.Env T) (c : Cl T) : Cl T := fun x a =>
  let r := boxTryClone e c.elem ⟨1, x⟩ ⟨a, 0, [], [], []⟩
  toCl Boxed.content r.1 r.2.alloc

/-- `Vec`, `TryVec`: a vector is represented by its list of elements. -/
def vecClone {T : Type} (e : Vec.Env T) (c : Cl T) : Cl (List T) := fun x a =>
  let r := Vec.tryCloneSlice e c.elem x ⟨a, 0, [], [], []⟩
  toCl Vec.RawVec.items r.1 r.2.alloc

/-- `TryHashMap`. -/
def hashClone {K V σ : Type} [BEq K] (e : HEnv K V σ) (ck : Cl K) (cv : Cl V) : Cl (HMap K V σ) := fun x a =>
  let r := tryHashClone e ck.elem cv.elem x ⟨a, 0, [], []⟩
  toCl id r.1 r.2.alloc

/-- `BTreeMap`. -/
def treeClone {K V : Type} (ck : Cl K) (cv : Cl V) : Cl (BTree.Map K V) := fun x a =>
  x.tryClone ck.elemB cv.elemB a

/-- Types of keys: primitive types and what is built from them. -/
inductive KTy where
  | prim
  | opt (k : KTy)
  | box (k : KTy)
  | vec (k : KTy)

/-- Types with `try_clone`, nested to any depth. -/
inductive Ty where
  | key (k : KTy)
  | opt (t : Ty)
  | box (t : Ty)
  | vec (t : Ty)
  | hashMap (k : KTy) (t : Ty)
  | treeMap (k : KTy) (t : Ty)

/-- Their values. -/
def KVal : KTy → Type
  | .prim => Nat
  | .opt k => Option (KVal k)
  | .box k => KVal k
  | .vec k => List (KVal k)

/-- Their values. -/
def Val (σ : Type) : Ty → Type
  | .key k => KVal k
  | .opt t => Option (Val σ t)
  | .box t => Val σ t
  | .vec t => List (Val σ t)
  | .hashMap k t => HMap (KVal k) (Val σ t) σ
  | .treeMap k t => BTree.Map (KVal k) (Val σ t)

/-- The target and the hash table behaviour for each type. -/
structure Target (σ : Type) where
  kelem : ∀ k, Vec.Env (KVal k)
  elem : ∀ t, Vec.Env (Val σ t)
  hash : ∀ k t, HEnv (KVal k) (Val σ t) σ

/-- `try_clone` of a key type. -/
def kclone {σ : Type} (g : Target σ) : (k : KTy) → Cl (KVal k)
  | .prim => primClone Nat
  | .opt k => optClone (kclone g k)
  | .box k => boxClone (g.kelem k) (kclone g k)
  | .vec k => vecClone (g.kelem k) (kclone g k)

/-- `try_clone` of any type. -/
def clone {σ : Type} [∀ k, BEq (KVal k)] (g : Target σ) : (t : Ty) → Cl (Val σ t)
  | .key k => kclone g k
  | .opt t => optClone (clone g t)
  | .box t => boxClone (g.elem t) (clone g t)
  | .vec t => vecClone (g.elem t) (clone g t)
  | .hashMap k t => hashClone (g.hash k t) (kclone g k) (clone g t)
  | .treeMap k t => treeClone (kclone g k) (clone g t)

end Verif.Misc
