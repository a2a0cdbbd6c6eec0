import Verif.Heap.Sep
import Verif.Heap.Map
import Verif.Heap.Proofs.Slots
/-
Trees in memory: the assertion that a piece of memory consists exactly of the nodes of a given tree, with every header,
every slot and every parent link right.
-/
namespace Verif.Heap
open Verif
open Verif.BTree (B MIN_LEN CAPACITY Tree)

variable {K V α β : Type}

/-- A level-1 tree together with the address of every node. -/
structure ATree (K V : Type) where
  addr : Addr
  kvs : List (K × V)
  edges : List (ATree K V)

/-- Forget the addresses. -/
def ATree.erase : ATree K V → Tree K V
  | ⟨_, kvs, es⟩ => ⟨kvs, es.attach.map fun x => ATree.erase x.1⟩
termination_by t => sizeOf t
decreasing_by
  have := List.sizeOf_lt_of_mem x.2
  simp only [ATree.mk.sizeOf_spec]; omega

theorem ATree.erase_mk {a : Addr} {kvs : List (K × V)} {es : List (ATree K V)} :
    (⟨a, kvs, es⟩ : ATree K V).erase = ⟨kvs, es.map ATree.erase⟩ := by
  rw [ATree.erase]; simp
@[simp] theorem ATree.erase_kvs (t : ATree K V) : t.erase.kvs = t.kvs := by cases t; rw [ATree.erase_mk]
@[simp] theorem ATree.erase_edges (t : ATree K V) : t.erase.edges = t.edges.map ATree.erase := by
  cases t; rw [ATree.erase_mk]
@[simp] theorem ATree.erase_len (t : ATree K V) : t.erase.len = t.kvs.length := by simp [Tree.len]

/-- The header fields `parent` and `parent_idx`. -/
abbrev Link := Option Addr × Option Nat

/-- The allocation type of a node of height `h`. -/
def layOf : Nat → Layout
  | 0 => .leaf
  | _ + 1 => .internal

/-- A node in memory: `s` holds key and value of each slot. -/
def cell (lay : Layout) (l : Link) (len : Nat) (s : Slots (K × V)) (es : Slots Addr) : Node K V :=
  ⟨lay, l.1, l.2, len, s.map (·.1), s.map (·.2), es⟩

/-- A node in memory with pairs `kvs` and edges to `as`. -/
abbrev nd (lay : Layout) (l : Link) (kvs : List (K × V)) (as : List Addr) : Node K V :=
  cell lay l kvs.length (.ofList kvs) (.ofList as)

/-- The addresses of a list of trees. -/
abbrev addrs (cs : List (ATree K V)) : List Addr := cs.map (·.addr)

/-- The root node of a tree as it is in memory. -/
def ATree.node (l : Link) (h : Nat) (t : ATree K V) : Node K V := nd (layOf h) l t.kvs (addrs t.edges)

/-- Several things side by side. -/
def stars {ι : Type} (f : ι → HProp K V) : List ι → HProp K V
  | [] => emp
  | x :: xs => f x ∗ stars f xs

/-- The children `cs` of the node at `a`, from edge `i` on, with the parent links they should have. -/
def linked (a : Addr) : (i : Nat) → List (ATree K V) → List (Link × ATree K V)
  | _, [] => []
  | i, c :: cs => ((some a, some i), c) :: linked a (i + 1) cs

/-- Everything below the root node of a tree of height `h`. -/
def below : (h : Nat) → ATree K V → HProp K V
  | 0, t => fact (t.edges = [] ∧ t.kvs.length ≤ CAPACITY)
  | h + 1, t => fact (t.edges.length = t.kvs.length + 1 ∧ t.kvs.length ≤ CAPACITY) ∗
      stars (fun lc => pts lc.2.addr (lc.2.node lc.1 h) ∗ below h lc.2) (linked t.addr 0 t.edges)

/-- A whole tree of height `h` whose root node has parent link `l`. -/
def tree (l : Link) (h : Nat) (t : ATree K V) : HProp K V := pts t.addr (t.node l h) ∗ below h t

/-- Several trees of height `h` with given parent links. -/
def subs (h : Nat) (lcs : List (Link × ATree K V)) : HProp K V := stars (fun lc => tree lc.1 h lc.2) lcs

/-- The children of the node at `a`, from edge `i` on, properly linked. -/
abbrev kids (h : Nat) (a : Addr) (i : Nat) (cs : List (ATree K V)) : HProp K V := subs h (linked a i cs)

theorem below_zero (t : ATree K V) : below 0 t = fact (t.edges = [] ∧ t.kvs.length ≤ CAPACITY) := rfl
theorem below_succ (h : Nat) (t : ATree K V) :
    below (h + 1) t = (fact (t.edges.length = t.kvs.length + 1 ∧ t.kvs.length ≤ CAPACITY) ∗ kids h t.addr 0 t.edges) := rfl

theorem tree_zero (l : Link) (t : ATree K V) :
    tree l 0 t = (fact (t.edges = [] ∧ t.kvs.length ≤ CAPACITY) ∗ pts t.addr (t.node l 0)) := by
  rw [tree, below_zero, sep_comm]
theorem tree_succ (l : Link) (h : Nat) (t : ATree K V) :
    tree l (h + 1) t = (fact (t.edges.length = t.kvs.length + 1 ∧ t.kvs.length ≤ CAPACITY) ∗
      pts t.addr (t.node l (h + 1)) ∗ kids h t.addr 0 t.edges) := by
  rw [tree, below_succ, sep_left_comm]

theorem stars_append {ι : Type} (f : ι → HProp K V) (xs ys : List ι) :
    stars f (xs ++ ys) = (stars f xs ∗ stars f ys) := by
  induction xs with
  | nil => simp [stars]
  | cons x xs ih => simp only [List.cons_append, stars, ih, sep_assoc]

theorem linked_append (a : Addr) (i : Nat) (xs ys : List (ATree K V)) :
    linked a i (xs ++ ys) = linked a i xs ++ linked a (i + xs.length) ys := by
  induction xs generalizing i with
  | nil => simp [linked]
  | cons x xs ih =>
    simp only [List.cons_append, linked, ih, List.length_cons]
    rw [show i + 1 + xs.length = i + (xs.length + 1) by omega]

theorem linked_map_snd (a : Addr) (i : Nat) (xs : List (ATree K V)) : (linked a i xs).map (·.2) = xs := by
  induction xs generalizing i with
  | nil => rfl
  | cons x xs ih => simp [linked, ih]

theorem linked_length (a : Addr) (i : Nat) (xs : List (ATree K V)) : (linked a i xs).length = xs.length := by
  induction xs generalizing i with
  | nil => rfl
  | cons x xs ih => simp [linked, ih]

@[simp] theorem kids_nil (h : Nat) (a : Addr) (i : Nat) : (kids h a i [] : HProp K V) = emp := rfl
theorem kids_cons (h : Nat) (a : Addr) (i : Nat) (c : ATree K V) (cs : List (ATree K V)) :
    kids h a i (c :: cs) = (tree (some a, some i) h c ∗ kids h a (i + 1) cs) := rfl
theorem kids_append (h : Nat) (a : Addr) (i : Nat) (xs ys : List (ATree K V)) :
    kids h a i (xs ++ ys) = (kids h a i xs ∗ kids h a (i + xs.length) ys) := by
  rw [kids, linked_append, subs, stars_append]; rfl

/-! ### facts -/

/-- `P` contains the fact `φ`. -/
class HasFact (P : HProp K V) (φ : outParam Prop) (R : outParam (HProp K V)) : Prop where
  eq : P = (fact φ ∗ R)

instance (priority := 900) hasFactSelf (φ : Prop) : HasFact (fact φ : HProp K V) φ emp := ⟨(sep_emp _).symm⟩
instance (priority := 1000) hasFactHead (φ : Prop) (R : HProp K V) : HasFact (fact φ ∗ R) φ R := ⟨rfl⟩
instance (priority := 500) hasFactTail (φ : Prop) (A R R' : HProp K V) [h : HasFact R φ R'] :
    HasFact (A ∗ R) φ (A ∗ R') := ⟨by rw [h.eq, sep_left_comm]⟩

variable {E : String → Prop} {P R : HProp K V} {Q : α → HProp K V} {m : HM K V α}

/-- Take some fact out of the precondition. -/
theorem Triple.getFact {φ : Prop} [h : HasFact P φ R] (h' : φ → Triple E R m Q) : Triple E P m Q := by
  rw [h.eq]; exact Triple.ofFact h'

theorem Ent.fact_left {φ : Prop} {Y : HProp K V} (h : φ → Ent R Y) : Ent (fact φ ∗ R) Y := fun w hw =>
  h (fact_sep.1 hw).1 w (fact_sep.1 hw).2

theorem Ent.fact_right {φ : Prop} {X : HProp K V} (h : φ) (h' : Ent X R) : Ent X (fact φ ∗ R) := fun w hw =>
  fact_sep.2 ⟨h, h' w hw⟩

theorem Ent.putFact {φ : Prop} {X Y : HProp K V} [h : HasFact Y φ R] (hφ : φ) (h' : Ent X R) : Ent X Y := by
  rw [h.eq]; exact Ent.fact_right hφ h'

theorem Ent.getFact {φ : Prop} {X Y : HProp K V} [h : HasFact X φ R] (h' : φ → Ent R Y) : Ent X Y := by
  rw [h.eq]; exact Ent.fact_left h'

/-- Close an entailment between the same parts in a different order. -/
macro "ent_ac" : tactic => `(tactic|
  (refine Ent.of_eq ?_
   first
   | rfl
   | ac_rfl
   | (simp only [emp_sep, sep_emp, sep_assoc]; first | done | rfl | ac_rfl)))

theorem Ent.hex_right {ι : Type} {X : HProp K V} {Y : ι → HProp K V} (i : ι) (h : Ent X (Y i)) : Ent X (hex Y) :=
  fun w hw => ⟨i, h w hw⟩

theorem Triple.getHex {ι : Type} {P : ι → HProp K V} (h : ∀ i, Triple E (P i ∗ R) m Q) : Triple E (hex P ∗ R) m Q := by
  rw [hex_sep]; exact Triple.ofHex h

/-! ### parent links -/

/-- One link is corrected. -/
theorem correctParentLink_spec {a : Addr} {n : Node K V} {i h : Nat} {l : Link} {c : ATree K V}
    (hl : n.lay = .internal) (hi : i ≤ n.len) (hc : i < EDGES) (he : n.edges i = some c.addr) :
    Triple E (pts a n ∗ tree l h c) (correctParentLink a i) (fun _ => pts a n ∗ tree (some a, some i) h c) := by
  unfold correctParentLink
  refine Triple.bindGet ?_
  refine Triple.bindReq (by simpa using hi) ?_
  refine Triple.bindLift (a := c.addr) ?_ ?_
  · simp [Node.peekEdge, hl, Slots.peek, hc, he]
  · unfold tree
    refine Triple.at rfl ?_
    refine Ent.of_eq ?_
    show (pts c.addr (c.node (some a, some i) h) ∗ _) = _
    ac_rfl

/-- A run of links is corrected. -/
theorem correctLinks_spec {a : Addr} {n : Node K V} {h : Nat} (hl : n.lay = .internal) :
    ∀ (lcs : List (Link × ATree K V)) (i m : Nat), m = lcs.length → i + lcs.length ≤ n.len + 1 →
      i + lcs.length ≤ EDGES → (∀ k c, (lcs.map (·.2))[k]? = some c → n.edges (i + k) = some c.addr) →
      Triple E (pts a n ∗ subs h lcs) (correctLinks a i m)
        (fun _ => pts a n ∗ kids h a i (lcs.map (·.2)))
  | [], i, _, rfl, _, _, _ => Triple.ofPure (Ent.refl _)
  | (l, c) :: lcs, i, _, rfl, hlen, hcap, he => by
    have hlen' : i + lcs.length + 1 ≤ n.len + 1 := hlen
    have hcap' : i + lcs.length + 1 ≤ EDGES := hcap
    show Triple E (pts a n ∗ tree l h c ∗ subs h lcs) (correctParentLink a i >>= fun _ => correctLinks a (i + 1) lcs.length)
      (fun _ => pts a n ∗ tree (some a, some i) h c ∗ kids h a (i + 1) (lcs.map (·.2)))
    refine Triple.call (P₀ := pts a n ∗ tree l h c)
      (correctParentLink_spec hl (by omega) (by omega) (he 0 c rfl)) fun _ => ?_
    simp only [sep_assoc]
    refine Triple.callLast (P₀ := pts a n ∗ subs h lcs)
      (correctLinks_spec hl lcs (i + 1) lcs.length rfl (by omega) (by omega) fun k c hk => ?_) fun _ => ?_
    · rw [show i + 1 + k = i + (k + 1) by omega]
      exact he (k + 1) c (by simpa using hk)
    · refine Ent.of_eq ?_
      simp only [sep_emp, sep_assoc]
      ac_rfl

/-- `correctLinks` for a node in list form, on children that already have some links. -/
theorem correctLinks_nd {a : Addr} {n : Node K V} {h i m : Nat} {xs ys : List Addr} {lcs : List (Link × ATree K V)}
    {cs : List (ATree K V)} (hl : n.lay = .internal) (hcs : lcs.map (·.2) = cs) (hn : n.edges = .ofList (xs ++ addrs cs ++ ys))
    (hi : i = xs.length) (hm : m = cs.length) (hlen : i + cs.length ≤ n.len + 1) (hcap : i + cs.length ≤ EDGES) :
    Triple E (pts a n ∗ subs h lcs) (correctLinks a i m) (fun _ => pts a n ∗ kids h a i cs) := by
  have hcl : cs.length = lcs.length := by rw [← hcs, List.length_map]
  rw [← hcs]
  refine correctLinks_spec hl lcs i m (by omega) (by omega) (by omega) fun k c hk => ?_
  subst hi hcs
  rw [hn]
  have hk' : k < (lcs.map (·.2)).length := by
    rcases List.getElem?_eq_some_iff.1 hk with ⟨h, _⟩; exact h
  simp only [Slots.ofList, List.append_assoc]
  rw [List.getElem?_append_right (by omega), Nat.add_sub_cancel_left,
    List.getElem?_append_left (by simpa using hk'), List.getElem?_map, hk]
  rfl

end Verif.Heap
