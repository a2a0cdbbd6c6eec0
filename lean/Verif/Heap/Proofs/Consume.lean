import Verif.Heap.Proofs.RemoveMap
import Verif.BTree.Proofs.MapOps
/-
Partially consumed trees: what an `IntoIter` is looking at.
-/
namespace Verif.Heap
open Verif
open Verif.BTree (B MIN_LEN CAPACITY Tree Handle setE sliceInsert sliceRemove Map emptyLeaf inter)

variable {K V Q α β : Type} {E : String → Prop}

/-- A tree of which an `IntoIter` has already given out a part at either end: the pairs and edges left of `kvs` and
`kids` (as many as `pre` is long) and right of them (`post`) are gone; the edges still point to where they did.  In a
leaf, `pre` and `post` only count. -/
structure PT (K V : Type) where
  addr : Addr
  pre : List Addr
  kvs : List (K × V)
  kids : List (PT K V)
  post : List Addr

namespace PT

/-- The `len` field, which does not change. -/
def len (p : PT K V) : Nat := p.pre.length + p.kvs.length + p.post.length

/-- The edge slots. -/
def edges : Nat → PT K V → List Addr
  | 0, _ => []
  | _ + 1, p => p.pre ++ (p.kids.map (·.addr) ++ p.post)

/-- The root node as it is in memory. -/
def node (l : Link) (h : Nat) (p : PT K V) : Node K V :=
  cell (layOf h) l p.len (.shifted p.pre.length p.kvs) (.ofList (p.edges h))

/-- The children with the parent links they should have. -/
def linked (a : Addr) : (i : Nat) → List (PT K V) → List (Link × PT K V)
  | _, [] => []
  | i, c :: cs => ((some a, some i), c) :: linked a (i + 1) cs

/-- Everything under the root node. -/
def under : (h : Nat) → PT K V → HProp K V
  | 0, p => fact (p.len ≤ CAPACITY)
  | h + 1, p => fact (p.len ≤ CAPACITY) ∗
      stars (fun lc => pts lc.2.addr (lc.2.node lc.1 h) ∗ under h lc.2) (linked p.addr p.pre.length p.kids)

/-- A whole partially consumed mem. -/
def mem (l : Link) (h : Nat) (p : PT K V) : HProp K V := pts p.addr (p.node l h) ∗ under h p

/-- Children. -/
abbrev sub (h : Nat) (a : Addr) (i : Nat) (cs : List (PT K V)) : HProp K V := stars (fun lc => mem lc.1 h lc.2) (linked a i cs)

/-- What is left, in order. -/
def list : Nat → PT K V → List (K × V)
  | 0, p => p.kvs
  | h + 1, p => inter p.kvs (p.kids.map (list h))

/-- Where the front of the iterator is. -/
def first : Nat → PT K V → HRef
  | 0, p => ⟨0, p.addr, p.pre.length⟩
  | h + 1, p => match p.kids with
    | c :: _ => first h c
    | [] => ⟨0, 0, 0⟩

/-- Where the back of the iterator is. -/
def last : Nat → PT K V → HRef
  | 0, p => ⟨0, p.addr, p.pre.length + p.kvs.length⟩
  | h + 1, p => match p.kids.getLast? with
    | some c => last h c
    | none => ⟨0, 0, 0⟩

/-- Nothing is missing at the left end. -/
def LeftFull : Nat → PT K V → Prop
  | 0, p => p.pre = []
  | h + 1, p => p.pre = [] ∧ ∀ c, p.kids.head? = some c → LeftFull h c

/-- Nothing is missing at the right end. -/
def RightFull : Nat → PT K V → Prop
  | 0, p => p.post = []
  | h + 1, p => p.post = [] ∧ ∀ c, p.kids.getLast? = some c → RightFull h c

/-- Things are missing only at the two ends. -/
def Good : Nat → PT K V → Prop
  | 0, _ => True
  | h + 1, p => p.kids.length = p.kvs.length + 1 ∧ (∀ c ∈ p.kids.tail, LeftFull h c) ∧ (∀ c ∈ p.kids.dropLast, RightFull h c) ∧
      ∀ c ∈ p.kids, Good h c

/-- The first pair and what is left without it. -/
def popFront : Nat → PT K V → Option ((K × V) × PT K V)
  | 0, p => match p.kvs with
    | kv :: r => some (kv, { p with pre := p.pre ++ [SHARED], kvs := r })
    | [] => none
  | h + 1, p => match p.kids with
    | [] => none
    | c :: cs => match popFront h c with
      | some (kv, c') => some (kv, { p with kids := c' :: cs })
      | none => match p.kvs with
        | kv :: r => some (kv, { p with pre := p.pre ++ [c.addr], kvs := r, kids := cs })
        | [] => none

/-! ### the first pair -/

theorem Good.kids_cons {h : Nat} {p : PT K V} (hg : Good (h + 1) p) : ∃ c cs, p.kids = c :: cs ∧ cs.length = p.kvs.length := by
  obtain ⟨h1, _⟩ := hg
  cases hk : p.kids with
  | nil => simp [hk] at h1
  | cons c cs => exact ⟨c, cs, rfl, by simpa [hk] using h1⟩

theorem popFront_addr : ∀ {h : Nat} {p p' : PT K V} {kv : K × V}, popFront h p = some (kv, p') → p'.addr = p.addr
  | 0, p, p', kv, hp => by
    simp only [popFront] at hp
    split at hp
    · simp only [Option.some.injEq, Prod.mk.injEq] at hp; obtain ⟨_, rfl⟩ := hp; rfl
    · cases hp
  | h + 1, p, p', kv, hp => by
    simp only [popFront] at hp
    split at hp
    · cases hp
    · split at hp
      · simp only [Option.some.injEq, Prod.mk.injEq] at hp; obtain ⟨_, rfl⟩ := hp; rfl
      · split at hp
        · simp only [Option.some.injEq, Prod.mk.injEq] at hp; obtain ⟨_, rfl⟩ := hp; rfl
        · cases hp

theorem popFront_none : ∀ {h : Nat} {p : PT K V}, Good h p → popFront h p = none → list h p = []
  | 0, p, _, hp => by
    simp only [popFront] at hp
    split at hp
    · cases hp
    · assumption
  | h + 1, p, hg, hp => by
    obtain ⟨c, cs, hk, hl⟩ := hg.kids_cons
    simp only [popFront, hk] at hp
    split at hp
    · cases hp
    · next hc =>
      split at hp
      · cases hp
      · next hkv =>
        have : list h c = [] := popFront_none (hg.2.2.2 c (by simp [hk])) hc
        simp [list, hk, hkv, inter, this]

theorem popFront_list : ∀ {h : Nat} {p p' : PT K V} {kv : K × V}, Good h p → popFront h p = some (kv, p') → list h p = kv :: list h p'
  | 0, p, p', kv, _, hp => by
    simp only [popFront] at hp
    split at hp
    · next hk =>
      simp only [Option.some.injEq, Prod.mk.injEq] at hp; obtain ⟨rfl, rfl⟩ := hp
      simp [list, hk]
    · cases hp
  | h + 1, p, p', kv, hg, hp => by
    obtain ⟨c, cs, hk, hl⟩ := hg.kids_cons
    have hgc := hg.2.2.2 c (by simp [hk])
    simp only [popFront, hk] at hp
    split at hp
    · next kv1 c' hc =>
      simp only [Option.some.injEq, Prod.mk.injEq] at hp; obtain ⟨rfl, rfl⟩ := hp
      have := popFront_list hgc hc
      simp [list, hk, inter, this]
    · next hc =>
      split at hp
      · next kv1 r hkv =>
        simp only [Option.some.injEq, Prod.mk.injEq] at hp; obtain ⟨rfl, rfl⟩ := hp
        have := popFront_none hgc hc
        rw [hkv] at hl
        match cs, hl with
        | c2 :: cs, _ => simp [list, hk, hkv, inter, this]
      · cases hp

theorem popFront_right : ∀ {h : Nat} {p p' : PT K V} {kv : K × V}, Good h p → popFront h p = some (kv, p') → RightFull h p → RightFull h p'
  | 0, p, p', kv, _, hp, hr => by
    simp only [popFront] at hp
    split at hp
    · simp only [Option.some.injEq, Prod.mk.injEq] at hp; obtain ⟨_, rfl⟩ := hp; exact hr
    · cases hp
  | h + 1, p, p', kv, hg, hp, hr => by
    obtain ⟨c, cs, hk, hl⟩ := hg.kids_cons
    have hgc := hg.2.2.2 c (by simp [hk])
    simp only [popFront, hk] at hp
    obtain ⟨hr1, hr2⟩ := hr
    rw [hk] at hr2
    split at hp
    · next kv1 c' hc =>
      simp only [Option.some.injEq, Prod.mk.injEq] at hp; obtain ⟨rfl, rfl⟩ := hp
      refine ⟨hr1, ?_⟩
      cases cs with
      | nil =>
        intro d hd
        simp only [List.getLast?_singleton, Option.some.injEq] at hd
        subst hd
        exact popFront_right hgc hc (hr2 c (by simp))
      | cons c2 cs =>
        intro d hd
        exact hr2 d (by simpa [List.getLast?_cons_cons] using hd)
    · next hc =>
      split at hp
      · next kv1 r hkv =>
        simp only [Option.some.injEq, Prod.mk.injEq] at hp; obtain ⟨rfl, rfl⟩ := hp
        rw [hkv] at hl
        match cs, hl with
        | c2 :: cs, _ =>
          refine ⟨hr1, fun d hd => hr2 d (by simpa [List.getLast?_cons_cons] using hd)⟩
      · cases hp

theorem popFront_good : ∀ {h : Nat} {p p' : PT K V} {kv : K × V}, Good h p → popFront h p = some (kv, p') → Good h p'
  | 0, p, p', kv, _, hp => trivial
  | h + 1, p, p', kv, hg, hp => by
    obtain ⟨c, cs, hk, hl⟩ := hg.kids_cons
    obtain ⟨_, g1, g2, g3⟩ := hg
    have hgc := g3 c (by simp [hk])
    simp only [popFront, hk] at hp
    rw [hk] at g1 g2 g3
    split at hp
    · next kv1 c' hc =>
      simp only [Option.some.injEq, Prod.mk.injEq] at hp; obtain ⟨rfl, rfl⟩ := hp
      refine ⟨by simp [hl], g1, ?_, ?_⟩
      · cases cs with
        | nil => simp
        | cons c2 cs =>
          intro d hd
          simp only [List.dropLast_cons_cons, List.mem_cons] at hd
          rcases hd with rfl | hd
          · exact popFront_right hgc hc (g2 c (by simp))
          · exact g2 d (by simp only [List.dropLast_cons_cons, List.mem_cons]; exact .inr hd)
      · intro d hd
        rcases List.mem_cons.1 hd with rfl | hd
        · exact popFront_good hgc hc
        · exact g3 d (List.mem_cons_of_mem _ hd)
    · next hc =>
      split at hp
      · next kv1 r hkv =>
        simp only [Option.some.injEq, Prod.mk.injEq] at hp; obtain ⟨rfl, rfl⟩ := hp
        rw [hkv] at hl
        match cs, hl with
        | c2 :: cs, hl =>
          refine ⟨by simpa using hl, fun d hd => g1 d (List.mem_cons_of_mem _ hd), fun d hd => g2 d ?_, fun d hd => g3 d (List.mem_cons_of_mem _ hd)⟩
          simp only [List.dropLast_cons_cons, List.mem_cons]
          exact .inr hd
      · cases hp

theorem popFront_last : ∀ {h : Nat} {p p' : PT K V} {kv : K × V}, Good h p → popFront h p = some (kv, p') → last h p' = last h p
  | 0, p, p', kv, _, hp => by
    simp only [popFront] at hp
    split at hp
    · next hk =>
      simp only [Option.some.injEq, Prod.mk.injEq] at hp; obtain ⟨rfl, rfl⟩ := hp
      simp only [last, hk, List.length_append, List.length_cons, List.length_nil, HRef.mk.injEq, true_and]
      omega
    · cases hp
  | h + 1, p, p', kv, hg, hp => by
    obtain ⟨c, cs, hk, hl⟩ := hg.kids_cons
    have hgc := hg.2.2.2 c (by simp [hk])
    simp only [popFront, hk] at hp
    split at hp
    · next kv1 c' hc =>
      simp only [Option.some.injEq, Prod.mk.injEq] at hp; obtain ⟨rfl, rfl⟩ := hp
      cases cs with
      | nil => simp [last, hk, popFront_last hgc hc]
      | cons c2 cs => simp [last, hk, List.getLast?_cons_cons]
    · next hc =>
      split at hp
      · next kv1 r hkv =>
        simp only [Option.some.injEq, Prod.mk.injEq] at hp; obtain ⟨rfl, rfl⟩ := hp
        rw [hkv] at hl
        match cs, hl with
        | c2 :: cs, _ => simp [last, hk, List.getLast?_cons_cons]
      · cases hp

/-! ### in memory -/

theorem mem_leaf (l : Link) (p : PT K V) :
    mem l 0 p = (fact (p.len ≤ CAPACITY) ∗ pts p.addr (cell .leaf l p.len (.shifted p.pre.length p.kvs) (.ofList []))) := by
  rw [mem, under, sep_comm]; rfl

theorem mem_cons (l : Link) (h : Nat) (a : Addr) (pre post : List Addr) (kvs : List (K × V)) (c : PT K V) (cs : List (PT K V)) :
    mem l (h + 1) ⟨a, pre, kvs, c :: cs, post⟩ = (fact (pre.length + kvs.length + post.length ≤ CAPACITY) ∗
      pts a (cell .internal l (pre.length + kvs.length + post.length) (.shifted pre.length kvs)
        (.ofList (pre ++ (c.addr :: (cs.map (·.addr) ++ post))))) ∗ mem (some a, some pre.length) h c ∗ sub h a (pre.length + 1) cs) := by
  rw [mem, under, sep_left_comm]; rfl

theorem linked_append (a : Addr) (i : Nat) (xs ys : List (PT K V)) :
    linked a i (xs ++ ys) = linked a i xs ++ linked a (i + xs.length) ys := by
  induction xs generalizing i with
  | nil => simp [linked]
  | cons x xs ih =>
    simp only [List.cons_append, linked, ih, List.length_cons]
    rw [show i + 1 + xs.length = i + (xs.length + 1) by omega]

theorem mem_snoc (l : Link) (h : Nat) (a : Addr) (pre post : List Addr) (kvs : List (K × V)) (c : PT K V) (cs : List (PT K V)) :
    mem l (h + 1) ⟨a, pre, kvs, cs ++ [c], post⟩ = (fact (pre.length + kvs.length + post.length ≤ CAPACITY) ∗
      pts a (cell .internal l (pre.length + kvs.length + post.length) (.shifted pre.length kvs)
        (.ofList (pre ++ (cs.map (·.addr) ++ (c.addr :: post))))) ∗ sub h a pre.length cs ∗ mem (some a, some (pre.length + cs.length)) h c) := by
  rw [mem, under, sep_left_comm]
  dsimp only
  rw [linked_append, stars_append]
  have h1 : stars (fun lc : Link × PT K V => pts lc.2.addr (lc.2.node lc.1 h) ∗ under h lc.2) (linked a (pre.length + cs.length) [c])
      = mem (some a, some (pre.length + cs.length)) h c := sep_emp _
  rw [h1]
  have h2 : (⟨a, pre, kvs, cs ++ [c], post⟩ : PT K V).edges (h + 1) = pre ++ (cs.map (·.addr) ++ (c.addr :: post)) := by
    simp [edges]
  rw [node, h2]
  rfl


end PT

/-! ### the front -/

theorem Slots.take_shifted_last {c : List α} {x : α} {cap k i : Nat} (hi : i = k + c.length) (hc : i < cap) :
    (Slots.shifted k (c ++ [x])).take cap i = .ok (x, Slots.shifted k c) := by
  subst hi
  have h : Slots.shifted k (c ++ [x]) (k + c.length) = some x := by simp [Slots.shifted]
  simp only [Slots.take, hc, if_true, h]
  congr 2
  slot_ext

/-- Taking a pair out of a node. -/
theorem Triple.bindReadKv {P R : HProp K V} {Qb : β → HProp K V} {f : K × V → HM K V β} {a : Addr} {ht i len : Nat} {lay : Layout}
    {l : Link} {s s' : Slots (K × V)} {es : Slots Addr} {kv : K × V} [hp : HasPts a P (cell lay l len s es) R]
    (hi : i < len) (ht' : s.take CAPACITY i = .ok (kv, s'))
    (h : Triple E (pts a (cell lay l len s' es) ∗ R) (f kv) Qb) : Triple E P (readKv ⟨ht, a, i⟩ >>= f) Qb := by
  unfold readKv
  refine Triple.bindAt (x := kv) (n' := cell lay l len s' es) ?_ h
  have h1 : i < (cell lay l len s es).len := hi
  simp only [require, decide_eq_true_eq, h1, if_true, Exec.ok_bind, cell_takeKv ht']

/-- Freeing a node and going to its parent. -/
theorem Triple.bindDealloc {P R : HProp K V} {Qb : β → HProp K V} {f : Option HRef → HM K V β} {a p : Addr} {i ht : Nat} {n : Node K V}
    [hp : HasPts a P n R] (h1 : n.parent = some p) (h2 : n.pidx = some i) (hl : n.lay = layOf ht)
    (h : Triple E R (f (some ⟨ht + 1, p, i⟩)) Qb) : Triple E P (deallocateAndAscend ⟨ht, a⟩ >>= f) Qb := by
  have e := hp.eq
  rw [e]
  refine Triple.pre ?_ (Ent.frame pts_pos R)
  rw [sep_assoc]
  refine Triple.ofFact fun ha => ?_
  unfold deallocateAndAscend
  refine Triple.assoc ?_
  refine Triple.bindReq (by simpa using ha) ?_
  refine Triple.assoc ?_
  refine Triple.bindAscend (a := a) h1 h2 ?_
  refine Triple.assoc ?_
  refine Triple.bindFree (a := a) (by rw [hl]; cases ht <;> rfl) ?_
  exact h

/-- Freeing the root. -/
theorem Triple.bindDeallocNone {P R : HProp K V} {Qb : β → HProp K V} {f : Option HRef → HM K V β} {a : Addr} {ht : Nat} {n : Node K V}
    [hp : HasPts a P n R] (h1 : n.parent = none) (hl : n.lay = layOf ht)
    (h : Triple E R (f none) Qb) : Triple E P (deallocateAndAscend ⟨ht, a⟩ >>= f) Qb := by
  have e := hp.eq
  rw [e]
  refine Triple.pre ?_ (Ent.frame pts_pos R)
  rw [sep_assoc]
  refine Triple.ofFact fun ha => ?_
  unfold deallocateAndAscend
  refine Triple.assoc ?_
  refine Triple.bindReq (by simpa using ha) ?_
  refine Triple.assoc ?_
  refine Triple.bindAscendNone (a := a) h1 ?_
  refine Triple.assoc ?_
  refine Triple.bindFree (a := a) (by rw [hl]; cases ht <;> rfl) ?_
  exact h

theorem firstLeafEdge_pt : ∀ {h : Nat} {l : Link} {p : PT K V}, p.LeftFull h → p.Good h →
    Triple E (p.mem l h) (firstLeafEdge h p.addr) (fun r => fact (r = p.first h) ∗ p.mem l h)
  | 0, l, p, hf, hg => by
    obtain ⟨a, pre, kvs, ks, post⟩ := p
    simp only [PT.LeftFull] at hf
    subst hf
    unfold firstLeafEdge PT.mem
    refine Triple.last ?_
    refine Triple.bindNewEdge (Nat.zero_le _) ?_
    exact Triple.ofPure (Ent.putFact rfl (Ent.refl _))
  | h + 1, l, p, hf, hg => by
    obtain ⟨c, cs, hk, hl⟩ := hg.kids_cons
    have hgc := hg.2.2.2 c (by simp [hk])
    have hfc := hf.2 c (by simp [hk])
    obtain ⟨a, pre, kvs, ks, post⟩ := p
    dsimp only at hk
    subst hk
    have hp := hf.1
    dsimp only at hp
    subst hp
    rw [PT.mem_cons]
    refine Triple.getFact fun hcap => ?_
    unfold firstLeafEdge
    refine Triple.bindNewEdge (a := a) (Nat.zero_le _) ?_
    refine Triple.bindDescend (a := a) (c := c.addr) rfl (by decide) ?_
    refine Triple.callLast (P₀ := c.mem (some a, some 0) h) (firstLeafEdge_pt hfc hgc) fun r => ?_
    rw [sep_assoc]
    refine Ent.fact_left fun e => ?_
    refine Ent.fact_right e ?_
    refine Ent.fact_right hcap ?_
    ent_ac

/-- `IntoIter::next` inside a subtree of height `h`: go up until there is a pair to the right, or out of the subtree. -/
def nextUp : (h : Nat) → HRef → HM K V (HRef ⊕ ((K × V) × HRef))
  | 0, e => do
    let len ← lenOf e.node
    if e.idx < len then do
      let kv ← readKv e
      let f ← newEdge e.ref (e.idx + 1)
      pure (.inr (kv, f))
    else do
      let p ← deallocateAndAscend e.ref
      match p with
      | none => HM.ub
      | some p => pure (.inl p)
  | h + 1, e => nextUp h e >>= goOn intoNextStep

/-- What `nextUp` does. -/
def NextPost (l : Link) (h : Nat) (p : PT K V) (o : HRef ⊕ ((K × V) × HRef)) : HProp K V :=
  match p.popFront h with
  | some (kv, p') => fact (o = .inr (kv, p'.first h)) ∗ p'.mem l h
  | none => fact (∃ pa pi, l = (some pa, some pi) ∧ o = .inl ⟨h + 1, pa, pi⟩)

theorem nextPost_some {l : Link} {h : Nat} {p p' : PT K V} {kv : K × V} (e : p.popFront h = some (kv, p')) :
    NextPost l h p = fun o => fact (o = .inr (kv, p'.first h)) ∗ p'.mem l h := by
  funext o; simp only [NextPost, e]

theorem nextPost_none {l : Link} {h : Nat} {p : PT K V} (e : p.popFront h = none) :
    NextPost l h p = fun o => fact (∃ pa pi, l = (some pa, some pi) ∧ o = .inl ⟨h + 1, pa, pi⟩) := by
  funext o; simp only [NextPost, e]

theorem nextUp_spec : ∀ {h : Nat} {l : Link} {p : PT K V}, p.Good h →
    (p.popFront h = none → p.RightFull h ∧ ∃ pa pi, l = (some pa, some pi)) →
    Triple E (p.mem l h) (nextUp h (p.first h)) (NextPost l h p)
  | 0, l, p, hg, hn => by
    obtain ⟨a, pre, kvs, ks, post⟩ := p
    rw [PT.mem_leaf]
    refine Triple.getFact fun hcap => ?_
    simp only [PT.len] at hcap ⊢
    rw [show PT.first 0 (⟨a, pre, kvs, ks, post⟩ : PT K V) = ⟨0, a, pre.length⟩ from rfl]
    unfold nextUp
    dsimp only
    cases kvs with
    | cons kv r =>
      rw [nextPost_some (kv := kv) (p' := ⟨a, pre ++ [SHARED], r, ks, post⟩) (by simp [PT.popFront])]
      refine Triple.bindLen ?_
      rw [if_pos (by show pre.length < pre.length + (kv :: r).length + post.length; len_omega)]
      refine Triple.bindReadKv (by len_omega) (Slots.take_shifted (by len_omega)) ?_
      refine Triple.bindNewEdge (a := a) (by show pre.length + 1 ≤ pre.length + (kv :: r).length + post.length; len_omega) ?_
      refine Triple.ofPure ?_
      refine Ent.putFact (by simp [PT.first]) ?_
      rw [PT.mem_leaf]
      refine Ent.putFact (by simp only [PT.len]; len_omega) ?_
      simp only [PT.len]
      rw [show (pre ++ [SHARED]).length = pre.length + 1 by simp,
        show pre.length + 1 + r.length + post.length = pre.length + (kv :: r).length + post.length by len_omega]
      ent_ac
    | nil =>
      rw [nextPost_none (by simp [PT.popFront])]
      obtain ⟨hr, pa, pi, hl⟩ := hn rfl
      simp only [PT.RightFull] at hr
      subst hr hl
      refine Triple.bindLen ?_
      rw [if_neg (by show ¬ pre.length < pre.length + ([] : List (K × V)).length + ([] : List Addr).length; len_omega)]
      refine Triple.bindDealloc (a := a) rfl rfl rfl ?_
      exact Triple.ofPure (Ent.putFact ⟨pa, pi, rfl, rfl⟩ (Ent.refl _))
  | h + 1, l, p, hg, hn => by
    obtain ⟨c, cs, hk, hl⟩ := hg.kids_cons
    obtain ⟨a, pre, kvs, ks, post⟩ := p
    dsimp only at hk hl
    subst hk
    obtain ⟨_, g1, g2, g3⟩ := hg
    dsimp only [List.tail_cons] at g1 g2 g3
    have hgc := g3 c (by simp)
    rw [PT.mem_cons]
    refine Triple.getFact fun hcap => ?_
    simp only [PT.first, nextUp]
    refine Triple.call (P₀ := c.mem (some a, some pre.length) h) (nextUp_spec hgc ?_) fun o => ?_
    · intro hc
      refine ⟨?_, _, _, rfl⟩
      cases cs with
      | nil =>
        have : kvs = [] := List.eq_nil_of_length_eq_zero hl.symm
        subst this
        exact (hn (by simp [PT.popFront, hc])).1.2 c (by simp)
      | cons c2 cs => exact g2 c (by simp)
    · cases hc : c.popFront h with
      | some x =>
        obtain ⟨kv, c'⟩ := x
        rw [nextPost_some hc, nextPost_some (kv := kv) (p' := ⟨a, pre, kvs, c' :: cs, post⟩) (by simp [PT.popFront, hc])]
        rw [sep_assoc]
        refine Triple.getFact fun ho => ?_
        subst ho
        simp only [goOn]
        refine Triple.ofPure ?_
        refine Ent.putFact rfl ?_
        rw [PT.mem_cons, PT.popFront_addr hc]
        refine Ent.putFact hcap ?_
        ent_ac
      | none =>
        rw [nextPost_none hc]
        refine Triple.getFact fun ho => ?_
        obtain ⟨pa, pi, e, ho⟩ := ho
        simp only [Prod.mk.injEq, Option.some.injEq] at e
        obtain ⟨rfl, rfl⟩ := e
        subst ho
        simp only [goOn]
        unfold intoNextStep
        refine Triple.bindLen (a := a) ?_
        dsimp only
        cases kvs with
        | nil =>
          obtain ⟨hr, pa, pi, hl⟩ := hn (by simp [PT.popFront, hc])
          have hr1 := hr.1
          dsimp only at hr1
          subst hr1 hl
          have hcs : cs = [] := List.eq_nil_of_length_eq_zero (by assumption)
          subst hcs
          rw [if_neg (by show ¬ pre.length < pre.length + ([] : List (K × V)).length + ([] : List Addr).length; len_omega)]
          refine Triple.bindDealloc (a := a) rfl rfl rfl ?_
          rw [nextPost_none (by simp [PT.popFront, hc])]
          exact Triple.ofPure (Ent.putFact ⟨pa, pi, rfl, rfl⟩ (Ent.refl _))
        | cons kv r =>
          match cs, hl with
          | c2 :: cs, hl =>
          rw [if_pos (by show pre.length < pre.length + (kv :: r).length + post.length; len_omega)]
          refine Triple.bindReadKv (a := a) (by len_omega) (Slots.take_shifted (by len_omega)) ?_
          refine Triple.bindNewEdge (a := a) (by show pre.length + 1 ≤ pre.length + (kv :: r).length + post.length; len_omega) ?_
          refine Triple.bindDescend (a := a) (c := c2.addr) (by simp) (by len_omega) ?_
          dsimp only
          have e1 : PT.sub h a (pre.length + 1) (c2 :: cs) = (c2.mem (some a, some (pre.length + 1)) h ∗ PT.sub h a (pre.length + 1 + 1) cs) := rfl
          rw [e1]
          refine Triple.call (P₀ := c2.mem (some a, some (pre.length + 1)) h) (firstLeafEdge_pt (g1 c2 (by simp)) (g3 c2 (by simp))) fun f => ?_
          rw [sep_assoc]
          refine Triple.getFact fun hf => ?_
          subst hf
          rw [nextPost_some (kv := kv) (p' := ⟨a, pre ++ [c.addr], r, c2 :: cs, post⟩) (by simp [PT.popFront, hc])]
          refine Triple.ofPure ?_
          refine Ent.putFact rfl ?_
          rw [PT.mem_cons]
          rw [show (pre ++ [c.addr]).length = pre.length + 1 by simp,
            show pre.length + 1 + r.length + post.length = pre.length + (kv :: r).length + post.length by len_omega]
          refine Ent.putFact hcap ?_
          rw [show pre ++ [c.addr] ++ c2.addr :: (cs.map (·.addr) ++ post) = pre ++ c.addr :: ((c2 :: cs).map (·.addr) ++ post) by simp]
          ent_ac

end Verif.Heap
