import Verif.Heap.Proofs.Consume
import Verif.BTree.Proofs.Lists
/-
Partially consumed trees, from the back.
-/
namespace Verif.Heap
open Verif
open Verif.BTree (B MIN_LEN CAPACITY Tree Handle setE sliceInsert sliceRemove Map emptyLeaf inter)

variable {K V Q α β : Type} {E : String → Prop}

theorem inter_snoc {A : List α} {X : List (List α)} {k : α} {x : List α} (h : X.length = A.length + 1) :
    inter (A ++ [k]) (X ++ [x]) = inter A X ++ k :: x := by
  rcases BTree.inter_append (A := A) (C := []) (X := X) (Y := [x]) k h with h | h
  · simpa [inter] using h
  · cases h

theorem inter_last {A : List α} {X : List (List α)} {x : List α} (h : X.length = A.length) :
    inter A (X ++ [x]) = BTree.pre A X ++ x := by
  simpa using BTree.inter_split (A := A) (C := []) (X := X) (Y := []) x h

namespace PT

/-- The last pair and what is left without it. -/
def popBack : Nat → PT K V → Option ((K × V) × PT K V)
  | 0, p => match p.kvs.getLast? with
    | some kv => some (kv, { p with kvs := p.kvs.dropLast, post := SHARED :: p.post })
    | none => none
  | h + 1, p => match p.kids.getLast? with
    | none => none
    | some c => match popBack h c with
      | some (kv, c') => some (kv, { p with kids := p.kids.dropLast ++ [c'] })
      | none => match p.kvs.getLast? with
        | some kv => some (kv, { p with kvs := p.kvs.dropLast, kids := p.kids.dropLast, post := c.addr :: p.post })
        | none => none

theorem snoc_of_getLast {l : List α} {x : α} (h : l.getLast? = some x) : l = l.dropLast ++ [x] := by
  rcases List.getLast?_eq_some_iff.1 h with ⟨ys, rfl⟩
  simp

theorem Good.kids_snoc {h : Nat} {p : PT K V} (hg : Good (h + 1) p) :
    ∃ cs c, p.kids = cs ++ [c] ∧ cs.length = p.kvs.length ∧ p.kids.getLast? = some c := by
  obtain ⟨h1, _⟩ := hg
  cases hk : p.kids.getLast? with
  | none => rw [List.getLast?_eq_none_iff.1 hk] at h1; simp at h1
  | some c =>
    rcases List.getLast?_eq_some_iff.1 hk with ⟨cs, e⟩
    exact ⟨cs, c, e, by rw [e] at h1; simpa using h1, rfl⟩

theorem popBack_addr : ∀ {h : Nat} {p p' : PT K V} {kv : K × V}, popBack h p = some (kv, p') → p'.addr = p.addr
  | 0, p, p', kv, hp => by
    simp only [popBack] at hp
    split at hp
    · simp only [Option.some.injEq, Prod.mk.injEq] at hp; obtain ⟨_, rfl⟩ := hp; rfl
    · cases hp
  | h + 1, p, p', kv, hp => by
    simp only [popBack] at hp
    split at hp
    · cases hp
    · split at hp
      · simp only [Option.some.injEq, Prod.mk.injEq] at hp; obtain ⟨_, rfl⟩ := hp; rfl
      · split at hp
        · simp only [Option.some.injEq, Prod.mk.injEq] at hp; obtain ⟨_, rfl⟩ := hp; rfl
        · cases hp

theorem popBack_none : ∀ {h : Nat} {p : PT K V}, Good h p → popBack h p = none → list h p = []
  | 0, p, _, hp => by
    simp only [popBack] at hp
    split at hp
    · cases hp
    · next h => exact List.getLast?_eq_none_iff.1 h
  | h + 1, p, hg, hp => by
    obtain ⟨cs, c, hk, hl, hlast⟩ := hg.kids_snoc
    simp only [popBack, hlast] at hp
    split at hp
    · cases hp
    · next hc =>
      split at hp
      · cases hp
      · next hkv =>
        have hkv := List.getLast?_eq_none_iff.1 hkv
        have : list h c = [] := popBack_none (hg.2.2.2 c (by simp [hk])) hc
        have hcs : cs = [] := List.eq_nil_of_length_eq_zero (by simpa [hkv] using hl)
        simp [list, hk, hkv, hcs, inter, this]

theorem popBack_list : ∀ {h : Nat} {p p' : PT K V} {kv : K × V}, Good h p → popBack h p = some (kv, p') → list h p = list h p' ++ [kv]
  | 0, p, p', kv, _, hp => by
    simp only [popBack] at hp
    split at hp
    · next hk =>
      simp only [Option.some.injEq, Prod.mk.injEq] at hp; obtain ⟨rfl, rfl⟩ := hp
      exact snoc_of_getLast hk
    · cases hp
  | h + 1, p, p', kv, hg, hp => by
    obtain ⟨cs, c, hk, hl, hlast⟩ := hg.kids_snoc
    have hgc := hg.2.2.2 c (by simp [hk])
    simp only [popBack, hlast] at hp
    split at hp
    · next kv1 c' hc =>
      simp only [Option.some.injEq, Prod.mk.injEq] at hp; obtain ⟨rfl, rfl⟩ := hp
      have := popBack_list hgc hc
      simp only [list, hk, List.map_append, List.map_cons, List.map_nil, List.dropLast_concat]
      rw [inter_last (by simpa using hl), inter_last (by simpa using hl), this, List.append_assoc]
    · next hc =>
      split at hp
      · next kv1 hkv =>
        simp only [Option.some.injEq, Prod.mk.injEq] at hp; obtain ⟨rfl, rfl⟩ := hp
        have := popBack_none hgc hc
        have e := snoc_of_getLast hkv
        rw [e] at hl
        simp only [list, hk, List.map_append, List.map_cons, List.map_nil, List.dropLast_concat]
        rw [e, inter_snoc (by simpa using hl), this]
        simp
      · cases hp

theorem head?_snoc_ne {cs : List α} {c d : α} (h : cs ≠ []) : (cs ++ [c]).head? = (cs ++ [d]).head? ∧ (cs ++ [c]).head? = cs.head? := by
  cases cs with
  | nil => cases h rfl
  | cons x cs => simp

theorem popBack_left : ∀ {h : Nat} {p p' : PT K V} {kv : K × V}, Good h p → popBack h p = some (kv, p') → LeftFull h p → LeftFull h p'
  | 0, p, p', kv, _, hp, hr => by
    simp only [popBack] at hp
    split at hp
    · simp only [Option.some.injEq, Prod.mk.injEq] at hp; obtain ⟨_, rfl⟩ := hp; exact hr
    · cases hp
  | h + 1, p, p', kv, hg, hp, hr => by
    obtain ⟨cs, c, hk, hl, hlast⟩ := hg.kids_snoc
    have hgc := hg.2.2.2 c (by simp [hk])
    simp only [popBack, hlast] at hp
    obtain ⟨hr1, hr2⟩ := hr
    rw [hk] at hr2
    split at hp
    · next kv1 c' hc =>
      simp only [Option.some.injEq, Prod.mk.injEq] at hp; obtain ⟨rfl, rfl⟩ := hp
      refine ⟨hr1, ?_⟩
      simp only [hk, List.dropLast_concat]
      by_cases hcs : cs = []
      · subst hcs
        intro d hd
        simp only [List.nil_append, List.head?_cons, Option.some.injEq] at hd
        subst hd
        exact popBack_left hgc hc (hr2 c (by simp))
      · intro d hd
        rw [(head?_snoc_ne (d := c) hcs).1] at hd
        exact hr2 d hd
    · next hc =>
      split at hp
      · next kv1 hkv =>
        simp only [Option.some.injEq, Prod.mk.injEq] at hp; obtain ⟨rfl, rfl⟩ := hp
        have hcs : cs ≠ [] := by
          rintro rfl
          rw [snoc_of_getLast hkv] at hl
          simp at hl
        refine ⟨hr1, ?_⟩
        simp only [hk, List.dropLast_concat]
        intro d hd
        rw [← (head?_snoc_ne (c := c) (d := c) hcs).2] at hd
        exact hr2 d hd
      · cases hp

theorem tail_snoc {cs : List α} {c x : α} (h : x ∈ (cs ++ [c]).tail) : x ∈ cs.tail ∨ (x = c ∧ cs ≠ []) := by
  cases cs with
  | nil => simp at h
  | cons y cs => simp at h; rcases h with h | h <;> simp [h]

theorem popBack_good : ∀ {h : Nat} {p p' : PT K V} {kv : K × V}, Good h p → popBack h p = some (kv, p') → Good h p'
  | 0, p, p', kv, _, hp => trivial
  | h + 1, p, p', kv, hg, hp => by
    obtain ⟨cs, c, hk, hl, hlast⟩ := hg.kids_snoc
    obtain ⟨_, g1, g2, g3⟩ := hg
    have hgc := g3 c (by simp [hk])
    simp only [popBack, hlast] at hp
    rw [hk] at g1 g2 g3
    rw [List.dropLast_concat] at g2
    have gt : ∀ d ∈ cs.tail, LeftFull h d := fun d hd => g1 d (by cases cs <;> simp at hd ⊢; exact .inl hd)
    split at hp
    · next kv1 c' hc =>
      simp only [Option.some.injEq, Prod.mk.injEq] at hp; obtain ⟨rfl, rfl⟩ := hp
      simp only [Good, hk, List.dropLast_concat]
      refine ⟨by simp [hl], fun d hd => ?_, g2, fun d hd => ?_⟩
      · rcases tail_snoc hd with hd | ⟨rfl, hcs⟩
        · exact gt d hd
        · refine popBack_left hgc hc (g1 c ?_)
          cases cs with
          | nil => exact absurd rfl hcs
          | cons y cs => simp
      · rcases List.mem_append.1 hd with hd | hd
        · exact g3 d (by simp [hd])
        · simp only [List.mem_singleton] at hd
          subst hd
          exact popBack_good hgc hc
    · next hc =>
      split at hp
      · next kv1 hkv =>
        simp only [Option.some.injEq, Prod.mk.injEq] at hp; obtain ⟨rfl, rfl⟩ := hp
        have e := snoc_of_getLast hkv
        simp only [Good, hk, List.dropLast_concat]
        refine ⟨by rw [e] at hl; simpa using hl, gt, fun d hd => g2 d (List.dropLast_subset _ hd), fun d hd => g3 d (by simp [hd])⟩
      · cases hp

theorem popBack_first : ∀ {h : Nat} {p p' : PT K V} {kv : K × V}, Good h p → popBack h p = some (kv, p') → first h p' = first h p
  | 0, p, p', kv, _, hp => by
    simp only [popBack] at hp
    split at hp
    · simp only [Option.some.injEq, Prod.mk.injEq] at hp; obtain ⟨rfl, rfl⟩ := hp; rfl
    · cases hp
  | h + 1, p, p', kv, hg, hp => by
    obtain ⟨cs, c, hk, hl, hlast⟩ := hg.kids_snoc
    have hgc := hg.2.2.2 c (by simp [hk])
    simp only [popBack, hlast] at hp
    split at hp
    · next kv1 c' hc =>
      simp only [Option.some.injEq, Prod.mk.injEq] at hp; obtain ⟨rfl, rfl⟩ := hp
      simp only [first, hk, List.dropLast_concat]
      cases cs with
      | nil => exact popBack_first hgc hc
      | cons c2 cs => rfl
    · next hc =>
      split at hp
      · next kv1 hkv =>
        simp only [Option.some.injEq, Prod.mk.injEq] at hp; obtain ⟨rfl, rfl⟩ := hp
        simp only [first, hk, List.dropLast_concat]
        cases cs with
        | nil => rw [snoc_of_getLast hkv] at hl; simp at hl
        | cons c2 cs => rfl
      · cases hp

theorem last_snoc {h : Nat} {a : Addr} {pre post : List Addr} {kvs : List (K × V)} {cs : List (PT K V)} {c : PT K V} :
    last (h + 1) ⟨a, pre, kvs, cs ++ [c], post⟩ = last h c := by simp [last]

end PT

/-! ### in memory -/

theorem lastLeafEdge_pt : ∀ {h : Nat} {l : Link} {p : PT K V}, p.RightFull h → p.Good h →
    Triple E (p.mem l h) (lastLeafEdge h p.addr) (fun r => fact (r = p.last h) ∗ p.mem l h)
  | 0, l, p, hf, hg => by
    obtain ⟨a, pre, kvs, ks, post⟩ := p
    simp only [PT.RightFull] at hf
    subst hf
    unfold lastLeafEdge PT.mem
    refine Triple.bindLen (a := a) ?_
    refine Triple.last ?_
    refine Triple.bindNewEdge (Nat.le_refl _) ?_
    exact Triple.ofPure (Ent.putFact rfl (Ent.refl _))
  | h + 1, l, p, hf, hg => by
    obtain ⟨cs, c, hk, hl, hlast⟩ := hg.kids_snoc
    have hgc := hg.2.2.2 c (by simp [hk])
    have hfc := hf.2 c hlast
    obtain ⟨a, pre, kvs, ks, post⟩ := p
    dsimp only at hk hl
    subst hk
    have hp := hf.1
    dsimp only at hp
    subst hp
    rw [PT.mem_snoc]
    refine Triple.getFact fun hcap => ?_
    unfold lastLeafEdge
    refine Triple.bindLen (a := a) ?_
    refine Triple.bindNewEdge (a := a) (Nat.le_refl _) ?_
    refine Triple.bindDescend (a := a) (c := c.addr) (by
      show (pre ++ (cs.map (·.addr) ++ [c.addr]))[pre.length + kvs.length + ([] : List Addr).length]? = _
      rw [List.getElem?_append_right (by simp)]
      simp [hl]) (by show pre.length + kvs.length + ([] : List Addr).length < _; len_omega) ?_
    dsimp only
    refine Triple.callLast (P₀ := c.mem (some a, some (pre.length + cs.length)) h) (lastLeafEdge_pt hfc hgc) fun r => ?_
    rw [sep_assoc]
    refine Ent.fact_left fun e => ?_
    refine Ent.fact_right (by rw [PT.last_snoc]; exact e) ?_
    refine Ent.fact_right hcap ?_
    ent_ac

/-- `IntoIter::next_back` inside a subtree of height `h`. -/
def backUp : (h : Nat) → HRef → HM K V (HRef ⊕ ((K × V) × HRef))
  | 0, e =>
    if 0 < e.idx then do
      let kv ← readKv ⟨e.height, e.node, e.idx - 1⟩
      let b ← newEdge e.ref (e.idx - 1)
      pure (.inr (kv, b))
    else do
      let p ← deallocateAndAscend e.ref
      match p with
      | none => HM.ub
      | some p => pure (.inl p)
  | h + 1, e => backUp h e >>= goOn intoNextBackStep

/-- What `backUp` does. -/
def BackPost (l : Link) (h : Nat) (p : PT K V) (o : HRef ⊕ ((K × V) × HRef)) : HProp K V :=
  match p.popBack h with
  | some (kv, p') => fact (o = .inr (kv, p'.last h)) ∗ p'.mem l h
  | none => fact (∃ pa pi, l = (some pa, some pi) ∧ o = .inl ⟨h + 1, pa, pi⟩)

theorem backPost_some {l : Link} {h : Nat} {p p' : PT K V} {kv : K × V} (e : p.popBack h = some (kv, p')) :
    BackPost l h p = fun o => fact (o = .inr (kv, p'.last h)) ∗ p'.mem l h := by
  funext o; simp only [BackPost, e]

theorem backPost_none {l : Link} {h : Nat} {p : PT K V} (e : p.popBack h = none) :
    BackPost l h p = fun o => fact (∃ pa pi, l = (some pa, some pi) ∧ o = .inl ⟨h + 1, pa, pi⟩) := by
  funext o; simp only [BackPost, e]

theorem backUp_spec : ∀ {h : Nat} {l : Link} {p : PT K V}, p.Good h →
    (p.popBack h = none → p.LeftFull h ∧ ∃ pa pi, l = (some pa, some pi)) →
    Triple E (p.mem l h) (backUp h (p.last h)) (BackPost l h p)
  | 0, l, p, hg, hn => by
    obtain ⟨a, pre, kvs, ks, post⟩ := p
    rw [PT.mem_leaf]
    refine Triple.getFact fun hcap => ?_
    simp only [PT.len] at hcap ⊢
    rw [show PT.last 0 (⟨a, pre, kvs, ks, post⟩ : PT K V) = ⟨0, a, pre.length + kvs.length⟩ from rfl]
    unfold backUp
    dsimp only
    cases hkv : kvs.getLast? with
    | some kv =>
      obtain ⟨r, rfl⟩ := List.getLast?_eq_some_iff.1 hkv
      rw [backPost_some (kv := kv) (p' := ⟨a, pre, r, ks, SHARED :: post⟩) (by simp [PT.popBack])]
      rw [if_pos (by len_omega)]
      refine Triple.bindReadKv (a := a) (by len_omega) (Slots.take_shifted_last (by len_omega) (by len_omega)) ?_
      refine Triple.bindNewEdge (a := a) (by show pre.length + (r ++ [kv]).length - 1 ≤ pre.length + (r ++ [kv]).length + post.length; len_omega) ?_
      refine Triple.ofPure ?_
      refine Ent.putFact (by simp [PT.last]) ?_
      rw [PT.mem_leaf]
      refine Ent.putFact (by simp only [PT.len]; len_omega) ?_
      simp only [PT.len]
      rw [show pre.length + r.length + (SHARED :: post).length = pre.length + (r ++ [kv]).length + post.length by len_omega]
      ent_ac
    | none =>
      have := List.getLast?_eq_none_iff.1 hkv
      subst this
      rw [backPost_none (by simp [PT.popBack])]
      obtain ⟨hr, pa, pi, hl⟩ := hn (by simp [PT.popBack])
      simp only [PT.LeftFull] at hr
      subst hr hl
      rw [if_neg (by len_omega)]
      refine Triple.bindDealloc (a := a) rfl rfl rfl ?_
      exact Triple.ofPure (Ent.putFact ⟨pa, pi, rfl, rfl⟩ (Ent.refl _))
  | h + 1, l, p, hg, hn => by
    obtain ⟨cs, c, hk, hl, hlast⟩ := hg.kids_snoc
    obtain ⟨a, pre, kvs, ks, post⟩ := p
    dsimp only at hk hl
    subst hk
    obtain ⟨_, g1, g2, g3⟩ := hg
    dsimp only at g1 g2 g3
    rw [List.dropLast_concat] at g2
    have hgc := g3 c (by simp)
    rw [PT.mem_snoc]
    refine Triple.getFact fun hcap => ?_
    rw [PT.last_snoc]
    unfold backUp
    refine Triple.call (P₀ := c.mem (some a, some (pre.length + cs.length)) h) (backUp_spec hgc ?_) fun o => ?_
    · intro hc
      refine ⟨?_, _, _, rfl⟩
      cases cs with
      | nil =>
        have : kvs = [] := List.eq_nil_of_length_eq_zero hl.symm
        subst this
        exact (hn (by simp [PT.popBack, hc])).1.2 c (by simp)
      | cons c2 cs => exact g1 c (by simp)
    · cases hc : c.popBack h with
      | some x =>
        obtain ⟨kv, c'⟩ := x
        rw [backPost_some hc, backPost_some (kv := kv) (p' := ⟨a, pre, kvs, cs ++ [c'], post⟩) (by simp [PT.popBack, hc])]
        rw [sep_assoc]
        refine Triple.getFact fun ho => ?_
        subst ho
        simp only [goOn]
        refine Triple.ofPure ?_
        refine Ent.putFact (by rw [PT.last_snoc]) ?_
        rw [PT.mem_snoc, PT.popBack_addr hc]
        refine Ent.putFact hcap ?_
        ent_ac
      | none =>
        rw [backPost_none hc]
        refine Triple.getFact fun ho => ?_
        obtain ⟨pa, pi, e, ho⟩ := ho
        simp only [Prod.mk.injEq, Option.some.injEq] at e
        obtain ⟨rfl, rfl⟩ := e
        subst ho
        simp only [goOn]
        unfold intoNextBackStep
        dsimp only
        cases hkv : kvs.getLast? with
        | none =>
          have := List.getLast?_eq_none_iff.1 hkv
          subst this
          obtain ⟨hr, pa, pi, hl⟩ := hn (by simp [PT.popBack, hc])
          have hr1 := hr.1
          dsimp only at hr1
          subst hr1 hl
          have hcs : cs = [] := List.eq_nil_of_length_eq_zero (by assumption)
          subst hcs
          rw [if_neg (by len_omega)]
          refine Triple.bindDealloc (a := a) rfl rfl rfl ?_
          rw [backPost_none (by simp [PT.popBack, hc])]
          refine Triple.ofPure (Ent.putFact (R := emp) ⟨pa, pi, rfl, rfl⟩ ?_)
          exact Ent.of_eq (sep_emp _)
        | some kv =>
          obtain ⟨r, rfl⟩ := List.getLast?_eq_some_iff.1 hkv
          cases hcs : cs.getLast? with
          | none =>
            rw [List.getLast?_eq_none_iff.1 hcs] at hl
            simp at hl
          | some c2 =>
          obtain ⟨cs, rfl⟩ := List.getLast?_eq_some_iff.1 hcs
          have hl2 : cs.length = r.length := by simpa using hl
          rw [if_pos (by len_omega)]
          refine Triple.bindReadKv (a := a) (by len_omega) (Slots.take_shifted_last (by len_omega) (by len_omega)) ?_
          refine Triple.bindNewEdge (a := a) (by show pre.length + (cs ++ [c2]).length - 1 ≤ pre.length + (r ++ [kv]).length + post.length; len_omega) ?_
          refine Triple.bindDescend (a := a) (c := c2.addr) (by
            rw [List.getElem?_append_right (by len_omega)]
            simp) (by len_omega) ?_
          dsimp only
          have e1 : PT.sub h a pre.length (cs ++ [c2]) = (PT.sub h a pre.length cs ∗ c2.mem (some a, some (pre.length + cs.length)) h) := by
            unfold PT.sub
            rw [PT.linked_append, stars_append]
            congr 1
            exact sep_emp _
          rw [e1]
          simp only [sep_assoc]
          refine Triple.call (P₀ := c2.mem (some a, some (pre.length + cs.length)) h) (lastLeafEdge_pt (g2 c2 (by simp)) (g3 c2 (by simp))) fun f => ?_
          rw [sep_assoc]
          refine Triple.getFact fun hf => ?_
          subst hf
          rw [backPost_some (kv := kv) (p' := ⟨a, pre, r, cs ++ [c2], c.addr :: post⟩) (by simp [PT.popBack, hc])]
          refine Triple.ofPure ?_
          refine Ent.putFact (by rw [PT.last_snoc]) ?_
          rw [PT.mem_snoc]
          rw [show pre.length + r.length + (c.addr :: post).length = pre.length + (r ++ [kv]).length + post.length by len_omega]
          refine Ent.putFact hcap ?_
          rw [show pre ++ (cs.map (·.addr) ++ c2.addr :: c.addr :: post) = pre ++ ((cs ++ [c2]).map (·.addr) ++ c.addr :: post) by simp]
          ent_ac

end Verif.Heap
