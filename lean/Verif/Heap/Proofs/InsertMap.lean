import Verif.Heap.Proofs.Search
/-
`try_entry` and `try_insert` in memory do what the level-1 model says.
-/
namespace Verif.Heap
open Verif
open Verif.BTree (B MIN_LEN CAPACITY Tree Handle setE sliceInsert sliceRemove InsertRes Gone Map emptyLeaf SearchResult Entry)

variable {K V Q α β : Type} {E : String → Prop}

theorem ensureRoot_shared {M : Map K V} {al : Alloc} (h : M.shared = true) :
    M.ensureRootIsOwned al = if al.request.1 then (.ok (), { M with height := 0, root := emptyLeaf, shared := false }, al.request.2)
      else (.error .allocError, M, al.request.2) := by
  rw [BTree.Map.ensureRootIsOwned, if_pos h]

theorem ensureRoot_spec {hm : HMap} {M : Map K V} {ta : ATree K V} {al : Alloc} :
    Triple E (own hm M ta ∗ sched al) (hm.ensureRootIsOwned : HM K V (Option HMap)) (fun o => sched (M.ensureRootIsOwned al).2.2 ∗
      match (M.ensureRootIsOwned al).1 with
      | .ok _ => hex fun x : HMap × ATree K V => fact (o = some x.1 ∧ (M.ensureRootIsOwned al).2.1.shared = false) ∗ own x.1 (M.ensureRootIsOwned al).2.1 x.2
      | .error _ => fact (o = none) ∗ own hm (M.ensureRootIsOwned al).2.1 ta) := by
  obtain ⟨H, root, shared, len⟩ := M
  cases shared with
  | false =>
    have e : (⟨H, root, false, len⟩ : Map K V).ensureRootIsOwned al = (.ok (), ⟨H, root, false, len⟩, al) := rfl
    rw [e, own_owned rfl]
    refine Triple.getHex fun pi => ?_
    simp only [sep_assoc]
    refine Triple.getFact fun hf => ?_
    obtain ⟨rfl, rfl⟩ := hf
    refine Triple.pre ?_ (Ent.frame tree_pos _)
    simp only [sep_assoc]
    refine Triple.getFact fun h0 => ?_
    unfold HMap.ensureRootIsOwned
    dsimp only
    rw [if_neg h0]
    refine Triple.ofPure ?_
    rw [sep_hex]
    refine Ent.hex_right (⟨⟨H, ta.addr⟩, len⟩, ta) ?_
    refine Ent.putFact ⟨rfl, trivial⟩ ?_
    rw [own_owned rfl, sep_hex]
    refine Ent.hex_right pi ?_
    refine Ent.putFact ⟨rfl, rfl⟩ ?_
    ent_ac
  | true =>
    rw [ensureRoot_shared rfl, own_shared rfl]
    refine Triple.getFact fun hf => ?_
    obtain ⟨rfl, rfl, rfl, rfl⟩ := hf
    unfold HMap.ensureRootIsOwned newLeaf
    dsimp only
    rw [if_pos rfl]
    refine Triple.assoc ?_
    refine Triple.bindAlloc (fun hno => ?_) fun hyes a => ?_
    · rw [hno]
      refine Triple.ofPure ?_
      simp only [Bool.false_eq_true, if_false]
      refine Ent.putFact rfl ?_
      rw [own_shared rfl]
      refine Ent.putFact ⟨rfl, rfl, rfl, rfl⟩ ?_
      ent_ac
    · rw [hyes]
      refine Triple.ofPure ?_
      simp only [if_true, sep_hex]
      refine Ent.hex_right (⟨⟨0, a⟩, len⟩, ⟨a, [], []⟩) ?_
      refine Ent.putFact ⟨rfl, trivial⟩ ?_
      rw [own_owned rfl, sep_hex]
      refine Ent.hex_right none ?_
      refine Ent.putFact ⟨by rw [ATree.erase_mk]; rfl, rfl⟩ ?_
      rw [tree_leaf, new_eq]
      refine Ent.putFact (Nat.zero_le _) ?_
      ent_ac

/-- The level-1 entry `e` and the entry `o` in memory are the same. -/
def EntryAt (h : Nat) (t : ATree K V) (e : Entry K) (o : HEntry K) : Prop :=
  match e, o with
  | .occupied hd, .occupied hr => HandleAt h t hd hr
  | .vacant k hd, .vacant k' hr => k' = k ∧ HandleAt h t hd hr
  | _, _ => False

/-- An entry, or failure with the map as it was. -/
def EntryPost (M' : Map K V) (res : Res (Entry K)) (o : Option (HEntry K) × HMap) : HProp K V :=
  match res with
  | .ok e => hex fun x : ATree K V × HEntry K => fact (o.1 = some x.2 ∧ M'.shared = false ∧ EntryAt M'.height x.1 e x.2) ∗ own o.2 M' x.1
  | .error _ => fact (o.1 = none) ∗ rep o.2 M'

theorem tryEntry_spec [Ord K] {hm : HMap} {M M' : Map K V} {ta : ATree K V} {k : K} {al al' : Alloc} {res : Res (Entry K)}
    (hx : M.tryEntry k al = .ok (res, M', al')) :
    Triple E (own hm M ta ∗ sched al) (hm.tryEntry k) (fun o => sched al' ∗ EntryPost M' res o) := by
  simp only [BTree.Map.tryEntry] at hx
  unfold HMap.tryEntry
  refine Triple.seq ensureRoot_spec fun o => ?_
  generalize M.ensureRootIsOwned al = y at hx ⊢
  obtain ⟨r, M1, al1⟩ := y
  cases r with
  | error e =>
    simp only [Exec.ok.injEq, Prod.mk.injEq] at hx
    obtain ⟨rfl, rfl, rfl⟩ := hx
    dsimp only
    refine Triple.getFact fun ho => ?_
    subst ho
    refine Triple.ofPure ?_
    simp only [EntryPost, rep, sep_hex]
    refine Ent.hex_right ta ?_
    exact Ent.putFact trivial (Ent.refl _)
  | ok u =>
    dsimp only at hx ⊢
    obtain ⟨sr, hs, hx⟩ := Exec.bind_eq_ok.1 hx
    rw [sep_hex]
    refine Triple.ofHex fun x => ?_
    obtain ⟨hm1, ta1⟩ := x
    refine Triple.getFact fun ho => ?_
    obtain ⟨rfl, hsh⟩ := ho
    dsimp only
    refine Triple.call (P₀ := own hm1 M1 ta1) (search_spec hs) fun o => ?_
    simp only [sep_assoc]
    refine Triple.getFact fun hf => ?_
    cases sr with
    | found hd =>
      simp only [Exec.ok.injEq, Prod.mk.injEq] at hx
      obtain ⟨rfl, rfl, rfl⟩ := hx
      cases o with
      | goDown hr => exact hf.elim
      | found hr =>
        obtain ⟨hd0, rfl, hat⟩ := hf
        refine Triple.ofPure ?_
        simp only [EntryPost, sep_hex, List.append_nil]
        refine Ent.hex_right (ta1, .occupied hr) ?_
        refine Ent.putFact ⟨rfl, hsh, hat⟩ ?_
        ent_ac
    | goDown hd =>
      simp only [Exec.ok.injEq, Prod.mk.injEq] at hx
      obtain ⟨rfl, rfl, rfl⟩ := hx
      cases o with
      | found hr => exact hf.elim
      | goDown hr =>
        obtain ⟨hd0, rfl, hat⟩ := hf
        refine Triple.ofPure ?_
        simp only [EntryPost, sep_hex, List.append_nil]
        refine Ent.hex_right (ta1, .vacant k hr) ?_
        refine Ent.putFact ⟨rfl, hsh, rfl, hat⟩ ?_
        ent_ac

/-- The old value, or failure and what was left without an owner. -/
def InsertExact (M' : Map K V) (gone : Option (Gone K V)) (res : Res (Option V)) (o : Option (Option V) × HMap) : HProp K V :=
  match res with
  | .ok v => fact (o.1 = some v) ∗ rep o.2 M'
  | .error _ => hex fun g : Gone K V => fact (o.1 = none ∧ gone = some g) ∗ rep o.2 M' ∗ leaked g.half

/-- The old value, or failure (with some memory possibly lost). -/
def InsertPost (M' : Map K V) (res : Res (Option V)) (o : Option (Option V) × HMap) : HProp K V :=
  match res with
  | .ok v => fact (o.1 = some v) ∗ rep o.2 M'
  | .error _ => fact (o.1 = none) ∗ rep o.2 M' ∗ litter

theorem tryInsert_exact [Ord K] {hm : HMap} {M M' : Map K V} {ta : ATree K V} {k : K} {v : V} {al al' : Alloc} {res : Res (Option V)}
    (hx : M.tryInsert k v al = .ok (res, M', al')) :
    Triple E (own hm M ta ∗ sched al) (hm.tryInsert k v) (fun o => sched al' ∗ InsertExact M' (M.insertGone k v al) res o) := by
  simp only [BTree.Map.tryInsert] at hx
  obtain ⟨⟨r1, M1, al1⟩, he, hx⟩ := Exec.bind_eq_ok.1 hx
  unfold HMap.tryInsert
  refine Triple.seq (tryEntry_spec he) fun o => ?_
  obtain ⟨o, hm1⟩ := o
  cases r1 with
  | error e =>
    simp only [Exec.ok.injEq, Prod.mk.injEq] at hx
    obtain ⟨rfl, rfl, rfl⟩ := hx
    simp only [EntryPost]
    refine Triple.getFact fun ho => ?_
    subst ho
    refine Triple.ofPure ?_
    simp only [InsertExact, sep_hex]
    refine Ent.hex_right ⟨(k, v), none⟩ ?_
    refine Ent.putFact ⟨trivial, by simp only [BTree.Map.insertGone, he]⟩ ?_
    exact Ent.sep (Ent.refl _) (Ent.of_eq (by simp only [leaked, sep_emp]))
  | ok e =>
    simp only [EntryPost, sep_hex]
    refine Triple.ofHex fun x => ?_
    obtain ⟨ta1, e'⟩ := x
    refine Triple.getFact fun ho => ?_
    obtain ⟨rfl, hsh, hat⟩ := ho
    cases e with
    | occupied hd =>
      cases e' with
      | vacant k' hr => exact hat.elim
      | occupied hr =>
        simp only at hx
        obtain ⟨⟨M2, old⟩, hset, hx⟩ := Exec.bind_eq_ok.1 hx
        simp only [Exec.ok.injEq, Prod.mk.injEq] at hx
        obtain ⟨rfl, rfl, rfl⟩ := hx
        refine Triple.call (P₀ := own hm1 M1 ta1) (setVal_spec hsh hat hset) fun r => ?_
        rw [hex_sep]
        refine Triple.ofHex fun ta2 => ?_
        simp only [sep_assoc]
        refine Triple.getFact fun hf => ?_
        obtain ⟨rfl, _⟩ := hf
        refine Triple.ofPure ?_
        simp only [InsertExact]
        refine Ent.putFact trivial ?_
        simp only [rep, sep_hex]
        refine Ent.hex_right ta2 ?_
        ent_ac
    | vacant k1 hd =>
      cases e' with
      | occupied hr => exact hat.elim
      | vacant k' hr =>
        obtain ⟨rfl, hat⟩ := hat
        simp only at hx
        obtain ⟨⟨r2, M2, al2⟩, hv, hx⟩ := Exec.bind_eq_ok.1 hx
        refine Triple.call (P₀ := own hm1 M1 ta1 ∗ sched al1) (vacantInsert_exact hsh hat hv) fun r => ?_
        obtain ⟨o, hm2⟩ := r
        cases r2 with
        | error e =>
          simp only [Exec.ok.injEq, Prod.mk.injEq] at hx
          obtain ⟨rfl, rfl, rfl⟩ := hx
          simp only [VacExact, hex_sep, sep_hex]
          refine Triple.ofHex fun g => ?_
          simp only [sep_assoc]
          refine Triple.getFact fun ho => ?_
          obtain ⟨ho, hgone⟩ := ho
          subst ho
          refine Triple.ofPure ?_
          simp only [InsertExact, sep_hex, Option.map_none]
          refine Ent.hex_right g ?_
          refine Ent.putFact ⟨trivial, by simp only [BTree.Map.insertGone, he]; exact hgone⟩ ?_
          simp only [sep_emp]
          exact Ent.refl _
        | ok h3 =>
          simp only [Exec.ok.injEq, Prod.mk.injEq] at hx
          obtain ⟨rfl, rfl, rfl⟩ := hx
          simp only [VacExact, sep_assoc, hex_sep, sep_hex]
          refine Triple.ofHex fun x => ?_
          refine Triple.getFact fun ho => ?_
          obtain ⟨rfl, _⟩ := ho
          refine Triple.ofPure ?_
          simp only [InsertExact, Option.map_some]
          refine Ent.putFact trivial ?_
          simp only [rep, sep_hex]
          refine Ent.hex_right x.1 ?_
          ent_ac

theorem InsertExact.post {M' : Map K V} {gone : Option (Gone K V)} {res : Res (Option V)} {o : Option (Option V) × HMap} :
    Ent (InsertExact M' gone res o) (InsertPost M' res o) := by
  cases res with
  | ok v => exact Ent.refl _
  | error e =>
    rintro w ⟨g, hw⟩
    obtain ⟨h1, h2⟩ := fact_sep.1 hw
    exact fact_sep.2 ⟨h1.1, Ent.sep (Ent.refl _) leaked_litter _ h2⟩

theorem tryInsert_spec [Ord K] {hm : HMap} {M M' : Map K V} {ta : ATree K V} {k : K} {v : V} {al al' : Alloc} {res : Res (Option V)}
    (hx : M.tryInsert k v al = .ok (res, M', al')) :
    Triple E (own hm M ta ∗ sched al) (hm.tryInsert k v) (fun o => sched al' ∗ InsertPost M' res o) :=
  Triple.post (tryInsert_exact hx) fun _ => Ent.sep (Ent.refl _) InsertExact.post

end Verif.Heap
