import Verif.Heap.Proofs.IntoIter
/-
What happens in memory when an owning iterator is asked for more items than the tree has: it frees the root node and
goes on to the parent of the root, which is null.
-/
namespace Verif.Heap
open Verif
open Verif.BTree (B MIN_LEN CAPACITY Tree Handle setE sliceInsert sliceRemove Map emptyLeaf inter)

variable {K V Q α β : Type}

/-- Run in a memory of which `P` describes a part, `m` is undefined behaviour. -/
def Ubs (P : HProp K V) (m : HM K V α) : Prop := ∀ (R : HProp K V) (s : Heap K V), s.Good → (P ∗ R) s.world → m s = .ub

theorem Ubs.pre {P P' : HProp K V} {m : HM K V α} (h : Ubs P m) (hp : Ent P' P) : Ubs P' m :=
  fun R s hg hw => h R s hg (Ent.frame hp R _ hw)

theorem Ubs.frame {P : HProp K V} {m : HM K V α} (h : Ubs P m) (F : HProp K V) : Ubs (P ∗ F) m := by
  intro R s hg hw
  rw [sep_assoc] at hw
  exact h _ s hg hw

theorem Ubs.ofFact {φ : Prop} {P : HProp K V} {m : HM K V α} (h : φ → Ubs P m) : Ubs (fact φ ∗ P) m := by
  intro R s hg hw
  rw [sep_assoc] at hw
  obtain ⟨h1, h2⟩ := fact_sep.1 hw
  exact h h1 R s hg h2

theorem Ubs.ofHex {ι : Type} {P : ι → HProp K V} {m : HM K V α} (h : ∀ i, Ubs (P i) m) : Ubs (hex P) m := by
  intro R s hg hw
  rw [hex_sep] at hw
  obtain ⟨i, hw⟩ := hw
  exact h i R s hg hw

theorem Ubs.ub {P : HProp K V} : Ubs P (HM.ub : HM K V α) := fun _ _ _ _ => rfl

/-- It stays undefined behaviour whatever comes afterwards. -/
theorem Ubs.left {P : HProp K V} {m : HM K V α} {f : α → HM K V β} (h : Ubs P m) : Ubs P (m >>= f) := by
  intro R s hg hw
  show HM.bind m f s = .ub
  simp only [HM.bind, h R s hg hw]

/-- First something that goes well. -/
theorem Ubs.seq {P : HProp K V} {m : HM K V α} {f : α → HM K V β} {Qb : α → HProp K V} (h : Triple (fun _ => False) P m Qb)
    (h' : ∀ a, Ubs (Qb a) (f a)) : Ubs P (m >>= f) := by
  intro R s hg hw
  have h1 := h R s hg hw
  show HM.bind m f s = .ub
  unfold HM.bind
  cases hm : m s with
  | ok r =>
    rw [hm] at h1
    exact h' r.1 R r.2 h1.1 h1.2
  | ub => rfl
  | panic msg => rw [hm] at h1; exact h1.elim

/-- Asked when nothing is left, the iterator frees the whole path up to the root and dereferences the parent of the root. -/
theorem nextUp_ub : ∀ {h : Nat} {l : Link} {p : PT K V}, p.Good h → p.popFront h = none → p.RightFull h → l.1 = none →
    Ubs (p.mem l h) (nextUp h (p.first h))
  | 0, l, p, hg, hn, hr, hl => by
    obtain ⟨a, pre, kvs, ks, post⟩ := p
    obtain ⟨l1, l2⟩ := l
    dsimp only at hl
    subst hl
    cases kvs with
    | cons kv r => simp [PT.popFront] at hn
    | nil =>
      simp only [PT.RightFull] at hr
      subst hr
      rw [PT.mem_leaf]
      refine Ubs.ofFact fun hcap => ?_
      rw [show PT.first 0 (⟨a, pre, [], ks, []⟩ : PT K V) = ⟨0, a, pre.length⟩ from rfl]
      unfold nextUp
      dsimp only
      refine Ubs.seq Triple.lenOf' fun n => ?_
      refine Ubs.ofFact fun hlen => ?_
      subst hlen
      rw [if_neg (by show ¬ pre.length < pre.length + ([] : List (K × V)).length + ([] : List Addr).length; simp)]
      refine Ubs.seq (Qb := fun o => fact (o = none)) ?_ fun o => ?_
      · refine Triple.last ?_
        refine Triple.bindDeallocNone (a := a) rfl rfl ?_
        exact Triple.ofPure (Ent.putFact rfl (Ent.refl _))
      · refine Ubs.pre (P := fact (o = none) ∗ emp) ?_ (Ent.of_eq (sep_emp _).symm)
        refine Ubs.ofFact fun ho => ?_
        subst ho
        exact Ubs.ub
  | h + 1, l, p, hg, hn, hr, hl => by
    obtain ⟨c, cs, hk, hlen⟩ := hg.kids_cons
    obtain ⟨a, pre, kvs, ks, post⟩ := p
    obtain ⟨l1, l2⟩ := l
    dsimp only at hk hlen hl
    subst hk hl
    obtain ⟨_, g1, g2, g3⟩ := hg
    dsimp only [List.tail_cons] at g1 g2 g3
    have hgc := g3 c (by simp)
    cases hc : c.popFront h with
    | some x => simp [PT.popFront, hc] at hn
    | none =>
    cases kvs with
    | cons kv r => simp [PT.popFront, hc] at hn
    | nil =>
    have hcs : cs = [] := List.eq_nil_of_length_eq_zero hlen
    subst hcs
    have hr1 := hr.1
    dsimp only at hr1
    subst hr1
    rw [PT.mem_cons]
    refine Ubs.ofFact fun hcap => ?_
    simp only [PT.first, nextUp]
    have h1 := nextUp_spec (E := fun _ => False) (l := (some a, some pre.length)) hgc fun _ => ⟨hr.2 c (by simp), _, _, rfl⟩
    rw [nextPost_none hc] at h1
    refine Ubs.pre (P := PT.mem (some a, some pre.length) h c ∗ pts a (cell .internal (none, l2) (pre.length + ([] : List (K × V)).length + ([] : List Addr).length)
      (.shifted pre.length []) (.ofList (pre ++ (c.addr :: (([] : List (PT K V)).map (·.addr) ++ []))))) ∗ PT.sub h a (pre.length + 1) []) ?_ (by ent_ac)
    refine Ubs.seq (h1.frame _) fun o => ?_
    refine Ubs.ofFact fun ho => ?_
    obtain ⟨pa, pi, e, ho⟩ := ho
    simp only [Prod.mk.injEq, Option.some.injEq] at e
    obtain ⟨rfl, rfl⟩ := e
    subst ho
    simp only [goOn]
    unfold intoNextStep
    refine Ubs.seq (Triple.lenOf'.frame _) fun n => ?_
    rw [sep_assoc]
    refine Ubs.ofFact fun hn => ?_
    subst hn
    rw [if_neg (by show ¬ pre.length < pre.length + ([] : List (K × V)).length + ([] : List Addr).length; simp)]
    refine Ubs.seq (Qb := fun o => fact (o = none) ∗ PT.sub h a (pre.length + 1) []) ?_ fun o => ?_
    · refine Triple.last ?_
      refine Triple.bindDeallocNone (a := a) rfl rfl ?_
      exact Triple.ofPure (Ent.putFact rfl (Ent.refl _))
    · refine Ubs.ofFact fun ho => ?_
      subst ho
      exact Ubs.ub

/-- `next` when the tree is exhausted but the length is not. -/
theorem next_ub {H : Nat} {p : PT K V} {pi : Option Nat} {it : HIntoIter} (hg : p.Good H) (he : p.list H = []) (hr : p.RightFull H)
    (hf : it.front = p.first H) (hl : it.length ≠ 0) : Ubs (p.mem (none, pi) H) (it.next H : HM K V _) := by
  rw [next_eq hl, hf]
  refine Ubs.left ?_
  refine nextUp_ub hg ?_ hr rfl
  cases hp : p.popFront H with
  | none => rfl
  | some x => rw [PT.popFront_list hg hp] at he; cases he

/-- `next` while there are items, whatever the length. -/
theorem next_item {E : String → Prop} {H : Nat} {p : PT K V} {pi : Option Nat} {it : HIntoIter} {kv : K × V} {l : List (K × V)} (hg : p.Good H)
    (he : p.list H = kv :: l) (hr : p.RightFull H) (hf : it.front = p.first H) (hl : it.length ≠ 0) :
    ∃ p' : PT K V, p'.Good H ∧ p'.list H = l ∧ p'.RightFull H ∧
      Triple E (p.mem (none, pi) H) (it.next H : HM K V _) (fun o =>
        fact (o = (some kv, { it with front := p'.first H, length := it.length - 1 })) ∗ p'.mem (none, pi) H) := by
  cases hp : p.popFront H with
  | none => rw [PT.popFront_none hg hp] at he; cases he
  | some x =>
    obtain ⟨kv', p'⟩ := x
    have h1 := PT.popFront_list hg hp
    rw [he] at h1
    simp only [List.cons.injEq] at h1
    obtain ⟨rfl, h1⟩ := h1
    refine ⟨p', PT.popFront_good hg hp, h1.symm, PT.popFront_right hg hp hr, ?_⟩
    rw [next_eq hl, hf]
    have h2 := nextUp_spec (E := E) (l := (none, pi)) hg (fun h => by rw [hp] at h; cases h)
    rw [nextPost_some hp] at h2
    refine Triple.callEq h2 ?_
    simp only [sep_emp]
    show Triple E _ (pure (_, _)) _
    exact Triple.ofPure (Ent.fact_right rfl (Ent.refl _))

theorem drain_ub {H : Nat} : ∀ (n : Nat) {p : PT K V} {pi : Option Nat} {it : HIntoIter}, p.Good H → p.RightFull H →
    it.front = p.first H → (p.list H).length < it.length → Ubs (p.mem (none, pi) H) (it.drain H n : HM K V _)
  | 0, _, _, _, _, _, _, _ => Ubs.ub
  | n + 1, p, pi, it, hg, hr, hf, hl => by
    unfold HIntoIter.drain
    cases he : p.list H with
    | nil => exact Ubs.left (next_ub hg he hr hf (by omega))
    | cons kv l =>
      obtain ⟨p', h1, h2, h3, h4⟩ := next_item (E := fun _ => False) (pi := pi) hg he hr hf (by omega)
      refine Ubs.seq h4 fun o => ?_
      refine Ubs.ofFact fun ho => ?_
      subst ho
      dsimp only
      exact Ubs.left (drain_ub n h1 h3 rfl (by rw [he] at hl; simp only [List.length_cons] at hl; rw [h2]; dsimp only; omega))

/-- Asking the front for every item there is. -/
theorem asks_fronts {E : String → Prop} {H : Nat} : ∀ (n : Nat) {p : PT K V} {pi : Option Nat} {it : HIntoIter}, p.Good H → p.RightFull H →
    it.front = p.first H → (p.list H).length < it.length → n ≤ (p.list H).length →
    Triple E (p.mem (none, pi) H) (it.asks H (List.replicate n .front) : HM K V _)
      (fun o => fact (o.1 = ((p.list H).take n).map some) ∗ anything)
  | 0, p, pi, it, _, _, _, _, _ => by
    refine Triple.ofPure (Ent.fact_right rfl fun _ _ => trivial)
  | n + 1, p, pi, it, hg, hr, hf, hl, hn => by
    show Triple E _ (HIntoIter.ask H it .front >>= _) _
    cases he : p.list H with
    | nil => rw [he] at hn; simp at hn
    | cons kv l =>
      obtain ⟨p', h1, h2, h3, h4⟩ := next_item (E := E) (pi := pi) hg he hr hf (by omega)
      refine Triple.callEq h4 ?_
      rw [sep_emp]
      rw [he] at hn hl
      simp only [List.length_cons] at hn hl
      refine Triple.seq (asks_fronts n h1 h3 rfl (by rw [h2]; dsimp only; omega) (by rw [h2]; omega)) fun r => ?_
      refine Triple.ofFact fun hx => ?_
      refine Triple.ofPure (Ent.fact_right ?_ (Ent.refl _))
      rw [hx, h2]; rfl

/-- Asking the front once more than there are items. -/
theorem asks_ub {H : Nat} : ∀ (n : Nat) {p : PT K V} {pi : Option Nat} {it : HIntoIter}, p.Good H → p.RightFull H →
    it.front = p.first H → (p.list H).length < it.length → (p.list H).length < n →
    Ubs (p.mem (none, pi) H) (it.asks H (List.replicate n .front) : HM K V _)
  | 0, _, _, _, _, _, _, _, hn => by omega
  | n + 1, p, pi, it, hg, hr, hf, hl, hn => by
    show Ubs _ (HIntoIter.ask H it .front >>= _)
    cases he : p.list H with
    | nil => exact Ubs.left (next_ub hg he hr hf (by omega))
    | cons kv l =>
      obtain ⟨p', h1, h2, h3, h4⟩ := next_item (E := fun _ => False) (pi := pi) hg he hr hf (by omega)
      refine Ubs.seq h4 fun o => ?_
      refine Ubs.ofFact fun ho => ?_
      subst ho
      rw [he] at hn hl
      simp only [List.length_cons] at hn hl
      exact Ubs.left (asks_ub n h1 h3 rfl (by rw [h2]; dsimp only; omega) (by rw [h2]; omega))

/-- `into_iter` of a map with its own root, whatever the length. -/
theorem intoIter_any {E : String → Prop} {hm : HMap} {M : Map K V} (hs : M.shared = false) :
    Triple E (rep hm M) (hm.intoIter : HM K V HIntoIter) (fun it => hex fun x : PT K V × Option Nat =>
      fact (x.1.Good hm.root.height ∧ x.1.RightFull hm.root.height ∧ it.front = x.1.first hm.root.height ∧ it.length = M.length ∧
        x.1.list hm.root.height = M.toList) ∗ x.1.mem (none, x.2) hm.root.height) := by
  refine Triple.ofHex fun ta => ?_
  obtain ⟨H, root, shared, len⟩ := M
  dsimp only at hs ⊢
  subst hs
  rw [own_owned rfl]
  refine Triple.ofHex fun pi => ?_
  refine Triple.getFact fun hf => ?_
  obtain ⟨rfl, rfl⟩ := hf
  refine Triple.pre ?_ (PT.tree_ofA H _ ta)
  refine Triple.getFact fun hfull => ?_
  obtain ⟨h1, h2, h3⟩ := hfull
  unfold HMap.intoIter
  dsimp only
  have f1 := firstLeafEdge_pt (E := E) (l := (none, pi)) h2 h1
  have f2 := lastLeafEdge_pt (E := E) (l := (none, pi)) h3 h1
  rw [PT.ofA_addr] at f1 f2
  refine Triple.callEq f1 ?_
  refine Triple.callEq f2 ?_
  refine Triple.ofPure ?_
  simp only [sep_emp]
  exact Ent.hex_right (PT.ofA H ta, pi) (Ent.fact_right ⟨h1, h3, by trivial, by trivial, PT.ofA_list H ta⟩ (Ent.refl _))

/-- Dropping a map whose length says more than there is. -/
theorem mapDrop_ub {hm : HMap} {M : Map K V} (hs : M.shared = false) (hl : M.toList.length < M.length) :
    Ubs (rep hm M) (hm.drop : HM K V _) := by
  unfold HMap.drop
  refine Ubs.seq (intoIter_any hs) fun it => ?_
  refine Ubs.ofHex fun x => ?_
  refine Ubs.ofFact fun hx => ?_
  obtain ⟨h1, h2, h3, h4, h5⟩ := hx
  unfold HIntoIter.drop
  exact Ubs.left (drain_ub _ h1 h2 h3 (by rw [h5, h4]; exact hl))

/-- Giving its entries out from the front. -/
theorem intoIter_fronts {E : String → Prop} {hm : HMap} {M : Map K V} (hs : M.shared = false) (hl : M.toList.length < M.length) {n : Nat}
    (hn : n ≤ M.toList.length) :
    Triple E (rep hm M) (hm.intoIter >>= fun it => it.asks hm.root.height (List.replicate n .front) : HM K V _)
      (fun o => fact (o.1 = (M.toList.take n).map some) ∗ anything) := by
  refine Triple.seq (intoIter_any hs) fun it => ?_
  refine Triple.ofHex fun x => ?_
  refine Triple.ofFact fun hx => ?_
  obtain ⟨h1, h2, h3, h4, h5⟩ := hx
  rw [← h5]
  exact asks_fronts n h1 h2 h3 (by rw [h5, h4]; exact hl) (by rw [h5]; exact hn)

theorem intoIter_ub {hm : HMap} {M : Map K V} (hs : M.shared = false) (hl : M.toList.length < M.length) {n : Nat}
    (hn : M.toList.length < n) :
    Ubs (rep hm M) (hm.intoIter >>= fun it => it.asks hm.root.height (List.replicate n .front) : HM K V _) := by
  refine Ubs.seq (intoIter_any hs) fun it => ?_
  refine Ubs.ofHex fun x => ?_
  refine Ubs.ofFact fun hx => ?_
  obtain ⟨h1, h2, h3, h4, h5⟩ := hx
  exact asks_ub n h1 h2 h3 (by rw [h5, h4]; exact hl) (by rw [h5]; exact hn)

end Verif.Heap
