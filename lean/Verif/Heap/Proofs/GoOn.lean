import Verif.Heap.GoOn
import Verif.Heap.Proofs.Program
/-
Programs in memory that go on after a failed insertion do what the level-1 model says.
-/
namespace Verif.Heap
open Verif
open Verif.BTree (Map Loose)
open Verif.Spec (Op Out soundOf)

variable {K V Q α β : Type} {E : String → Prop} {pl : Nat → Addr}

theorem pool_lengths : ∀ {hs : List HMap} {ms : List (Map K V)}, Ent (pool hs ms) (fact (hs.map HMap.length = ms.map Map.len) ∗ pool hs ms)
  | [], [] => Ent.fact_right rfl (Ent.refl _)
  | [], _ :: _ => fun _ hw => hw.1.elim
  | _ :: _, [] => fun _ hw => hw.1.elim
  | h :: hs, m :: ms => by
    rw [pool_cons]
    refine Ent.trans (Ent.sep rep_length pool_lengths) ?_
    refine Ent.trans (Q := fact (h.length = m.length) ∗ fact (hs.map HMap.length = ms.map Map.len) ∗ rep h m ∗ pool hs ms) (by ent_ac) ?_
    refine Ent.fact_left fun h1 => Ent.fact_left fun h2 => Ent.fact_right ?_ (Ent.refl _)
    simp only [List.map_cons, h1, h2, Map.len]

theorem spill_any {b : Bool} {o : Out K V} : Ent (spill b o) (anything : HProp K V) := fun _ _ => trivial

theorem any_any : Ent (anything ∗ anything) (anything : HProp K V) := fun _ _ => trivial

/-- `n` pieces of memory that no map owns, each of which is laid out like a map with the right length. -/
def litters (n : Nat) : HProp K V :=
  hex fun x : List HMap × List (Map K V) => fact (x.1.length = n ∧ ∀ M ∈ x.2, M.length = M.toList.length) ∗ pool x.1 x.2

theorem litters_nil : Ent (emp : HProp K V) (litters 0) := Ent.hex_right ([], []) (Ent.fact_right ⟨rfl, by simp⟩ (Ent.refl _))

theorem litters_cons {n : Nat} : Ent (litter ∗ litters n) (litters (n + 1) : HProp K V) := by
  unfold litter litters
  rw [hex_sep]
  rintro w ⟨x, hw⟩
  rw [sep_hex] at hw
  obtain ⟨y, hw⟩ := hw
  rw [sep_assoc] at hw
  obtain ⟨h1, hw⟩ := fact_sep.1 hw
  rw [sep_comm, sep_assoc] at hw
  obtain ⟨h2, hw⟩ := fact_sep.1 hw
  refine ⟨(x.1 :: y.1, x.2 :: y.2), fact_sep.2 ⟨⟨by simp [h2.1], ?_⟩, ?_⟩⟩
  · intro M hM
    rcases List.mem_cons.1 hM with rfl | hM
    · exact h1
    · exact h2.2 M hM
  · rw [pool_cons, sep_comm]; exact hw

/-- Whether a call failed. -/
def isFailed : Out K V → Bool
  | .failed => true
  | _ => false

theorem litters_spill {n : Nat} {b : Bool} {o : Out K V} {os : List (Out K V)} (h : n = os.countP isFailed) :
    Ent (litters n ∗ spill b o) (litters ((o :: os).countP isFailed)) := by
  subst h
  rw [sep_comm, List.countP_cons]
  cases hf : isFailed o with
  | true =>
    rw [if_pos rfl]
    refine Ent.trans (Ent.frame (Q := litter) ?_ _) litters_cons
    cases b with
    | false => rw [spill_false]; exact emp_litter
    | true => cases o <;> first | exact Ent.refl _ | cases hf
  | false =>
    have : o ≠ .failed := by rintro rfl; cases hf
    rw [spill_ne this, emp_sep]
    exact Ent.refl _

/-- What a careful program leaves behind: besides its maps, whatever was lost by the failed insertions. -/
def GoOnPost [Ord K] [Ord Q] (bor : K → Q) (ops : List (Op K V Q)) (bad : List Nat) (p : List (Map K V)) (al : Alloc)
    (r : List (Out K V) × List Nat × List HMap) : HProp K V :=
  hex fun y : List (Map K V) × Alloc =>
    fact (BTree.Op.goOn bor ops bad p al = .ok (r.1, r.2.1, y.1, y.2) ∧ Loose Map.Shaped r.2.1 y.1) ∗ pool r.2.2 y.1 ∗ sched y.2 ∗ litters (r.1.countP isFailed)

theorem hgoOn_ref [Ord K] [Ord Q] (bor : K → Q) : ∀ (ops : List (Op K V Q)) {bad : List Nat} {hs : List HMap} {p : List (Map K V)} (_ : Loose Map.Shaped bad p)
    (al : Alloc) (_ : ∀ msg, BTree.Op.goOn bor ops bad p al = .panic msg → E msg),
    Triple E (pool hs p ∗ sched al) (Op.hgoOn bor ops bad hs) (GoOnPost bor ops bad p al)
  | [], bad, hs, p, hp, al, hE => by
    refine Triple.ofPure ?_
    unfold GoOnPost
    refine Ent.hex_right (p, al) ?_
    refine Ent.fact_right ⟨rfl, hp⟩ ?_
    refine Ent.trans (Q := pool hs p ∗ sched al ∗ emp) (by rw [sep_emp]; exact Ent.refl _) ?_
    exact Ent.sep (Ent.refl _) (Ent.sep (Ent.refl _) litters_nil)
  | op :: ops, bad, hs, p, hp, al, hE => by
    unfold Op.hgoOn
    unfold BTree.Op.goOn at hE
    cases ht : op.trusts bad with
    | true =>
      rw [if_pos rfl]
      rw [ht, if_pos rfl] at hE
      refine Triple.seq (hgoOn_ref bor ops hp al fun msg h => hE msg (by simp [h])) fun rs => ?_
      unfold GoOnPost
      refine Triple.ofHex fun y => ?_
      refine Triple.getFact fun hy => ?_
      refine Triple.ofPure ?_
      refine Ent.hex_right y ?_
      refine Ent.fact_right ⟨?_, hy.2⟩ (Ent.refl _)
      unfold BTree.Op.goOn
      rw [ht, if_pos rfl, hy.1]
      rfl
    | false =>
      rw [if_neg (by simp)]
      rw [ht, if_neg (by simp)] at hE
      refine Triple.pre ?_ (Ent.frame pool_lengths _)
      rw [sep_assoc]
      refine Triple.getFact fun hl => ?_
      rw [hl]
      refine Triple.seq (hrun_loose bor hp al op ht fun msg h => hE msg (by simp [h])) fun r => ?_
      obtain ⟨o, hs'⟩ := r
      unfold PoolPost
      refine Triple.ofHex fun y => ?_
      obtain ⟨p', al'⟩ := y
      dsimp only
      refine Triple.getFact fun hx => ?_
      have hp' : Loose Map.Shaped (op.mark bad (p.map Map.len) o) p' := by
        rcases BTree.Op.run_loose bor hp al op ht with ⟨msg, h⟩ | ⟨o2, p2, a2, h, h2⟩
        · rw [hx] at h; cases h
        · rw [hx] at h
          simp only [Exec.ok.injEq, Prod.mk.injEq] at h
          obtain ⟨rfl, rfl, rfl⟩ := h
          exact h2
      refine Triple.pre (P := (pool hs' p' ∗ sched al') ∗ spill op.inserts o) ?_ (by ent_ac)
      refine Triple.seq ((hgoOn_ref bor ops hp' al' fun msg h => hE msg (by simp [hx, h])).frame _) fun rs => ?_
      unfold GoOnPost
      rw [hex_sep]
      refine Triple.ofHex fun y => ?_
      rw [sep_assoc]
      refine Triple.getFact fun hy => ?_
      refine Triple.ofPure ?_
      refine Ent.hex_right y ?_
      refine Ent.fact_right ⟨?_, hy.2⟩ ?_
      · unfold BTree.Op.goOn
        rw [ht, if_neg (by simp), hx]
        simp only [Exec.ok_bind, hy.1]
      · refine Ent.trans (Q := pool rs.2.2 y.1 ∗ sched y.2 ∗ (litters (rs.1.countP isFailed) ∗ spill op.inserts o)) (by ent_ac) ?_
        exact Ent.sep (Ent.refl _) (Ent.sep (Ent.refl _) (litters_spill rfl))

theorem soundOf_map {f : α → β} {bad : List Nat} : ∀ {n : Nat} {l : List α}, soundOf bad n (l.map f) = (soundOf bad n l).map f
  | _, [] => rfl
  | n, a :: l => by
    simp only [List.map_cons, soundOf]
    split
    · exact soundOf_map
    · rw [List.map_cons, soundOf_map]

/-- Dropping the maps that were not harmed. -/
theorem dropSound_spec {bad : List Nat} : ∀ {n : Nat} {hs : List HMap} {p : List (Map K V)},
    (∀ i m, p[i]? = some m → n + i ∉ bad → m.length = m.toList.length) →
    Triple E (pool hs p) (dropSound bad n hs) (fun r => fact (r = soundOf bad n (p.map Map.toList)) ∗ anything)
  | _, [], [], _ => Triple.ofPure (Ent.fact_right rfl fun _ _ => trivial)
  | _, [], _ :: _, _ => Triple.ofFalse
  | _, _ :: _, [], _ => Triple.ofFalse
  | n, h :: hs, m :: p, hp => by
    have hp' : ∀ i m, p[i]? = some m → n + 1 + i ∉ bad → m.length = m.toList.length :=
      fun i m hi hb => hp (i + 1) m (by simpa using hi) (by rwa [show n + (i + 1) = n + 1 + i by omega])
    rw [pool_cons]
    unfold dropSound
    cases hb : bad.contains n with
    | true =>
      rw [if_pos rfl]
      refine Triple.pre (P := pool hs p ∗ rep h m) ?_ (by ent_ac)
      refine ((dropSound_spec hp').frame _).post fun r => ?_
      rw [sep_assoc]
      refine Ent.fact_left fun hr => Ent.fact_right ?_ fun _ _ => trivial
      rw [hr, List.map_cons, soundOf, hb, if_pos rfl]
    | false =>
      rw [if_neg (by simp)]
      refine Triple.seq ((mapDrop_spec (hp 0 m rfl (by simpa using hb))).frame _) fun l => ?_
      refine Triple.getFact fun hl => ?_
      refine Triple.seq (dropSound_spec hp') fun ls => ?_
      refine Triple.getFact fun hls => ?_
      refine Triple.ofPure (Ent.fact_right ?_ fun _ _ => trivial)
      rw [hl, hls, List.map_cons, soundOf, hb, if_neg (by simp)]
      rfl

end Verif.Heap
