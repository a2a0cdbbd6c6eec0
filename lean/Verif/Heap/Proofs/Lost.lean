import Verif.Heap.Proofs.GoOn
import Verif.BTree.Proofs.Gone
import Verif.Heap.Proofs.UnwindSplit
/-
What a failed insertion and a careful program leave without an owner.
-/
namespace Verif.Heap
open Verif
open Verif.BTree (Map Loose Gone)
open Verif.Spec (Op Out soundOf)

variable {K V Q : Type} {E : String → Prop}

theorem insertCall_exact [Ord K] {hm : HMap} {M M' : Map K V} {k : K} {v : V} {al al' : Alloc} {e : TryReserveError}
    (hx : M.tryInsert k v al = .ok (.error e, M', al')) :
    Triple E (rep hm M ∗ sched al) (hm.insertCall k v) (fun r =>
      hex fun g : Gone K V => fact (r.1 = .failed ∧ M.insertGone k v al = some g) ∗ rep r.2 M' ∗ sched al' ∗ leaked g.half) := by
  unfold HMap.insertCall
  refine Triple.seq (Q := fun o => sched al' ∗ InsertExact M' (M.insertGone k v al) (.error e) o) ?_ fun r => ?_
  · unfold rep
    rw [hex_sep]
    exact Triple.ofHex fun ta => tryInsert_exact hx
  · obtain ⟨r, hm1⟩ := r
    simp only [InsertExact, sep_hex]
    refine Triple.ofHex fun g => ?_
    refine Triple.pre (P := fact (r = none ∧ M.insertGone k v al = some g) ∗ sched al' ∗ rep hm1 M' ∗ leaked g.half) ?_ (by ent_ac)
    refine Triple.getFact fun hf => ?_
    obtain ⟨rfl, hg⟩ := hf
    refine Triple.ofPure ?_
    refine Ent.hex_right g (Ent.fact_right ⟨rfl, hg⟩ ?_)
    ent_ac

theorem insert_exact [Ord K] [Ord Q] (bor : K → Q) {hs : List HMap} {ms : List (Map K V)} {i : Nat} {M M' : Map K V} {k : K} {v : V} {al al' : Alloc} {e : TryReserveError}
    (hi : ms[i]? = some M) (hx : M.tryInsert k v al = .ok (.error e, M', al')) :
    Triple E (pool hs ms ∗ sched al) (Op.hrun bor hs (.insert i k v : Op K V Q)) (fun r =>
      hex fun g : Gone K V => fact (r.1 = .failed ∧ M.insertGone k v al = some g) ∗ pool r.2 (ms.set i M') ∗ sched al' ∗ leaked g.half) := by
  refine Triple.pre ?_ (Ent.frame pool_length _)
  rw [sep_assoc]
  refine Triple.getFact fun hl => ?_
  simp only [Op.hrun, onHMap]
  obtain ⟨hm, F, e1, e2, e3⟩ := pool_split hl hi
  rw [e1, e2]
  refine Triple.pre (P := (rep hm M ∗ sched al) ∗ F) ?_ (by ent_ac)
  refine Triple.seq ((insertCall_exact hx).frame F) fun r => ?_
  rw [hex_sep]
  refine Triple.ofHex fun g => ?_
  rw [sep_assoc]
  refine Triple.getFact fun hr => ?_
  refine Triple.ofPure ?_
  refine Ent.hex_right g (Ent.fact_right hr ?_)
  rw [e3]
  ent_ac

theorem pool_both : ∀ {hs hs' : List HMap} {ms ms' : List (Map K V)}, hs.length = ms.length → pool (hs ++ hs') (ms ++ ms') = (pool hs ms ∗ pool hs' ms')
  | [], _, [], _, _ => (emp_sep _).symm
  | [], _, _ :: _, _, h => by simp at h
  | _ :: _, _, [], _, h => by simp at h
  | h :: hs, hs', m :: ms, ms', hl => by
    simp only [List.cons_append, pool_cons]
    rw [pool_both (by simpa using hl), sep_assoc]

/-- What belongs to the maps that are in `bad`. -/
def harmedOf {α : Type} (bad : List Nat) : Nat → List α → List α
  | _, [] => []
  | n, l :: s => if bad.contains n then l :: harmedOf bad (n + 1) s else harmedOf bad (n + 1) s

/-- Dropping the maps that were not harmed takes away just those. -/
theorem dropSound_exact {bad : List Nat} : ∀ {n : Nat} {hs : List HMap} {p : List (Map K V)},
    (∀ i m, p[i]? = some m → n + i ∉ bad → m.length = m.toList.length) →
    Triple E (pool hs p) (dropSound bad n hs) (fun r => fact (r = soundOf bad n (p.map Map.toList)) ∗ pool (harmedOf bad n hs) (harmedOf bad n p))
  | _, [], [], _ => Triple.ofPure (Ent.fact_right rfl (Ent.refl _))
  | _, [], _ :: _, _ => Triple.ofFalse
  | _, _ :: _, [], _ => Triple.ofFalse
  | n, h :: hs, m :: p, hp => by
    have hp' : ∀ i m, p[i]? = some m → n + 1 + i ∉ bad → m.length = m.toList.length :=
      fun i m hi hb => hp (i + 1) m (by simpa using hi) (by rwa [show n + (i + 1) = n + 1 + i by omega])
    rw [pool_cons]
    unfold dropSound
    cases hb : bad.contains n with
    | true =>
      rw [if_pos rfl]
      refine Triple.pre (P := pool hs p ∗ rep h m) ?_ (by ent_ac)
      refine ((dropSound_exact hp').frame _).post fun r => ?_
      rw [sep_assoc]
      refine Ent.fact_left fun hr => Ent.fact_right ?_ ?_
      · rw [hr, List.map_cons, soundOf, hb, if_pos rfl]
      · simp only [harmedOf, hb, if_true, pool_cons]
        ent_ac
    | false =>
      rw [if_neg (by simp)]
      refine Triple.seq ((mapDrop_spec (hp 0 m rfl (by simpa using hb))).frame _) fun l => ?_
      refine Triple.getFact fun hl => ?_
      refine Triple.seq (dropSound_exact hp') fun ls => ?_
      refine Triple.getFact fun hls => ?_
      refine Triple.ofPure (Ent.fact_right ?_ ?_)
      · rw [hl, hls, List.map_cons, soundOf, hb, if_neg (by simp)]
        rfl
      · simp only [harmedOf, hb]
        exact Ent.refl _

/-! ### all the calls that insert fail in the same way -/

theorem insertCall_vacant [Ord K] {m m1 m' : HMap} {k k1 : K} {v : V} {h : HRef} {s s1 s' : Heap K V} (h1 : m.tryEntry k s = .ok ((some (.vacant k1 h), m1), s1))
    (h2 : m1.vacantInsert h (k1, v) s1 = .ok ((none, m'), s')) : m.insertCall k v s = .ok ((.failed, m'), s') := by
  unfold HMap.insertCall HMap.tryInsert
  refine run_bind.2 ⟨(none, m'), s', run_bind.2 ⟨_, _, h1, ?_⟩, rfl⟩
  exact run_bind.2 ⟨_, _, h2, rfl⟩

theorem insertCall_none [Ord K] {m m' : HMap} {k : K} {v : V} {s s' : Heap K V} (h1 : m.tryEntry k s = .ok ((none, m'), s')) :
    m.insertCall k v s = .ok ((.failed, m'), s') := by
  unfold HMap.insertCall HMap.tryInsert
  exact run_bind.2 ⟨(none, m'), s', run_bind.2 ⟨_, _, h1, rfl⟩, rfl⟩

theorem entryOrInsert_failed [Ord K] {m m' : HMap} {k : K} {v : V} {f : V → V} {s s' : Heap K V}
    (h : m.entryOrInsert k v f s = .ok ((.failed, m'), s')) : m.insertCall k v s = .ok ((.failed, m'), s') := by
  unfold HMap.entryOrInsert at h
  obtain ⟨⟨e, m1⟩, s1, h1, h⟩ := run_bind.1 h
  cases e with
  | none =>
    obtain ⟨rfl, rfl⟩ : m1 = m' ∧ s1 = s' := by simpa [pure] using h
    exact insertCall_none h1
  | some e =>
    obtain ⟨⟨r, m2⟩, s2, h2, h⟩ := run_bind.1 h
    cases r with
    | some hr =>
      obtain ⟨_, _, _, h⟩ := run_bind.1 h
      obtain ⟨_, _, _, h⟩ := run_bind.1 h
      simp [pure] at h
    | none =>
      obtain ⟨rfl, rfl⟩ : m2 = m' ∧ s2 = s' := by simpa [pure] using h
      cases e with
      | occupied hr => simp [HMap.orTryInsert, pure] at h2
      | vacant k1 hr => exact insertCall_vacant h1 h2

theorem entryOrInsertWith_failed [Ord K] {m m' : HMap} {k : K} {v : V} {f : V → V} {s s' : Heap K V}
    (h : m.entryOrInsertWith k v f s = .ok ((.failed, m'), s')) : m.insertCall k v s = .ok ((.failed, m'), s') := by
  unfold HMap.entryOrInsertWith at h
  obtain ⟨⟨e, m1⟩, s1, h1, h⟩ := run_bind.1 h
  cases e with
  | none =>
    obtain ⟨rfl, rfl⟩ : m1 = m' ∧ s1 = s' := by simpa [pure] using h
    exact insertCall_none h1
  | some e =>
    obtain ⟨⟨r, m2⟩, s2, h2, h⟩ := run_bind.1 h
    cases r with
    | some hr =>
      obtain ⟨_, _, _, h⟩ := run_bind.1 h
      simp [pure] at h
    | none =>
      obtain ⟨rfl, rfl⟩ : m2 = m' ∧ s2 = s' := by simpa [pure] using h
      cases e with
      | occupied hr => simp [HMap.orTryInsert, pure] at h2
      | vacant k1 hr => exact insertCall_vacant h1 h2

theorem replaceCall_failed [Ord K] {m m' : HMap} {k : K} {v : V} {s s' : Heap K V}
    (h : m.replaceCall k v s = .ok ((.failed, m'), s')) : m.insertCall k v s = .ok ((.failed, m'), s') := by
  unfold HMap.replaceCall at h
  obtain ⟨⟨r, m1⟩, s1, h1, h⟩ := run_bind.1 h
  cases r with
  | some old => simp [pure] at h
  | none =>
    obtain ⟨rfl, rfl⟩ : m1 = m' ∧ s1 = s' := by simpa [pure] using h
    unfold HMap.replaceKey at h1
    obtain ⟨r, s2, h2, h1⟩ := run_bind.1 h1
    cases r with
    | none =>
      obtain ⟨rfl, rfl⟩ : m = m1 ∧ s2 = s1 := by simpa [pure] using h1
      refine insertCall_none ?_
      unfold HMap.tryEntry
      exact run_bind.2 ⟨none, s2, h2, rfl⟩
    | some m2 =>
      obtain ⟨r, s3, h3, h1⟩ := run_bind.1 h1
      cases r with
      | found hr =>
        obtain ⟨_, _, _, h1⟩ := run_bind.1 h1
        simp [pure] at h1
      | goDown hr =>
        obtain ⟨⟨x, m3⟩, s4, h4, h1⟩ := run_bind.1 h1
        cases x with
        | some _ => simp [pure] at h1
        | none =>
          obtain ⟨rfl, rfl⟩ : m3 = m1 ∧ s4 = s1 := by simpa [pure] using h1
          refine insertCall_vacant (k1 := k) (h := hr) ?_ h4
          unfold HMap.tryEntry
          exact run_bind.2 ⟨some m2, s2, h2, run_bind.2 ⟨_, s3, h3, rfl⟩⟩

/-- A call that can insert an entry and fails does what a failing `try_insert` does. -/
theorem hrun_fails [Ord K] [Ord Q] {bor : K → Q} {p p' : List HMap} {s s' : Heap K V} {op : Op K V Q} {i : Nat} {k : K} {v : V} (ho : op.inserting = some (i, k, v))
    (hf : Op.hrun bor p op s = .ok ((.failed, p'), s')) : Op.hrun bor p (.insert i k v : Op K V Q) s = .ok ((.failed, p'), s') := by
  have key : ∀ {F : HMap → HM K V (Out K V × HMap)}, (∀ m m' s s', F m s = .ok ((.failed, m'), s') → m.insertCall k v s = .ok ((.failed, m'), s')) →
      onHMap p i F s = .ok ((.failed, p'), s') → onHMap p i (fun m => m.insertCall k v) s = .ok ((.failed, p'), s') := by
    intro F hF h
    unfold onHMap at h ⊢
    cases hi : p[i]? with
    | none => rw [hi] at h; simp [pure] at h
    | some m =>
      rw [hi] at h
      dsimp only at h ⊢
      obtain ⟨⟨o, m'⟩, s1, h1, h2⟩ := run_bind.1 h
      obtain ⟨⟨rfl, rfl⟩, rfl⟩ : (o = .failed ∧ p.set i m' = p') ∧ s1 = s' := by simpa [pure] using h2
      exact run_bind.2 ⟨_, _, hF _ _ _ _ h1, rfl⟩
  cases op <;> simp only [Op.inserting, Option.some.injEq, reduceCtorEq, Prod.mk.injEq] at ho <;> obtain ⟨rfl, rfl, rfl⟩ := ho
  · exact hf
  · exact key (fun _ _ _ _ h => entryOrInsert_failed h) hf
  · exact key (fun _ _ _ _ h => entryOrInsertWith_failed h) hf
  · exact key (fun _ _ _ _ h => replaceCall_failed h) hf

end Verif.Heap
