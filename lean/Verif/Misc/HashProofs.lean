import Verif.Misc.HashMap
import Verif.Vec.Proofs3
/-
Facts about the hash map model.
-/
namespace Verif.Misc
open Verif Verif.Vec

variable {K V Q σ : Type}

/-- No two entries with equal keys. -/
def Distinct [BEq K] (l : List (K × V)) : Prop := l.Pairwise (fun a b => (a.1 == b.1) = false)

/-- A borrowed form of keys compares like the keys themselves. -/
def BorrowEq [BEq K] [BEq Q] (bor : K → Q) : Prop := ∀ a b : K, (bor a == bor b) = (a == b)

/-- The value of the entry whose key equals `q`. -/
def lookup [BEq Q] (bor : K → Q) (q : Q) (l : List (K × V)) : Option V := (l.find? (fun x => bor x.1 == q)).map (·.2)

theorem distinct_perm [BEq K] [EquivBEq K] {l l' : List (K × V)} (h : l.Perm l') (hd : Distinct l) : Distinct l' := by
  refine hd.perm h ?_
  intro a b hab
  rw [BEq.comm]; exact hab

section
variable [BEq K] [EquivBEq K] [BEq Q] [EquivBEq Q] {bor : K → Q}

theorem lookup_some (hb : BorrowEq bor) {l : List (K × V)} (hd : Distinct l) {q : Q} {v : V} :
    lookup bor q l = some v ↔ ∃ k, (k, v) ∈ l ∧ (bor k == q) = true := by
  simp only [lookup, Option.map_eq_some_iff]
  constructor
  · rintro ⟨⟨k, v'⟩, h1, rfl⟩
    exact ⟨k, List.mem_of_find?_eq_some h1, by simpa using List.find?_some h1⟩
  · rintro ⟨k, h1, h2⟩
    cases hf : l.find? (fun x => bor x.1 == q) with
    | none => exact absurd h2 (by simpa using List.find?_eq_none.1 hf _ h1)
    | some y =>
      refine ⟨y, rfl, ?_⟩
      have h3 := List.mem_of_find?_eq_some hf
      have h4 : (bor y.1 == q) = true := by simpa using List.find?_some hf
      have h5 : (y.1 == k) = true := by
        rw [← hb]; exact BEq.trans h4 (BEq.symm h2)
      have : y = (k, v) := by
        rcases List.mem_iff_getElem.1 h1 with ⟨i, hi, hi'⟩
        rcases List.mem_iff_getElem.1 h3 with ⟨j, hj, hj'⟩
        have hp := List.pairwise_iff_getElem.1 hd
        rcases Nat.lt_trichotomy i j with h | h | h
        · have := hp i j hi hj h
          rw [hi', hj'] at this
          rw [BEq.comm] at this
          simp [this] at h5
        · subst h; rw [← hi', ← hj']
        · have := hp j i hj hi h
          rw [hi', hj'] at this
          simp [this] at h5
      rw [this]

theorem lookup_ext (hb : BorrowEq bor) {l l' : List (K × V)} (hd : Distinct l) (hd' : Distinct l') {q : Q}
    (h : ∀ v, (∃ k, (k, v) ∈ l ∧ (bor k == q) = true) ↔ (∃ k, (k, v) ∈ l' ∧ (bor k == q) = true)) : lookup bor q l = lookup bor q l' := by
  apply Option.ext
  intro v
  rw [lookup_some hb hd, lookup_some hb hd', h]

theorem lookup_perm (hb : BorrowEq bor) {l l' : List (K × V)} (hd : Distinct l) (h : l.Perm l') (q : Q) : lookup bor q l = lookup bor q l' :=
  lookup_ext hb hd (distinct_perm h hd) fun v => by simp [h.mem_iff]

theorem lookup_none {l : List (K × V)} {q : Q} : lookup bor q l = none ↔ ∀ x ∈ l, (bor x.1 == q) = false := by
  simp [lookup]

/-- A found entry splits the list. -/
theorem find_split {α : Type} {p : α → Bool} {l : List α} :
    (l.find? p = none ∧ l.findIdx? p = none ∧ ∀ x ∈ l, p x = false) ∨
    (∃ as x bs, l = as ++ x :: bs ∧ l.find? p = some x ∧ l.findIdx? p = some as.length ∧ p x = true ∧ ∀ a ∈ as, p a = false) := by
  induction l with
  | nil => simp
  | cons y l ih =>
    cases hp : p y with
    | true => exact .inr ⟨[], y, l, by simp, by simp [hp], by simp [List.findIdx?_cons, hp], hp, by simp⟩
    | false =>
      rcases ih with ⟨h1, h2, h3⟩ | ⟨as, x, bs, h1, h2, h3, h4, h5⟩
      · exact .inl ⟨by simp [hp, h1], by simp [List.findIdx?_cons, hp, h2], by simp [hp]; simpa using h3⟩
      · refine .inr ⟨y :: as, x, bs, by simp [h1], by simp [hp, h2], by simp [List.findIdx?_cons, hp, h3], h4, ?_⟩
        simp [hp]; simpa using h5

theorem distinct_mid {as bs : List (K × V)} {x : K × V} :
    Distinct (as ++ x :: bs) ↔ Distinct (as ++ bs) ∧ ∀ y ∈ as ++ bs, (y.1 == x.1) = false := by
  have h1 : (as ++ x :: bs).Perm (x :: (as ++ bs)) := List.perm_middle
  have h2 : Distinct (as ++ x :: bs) ↔ Distinct (x :: (as ++ bs)) := ⟨distinct_perm h1, distinct_perm h1.symm⟩
  rw [h2]
  simp only [Distinct, List.pairwise_cons]
  constructor
  · rintro ⟨g1, g2⟩
    exact ⟨g2, fun y hy => by rw [BEq.comm]; exact g1 y hy⟩
  · rintro ⟨g1, g2⟩
    exact ⟨fun y hy => by rw [BEq.comm]; exact g2 y hy, g1⟩

/-- Replacing the value of an entry. -/
theorem lookup_replace (hb : BorrowEq bor) {as bs : List (K × V)} {k : K} {v v' : V} (hd : Distinct (as ++ (k, v) :: bs)) (q : Q) :
    lookup bor q (as ++ (k, v') :: bs) = if (bor k == q) = true then some v' else lookup bor q (as ++ (k, v) :: bs) := by
  have hd' : Distinct (as ++ (k, v') :: bs) := by
    rw [distinct_mid] at hd ⊢; exact hd
  by_cases hq : (bor k == q) = true
  · rw [if_pos hq, lookup_some hb hd']
    exact ⟨k, by simp, hq⟩
  · rw [if_neg hq]
    apply lookup_ext hb hd' hd
    intro u
    constructor <;> rintro ⟨k', h1, h2⟩ <;> refine ⟨k', ?_, h2⟩ <;>
      (simp only [List.mem_append, List.mem_cons, Prod.mk.injEq] at h1 ⊢
       rcases h1 with h1 | ⟨rfl, rfl⟩ | h1
       · exact .inl h1
       · exact absurd h2 hq
       · exact .inr (.inr h1))

theorem lookup_cons (hb : BorrowEq bor) {l : List (K × V)} {k : K} {v : V} (hd : Distinct ((k, v) :: l)) (q : Q) :
    lookup bor q ((k, v) :: l) = if (bor k == q) = true then some v else lookup bor q l := by
  have hd2 : Distinct l := (List.pairwise_cons.1 hd).2
  by_cases hq : (bor k == q) = true
  · rw [if_pos hq, lookup_some hb hd]
    exact ⟨k, by simp, hq⟩
  · rw [if_neg hq]
    apply lookup_ext hb hd hd2
    intro u
    constructor
    · rintro ⟨k', h1, h2⟩
      simp only [List.mem_cons, Prod.mk.injEq] at h1
      rcases h1 with ⟨rfl, rfl⟩ | h1
      · exact absurd h2 hq
      · exact ⟨k', h1, h2⟩
    · rintro ⟨k', h1, h2⟩
      exact ⟨k', by simp [h1], h2⟩

end

/-! ### the pieces -/

theorem makeTryReserveError_spec {e : HEnv K V σ} (he : e.OK) (a : Alloc) : makeTryReserveError e a = (.ok .capacityOverflow, a) := by
  have h0 : (RawVec.new e.errVec : RawVec Unit) = RawVec.of 0 [] := by rw [new_eq, if_neg (by rw [he.errSize]; decide)]
  have hw := he.errWord
  have h1 : ¬ e.errVec.usizeMax ≤ 0 := by omega
  have h2 := he.errGrow.grow 0 e.errVec.usizeMax
  have h3 : e.errVec.isizeMax < e.errVec.grow 0 e.errVec.usizeMax * 1024 := by
    have h4 : e.errVec.isizeMax ≤ e.errVec.usizeMax := Nat.div_le_self _ _
    omega
  simp [makeTryReserveError, h0, stdTryReserve, RawVec.of, growFor, growTo, he.errSize, h3, show e.errVec.usizeMax ≠ 0 from by omega]

/-- What reserving does: it keeps the entries (possibly in another order), and on success there is room. -/
theorem hashTryReserve_spec {e : HEnv K V σ} (he : e.OK) (n : Nat) (m : HMap K V σ) (w : HWorld K V) :
    ∃ r m' a', hashTryReserve e n ⟨m, w⟩ = (.ok r, ⟨m', { w with alloc := a' }⟩) ∧ m'.items.Perm m.items ∧
      (r = .ok () → n ≤ m'.growthLeft) ∧ (∀ er, r = .error er → m' = m) ∧
      (n ≤ m.growthLeft → r = .ok () ∧ m' = m ∧ a' = w.alloc) ∧
      (r = .error .allocError → w.alloc 0 = false) ∧
      (r = .error .capacityOverflow → e.maxItems < max (m.items.length + n) (m.full + 1)) ∧
      (w.alloc.Good → a'.Good) := by
  unfold hashTryReserve
  by_cases h1 : n ≤ m.growthLeft
  · exact ⟨.ok (), m, w.alloc, by simp [h1], .refl _, fun _ => h1, by simp, fun _ => ⟨rfl, rfl, rfl⟩, by simp, by simp, id⟩
  · rw [if_neg (show ¬ n ≤ (HSt.mk m w).m.growthLeft from h1)]
    by_cases h2 : m.items.length + n ≤ m.full / 2
    · have hp := he.rehash m.layout m.items m.full
      refine ⟨.ok (), _, w.alloc, by simp only [if_pos h2]; rfl, hp, fun _ => ?_, by simp, fun h => absurd h h1, by simp, by simp, id⟩
      have := hp.length_eq
      simp only []
      omega
    · simp only [if_neg h2]
      by_cases h3 : e.maxItems < max (m.items.length + n) (m.full + 1)
      · exact ⟨.error .capacityOverflow, m, w.alloc, by simp only [if_pos h3], .refl _, by simp, by simp, fun h => absurd h h1, by simp,
          fun _ => h3, id⟩
      · simp only [if_neg h3]
        cases ha : w.alloc.request.1 with
        | false => exact ⟨.error .allocError, m, _, by simp only [Bool.false_eq_true, if_false]; rfl, .refl _, by simp, by simp,
            fun h => absurd h h1, fun _ => ha, by simp, fun h => by simp [h.head] at ha⟩
        | true =>
          have hp := he.rehash m.layout m.items (e.capFor (max (m.items.length + n) (m.full + 1)))
          have hc := he.capFor (max (m.items.length + n) (m.full + 1))
          refine ⟨.ok (), _, _, by simp only [if_true]; rfl, hp, fun _ => ?_, by simp, fun h => absurd h h1, by simp, by simp, fun h => h.tail⟩
          have := hp.length_eq
          simp only []
          omega

theorem tryHashReserve_spec {e : HEnv K V σ} (he : e.OK) (n : Nat) (m : HMap K V σ) (w : HWorld K V) :
    ∃ r m' a', tryHashReserve e n ⟨m, w⟩ = (.ok r, ⟨m', { w with alloc := a' }⟩) ∧ m'.items.Perm m.items ∧
      (r = .ok () → n ≤ m'.growthLeft) ∧ (∀ er, r = .error er → m' = m ∧ er = .capacityOverflow) ∧
      (n ≤ m.growthLeft → r = .ok () ∧ m' = m ∧ a' = w.alloc) ∧
      ((∃ er, r = .error er) → w.alloc 0 = false ∨ e.maxItems < max (m.items.length + n) (m.full + 1)) ∧
      (w.alloc.Good → a'.Good) := by
  obtain ⟨r, m', a', h1, h2, h3, h4, h5, h6, h7, h8⟩ := hashTryReserve_spec he n m w
  simp only [tryHashReserve]
  rcases r with er | u
  · obtain rfl := h4 er rfl
    refine ⟨.error .capacityOverflow, m', a', ?_, h2, by simp, by simp, ?_, ?_, h8⟩
    · change (HM.bind _ _) _ = _
      simp only [HM.bind, h1, makeTryReserveError_spec he]
    · intro h; simpa using (h5 h).1
    · intro _
      cases er
      · exact .inr (h7 rfl)
      · exact .inl (h6 rfl)
  · refine ⟨.ok (), m', a', ?_, h2, h3, by simp, h5, by simp, h8⟩
    change (HM.bind _ _) _ = _
    simp only [HM.bind, h1]
    rfl

section
variable [BEq K] [EquivBEq K]

/-- `HashMap::insert` when there is room: no allocation. -/
theorem hashInsert_spec {e : HEnv K V σ} (he : e.OK) {m : HMap K V σ} (hd : Distinct m.items) (hg : 1 ≤ m.growthLeft) (k : K) (v : V) (w : HWorld K V) :
    ∃ old m' dk, hashInsert e k v ⟨m, w⟩ = (.ok old, ⟨m', { w with droppedK := dk }⟩) ∧ Distinct m'.items ∧
      old = lookup id k m.items ∧ m.growthLeft - 1 ≤ m'.growthLeft ∧
      m'.items.length = m.items.length + (if old.isSome then 0 else 1) ∧
      dk = w.droppedK ++ (if old.isSome then [k] else []) ∧
      (old = none → m'.items.Perm ((k, v) :: m.items)) ∧
      (∀ {Q : Type} [BEq Q] [EquivBEq Q] {bor : K → Q}, BorrowEq bor → ∀ q,
        lookup bor q m'.items = if (bor k == q) = true then some v else lookup bor q m.items) := by
  have hr : hashReserve1 e ⟨m, w⟩ = (.ok (), ⟨m, w⟩) := by simp [hashReserve1, hg]
  change ∃ old m' dk, (HM.bind _ _) _ = _ ∧ _
  simp only [HM.bind, hr]
  rcases find_split (p := fun x : K × V => x.1 == k) (l := m.items) with ⟨h1, h2, h3⟩ | ⟨as, x, bs, h1, h2, h3, h4, h5⟩
  · simp only [h1, h2]
    have hp := he.place m.layout m.items (k, v)
    have hd1 : Distinct ((k, v) :: m.items) := List.pairwise_cons.2 ⟨fun y hy => by rw [BEq.comm]; exact h3 y hy, hd⟩
    refine ⟨none, _, w.droppedK, rfl, distinct_perm hp.symm hd1, by simp [lookup, h1], ?_, ?_, by simp, fun _ => hp, ?_⟩
    · simp only []; split <;> omega
    · simpa using hp.length_eq
    · intro Q _ _ bor hb q
      rw [lookup_perm hb (distinct_perm hp.symm hd1) hp, lookup_cons hb hd1]
  · obtain ⟨kx, vx⟩ := x
    simp only [h2, h3]
    have hs : m.items.set as.length (kx, v) = as ++ (kx, v) :: bs := by simp [h1]
    have hd2 := hd
    rw [h1] at hd2
    refine ⟨some vx, _, w.droppedK ++ [k], rfl, ?_, by simp [lookup, h2], by simp, by simp, by simp, by simp, ?_⟩
    · simp only [hs]; rw [distinct_mid] at hd2 ⊢; exact hd2
    · intro Q _ _ bor hb q
      simp only [hs]
      rw [lookup_replace hb hd2, h1]
      have : (bor kx == q) = (bor k == q) := by
        have h6 : (bor kx == bor k) = true := by rw [hb]; simpa using h4
        exact BEq.congr_left h6
      rw [this]

theorem tryHashInsert_spec {e : HEnv K V σ} (he : e.OK) {m : HMap K V σ} (hd : Distinct m.items) (k : K) (v : V) (w : HWorld K V) :
    ∃ r m' a' dk dv, tryHashInsert e k v ⟨m, w⟩ = (.ok r, ⟨m', ⟨a', w.aborting, dk, dv⟩⟩) ∧ Distinct m'.items ∧
      (∀ er, r = .error er → m' = m ∧ er = .capacityOverflow ∧ dk = w.droppedK ++ [k] ∧ dv = w.droppedV ++ [v] ∧
        (w.alloc 0 = false ∨ e.maxItems < max (m.items.length + 4) (m.full + 1))) ∧
      (∀ old, r = .ok old → old = lookup id k m.items ∧
        m'.items.length = m.items.length + (if old.isSome then 0 else 1) ∧
        dk = w.droppedK ++ (if old.isSome then [k] else []) ∧ dv = w.droppedV ∧
        (old = none → m'.items.Perm ((k, v) :: m.items)) ∧
        (∀ {Q : Type} [BEq Q] [EquivBEq Q] {bor : K → Q}, BorrowEq bor → ∀ q,
          lookup bor q m'.items = if (bor k == q) = true then some v else lookup bor q m.items)) ∧
      (1 ≤ m.growthLeft → (∃ old, r = .ok old) ∧ a' = w.alloc ∧ m.growthLeft - 1 ≤ m'.growthLeft) ∧
      (w.alloc.Good → a'.Good) := by
  obtain ⟨r, m₁, a', h1, h2, h3, h4, h5, h6, h7⟩ := tryHashReserve_spec he (if m.capacity = 0 then 4 else 1) m w
  have hn : 1 ≤ (if m.capacity = 0 then 4 else 1) := by split <;> omega
  have hn4 : (if m.capacity = 0 then 4 else 1) ≤ 4 := by split <;> omega
  simp only [tryHashInsert, h1]
  rcases r with er | u
  · obtain ⟨rfl, rfl⟩ := h4 er rfl
    refine ⟨_, _, _, _, _, rfl, hd, ?_, by simp, ?_, h7⟩
    · rintro er h
      obtain rfl : TryReserveError.capacityOverflow = er := by simpa using h
      refine ⟨rfl, rfl, rfl, rfl, ?_⟩
      rcases h6 ⟨_, rfl⟩ with h | h
      · exact .inl h
      · right; omega
    · intro hg
      have hc : m₁.capacity ≠ 0 := by simp [HMap.capacity]; omega
      have := (h5 (by rw [if_neg hc]; exact hg)).1
      simp at this
  · have hd₁ := distinct_perm h2.symm hd
    obtain ⟨old, m', dk, g1, g2, g3, g4, g5, g6, g8, g7⟩ := hashInsert_spec he hd₁ (Nat.le_trans hn (h3 rfl)) k v { w with alloc := a' }
    simp only [g1]
    have hlook : ∀ {Q : Type} [BEq Q] [EquivBEq Q] {bor : K → Q}, BorrowEq bor → ∀ q, lookup bor q m₁.items = lookup bor q m.items :=
      fun hb q => lookup_perm hb hd₁ h2 q
    refine ⟨_, _, _, _, _, rfl, g2, by simp, ?_, ?_, h7⟩
    · rintro old' h
      obtain rfl : old = old' := by simpa using h
      refine ⟨by rw [g3, hlook (bor := id) (fun _ _ => rfl)], by rw [g5, h2.length_eq], g6, rfl, fun h => (g8 h).trans (h2.cons _), ?_⟩
      intro Q _ _ bor hb q
      rw [g7 hb, hlook hb]
    · intro hg
      have hc : m.capacity ≠ 0 := by simp [HMap.capacity]; omega
      obtain ⟨-, rfl, rfl⟩ := h5 (by rw [if_neg hc]; exact hg)
      exact ⟨⟨old, rfl⟩, rfl, g4⟩

theorem tryHashRemove_spec [BEq Q] [EquivBEq Q] {bor : K → Q} (hb : BorrowEq bor) (e : HEnv K V σ) {m : HMap K V σ} (hd : Distinct m.items) (q : Q)
    (w : HWorld K V) :
    ∃ r m' dk, tryHashRemove e bor q ⟨m, w⟩ = (.ok r, ⟨m', { w with droppedK := dk }⟩) ∧ Distinct m'.items ∧ r = lookup bor q m.items ∧
      m'.items.length + (if r.isSome then 1 else 0) = m.items.length ∧
      (∀ p, lookup bor p m'.items = if (q == p) = true then none else lookup bor p m.items) := by
  rcases find_split (p := fun x : K × V => bor x.1 == q) (l := m.items) with ⟨h1, h2, h3⟩ | ⟨as, x, bs, h1, h2, h3, h4, h5⟩
  · refine ⟨none, m, w.droppedK, by simp [tryHashRemove, hashRemove, h1, h2], hd, by simp [lookup, h1], by simp, ?_⟩
    intro p
    by_cases hp : (q == p) = true
    · rw [if_pos hp, lookup_none]
      intro y hy
      rw [← h3 y hy]
      exact (BEq.congr_right hp).symm
    · rw [if_neg hp]
  · obtain ⟨kx, vx⟩ := x
    have hs : m.items.eraseIdx as.length = as ++ bs := by
      rw [h1, List.eraseIdx_append_of_length_le (Nat.le_refl _)]; simp
    have hd2 := hd
    rw [h1, distinct_mid] at hd2
    refine ⟨some vx, _, w.droppedK ++ [kx], by simp only [tryHashRemove, hashRemove, h2, h3]; rfl, ?_, by simp [lookup, h2], ?_, ?_⟩
    · simp only [hs]; exact hd2.1
    · simp only [hs]; rw [h1]; simp; omega
    · intro p
      simp only [hs]
      have hd3 := hd
      rw [h1] at hd3
      have hperm : (as ++ (kx, vx) :: bs).Perm ((kx, vx) :: (as ++ bs)) := List.perm_middle
      have h6 : lookup bor p m.items = if (bor kx == p) = true then some vx else lookup bor p (as ++ bs) := by
        rw [h1, lookup_perm hb hd3 hperm, lookup_cons hb (distinct_perm hperm hd3)]
      have h7 : (bor kx == p) = (q == p) := BEq.congr_left h4
      by_cases hp : (q == p) = true
      · rw [if_pos hp, lookup_none]
        intro y hy
        have h8 := hd2.2 y hy
        rw [← hb] at h8
        rw [← h8]
        exact BEq.congr_right (BEq.symm (h7.trans hp))
      · rw [if_neg hp, h6, h7, if_neg hp]

end

end Verif.Misc
