import Verif.BTree.Proofs.Remove
/-
Map-level lemmas: validity, lookup, insertion, removal, entries.
-/
namespace Verif.BTree
open Verif Verif.Spec

variable {K V Q : Type}

/-- In-order contents of a map. -/
def Map.toList (m : Map K V) : List (K × V) := BTree.toList m.height m.root

/-- Structural validity, with no assumption on the key order, with every inner node having at least `lo` pairs and an internal root at
least `rt`; `x` is by how much the cached length exceeds the number of pairs (0 unless an insertion has failed). -/
structure Map.ShapedN (lo rt x : Nat) (m : Map K V) : Prop where
  shape : RootN lo rt m.height m.root
  len : m.length = m.toList.length + x
  shared : m.shared = true → m.height = 0 ∧ m.root = emptyLeaf
  tidy : m.shared = true → x = 0

/-- Structural validity with the fill the API maintains. -/
abbrev Map.Shaped (x : Nat) (m : Map K V) : Prop := m.ShapedN 4 1 x

/-- Structural validity with exact length. -/
abbrev Map.WF (m : Map K V) : Prop := m.Shaped 0

/-- Structurally valid with strictly ascending keys; the cached length is `x` too high. -/
structure Map.OrderedN [Ord K] (lo rt x : Nat) (m : Map K V) : Prop extends m.ShapedN lo rt x where
  sorted : Sorted m.toList

/-- Structurally valid, with the fill the API maintains, with strictly ascending keys; the cached length is `x` too high. -/
abbrev Map.Ordered [Ord K] (x : Nat) (m : Map K V) : Prop := m.OrderedN 4 1 x

/-- A valid map: structurally valid with exact length and strictly ascending keys. -/
abbrev Map.Valid [Ord K] (m : Map K V) : Prop := m.Ordered 0

theorem Map.OrderedN.toShaped [Ord K] {lo rt x : Nat} {m : Map K V} (h : m.OrderedN lo rt x) : m.ShapedN lo rt x := h.toShapedN

theorem Map.ShapedN.below {lo rt x : Nat} {m : Map K V} (h : m.ShapedN lo rt x) : BelowN lo m.height m.root := h.shape.2.2

theorem Map.WF_new : (Map.new : Map K V).WF :=
  ⟨⟨by simp [Map.new, emptyLeaf], by simp [Map.new], rfl⟩, rfl, fun _ => ⟨rfl, rfl⟩, fun _ => rfl⟩

@[simp] theorem Map.toList_new : (Map.new : Map K V).toList = [] := rfl

theorem Map.Valid_new [Ord K] : (Map.new : Map K V).Valid := ⟨Map.WF_new, by simp [Sorted]⟩

theorem Map.ShapedN.not_shared {lo rt x : Nat} {m : Map K V} (h : m.ShapedN lo rt x) (hl : m.toList ≠ []) :
    m.shared = false := by
  cases hs : m.shared with
  | false => rfl
  | true =>
    obtain ⟨h1, h2⟩ := h.shared hs
    simp [Map.toList, h1, h2, emptyLeaf] at hl

/-! ### the specification at a split list -/

theorem find?_hit [Ord Q] {bor : K → Q} {q : Q} {A B : List (K × V)} {kv : K × V}
    (hA : ∀ a ∈ A, compare q (bor a.1) = .gt) (hk : compare q (bor kv.1) = .eq) :
    find? bor q (A ++ kv :: B) = some kv := by
  induction A with
  | nil => simp [find?, hk]
  | cons a A ih =>
    have := hA a (by simp)
    have := ih (fun a ha => hA a (by simp [ha]))
    simp_all [find?]

theorem find?_miss [Ord Q] {bor : K → Q} {q : Q} {A B : List (K × V)}
    (hA : ∀ a ∈ A, compare q (bor a.1) = .gt) (hB : ∀ b ∈ B, compare q (bor b.1) = .lt) :
    find? bor q (A ++ B) = none := by
  simp only [find?, List.find?_eq_none, List.mem_append]
  rintro x (hx | hx)
  · simp [hA x hx]
  · simp [hB x hx]

theorem insert_hit [Ord K] {k : K} {v : V} {A B : List (K × V)} {kv : K × V}
    (hA : ∀ a ∈ A, compare k a.1 = .gt) (hk : compare k kv.1 = .eq) :
    Spec.insert k v (A ++ kv :: B) = A ++ (kv.1, v) :: B := by
  induction A with
  | nil => simp [Spec.insert, hk]
  | cons a A ih =>
    have := hA a (by simp)
    have := ih (fun a ha => hA a (by simp [ha]))
    simp_all [Spec.insert]

theorem insert_miss [Ord K] {k : K} {v : V} {A B : List (K × V)}
    (hA : ∀ a ∈ A, compare k a.1 = .gt) (hB : ∀ b ∈ B, compare k b.1 = .lt) :
    Spec.insert k v (A ++ B) = A ++ (k, v) :: B := by
  induction A with
  | nil => cases B <;> simp_all [Spec.insert]
  | cons a A ih =>
    have := hA a (by simp)
    have := ih (fun a ha => hA a (by simp [ha]))
    simp_all [Spec.insert]

theorem erase_hit [Ord Q] {bor : K → Q} {q : Q} {A B : List (K × V)} {kv : K × V}
    (hA : ∀ a ∈ A, compare q (bor a.1) = .gt) (hk : compare q (bor kv.1) = .eq)
    (hB : ∀ b ∈ B, compare q (bor b.1) = .lt) : erase bor q (A ++ kv :: B) = A ++ B := by
  unfold erase
  rw [List.filter_append, List.filter_cons]
  rw [List.filter_eq_self.2 (fun a ha => by simp [hA a ha]), List.filter_eq_self.2 (fun a ha => by simp [hB a ha])]
  simp [hk]

theorem erase_miss [Ord Q] {bor : K → Q} {q : Q} {A B : List (K × V)}
    (hA : ∀ a ∈ A, compare q (bor a.1) = .gt)
    (hB : ∀ b ∈ B, compare q (bor b.1) = .lt) : erase bor q (A ++ B) = A ++ B := by
  unfold erase
  rw [List.filter_append]
  rw [List.filter_eq_self.2 (fun a ha => by simp [hA a ha]), List.filter_eq_self.2 (fun a ha => by simp [hB a ha])]

theorem modify_hit [Ord Q] {bor : K → Q} {q : Q} {f : V → V} {A B : List (K × V)} {kv : K × V}
    (hA : ∀ a ∈ A, compare q (bor a.1) = .gt) (hk : compare q (bor kv.1) = .eq)
    (hB : ∀ b ∈ B, compare q (bor b.1) = .lt) :
    Spec.modify bor q f (A ++ kv :: B) = A ++ (kv.1, f kv.2) :: B := by
  unfold Spec.modify
  have h1 : ∀ (l : List (K × V)), (∀ a ∈ l, compare q (bor a.1) ≠ .eq) →
      l.map (fun kv => if compare q (bor kv.1) == .eq then (kv.1, f kv.2) else kv) = l := by
    intro l hl
    induction l with
    | nil => rfl
    | cons a l ih =>
      have := hl a (by simp)
      have := ih (fun a ha => hl a (by simp [ha]))
      simp_all
  rw [List.map_append, List.map_cons, h1 A (fun a ha => by simp [hA a ha]), h1 B (fun a ha => by simp [hB a ha])]
  simp [hk]

/-- Sortedness after inserting between. -/
theorem sorted_insert [Ord K] [Std.TransOrd K] {k : K} {v : V} {A B : List (K × V)} (hs : Sorted (A ++ B))
    (hA : ∀ a ∈ A, compare k a.1 = .gt) (hB : ∀ b ∈ B, compare k b.1 = .lt) : Sorted (A ++ (k, v) :: B) := by
  obtain ⟨h1, h2, h3⟩ := Sorted.append_iff.1 hs
  refine Sorted.append_iff.2 ⟨h1, List.pairwise_cons.2 ⟨fun b hb => hB b hb, h2⟩, ?_⟩
  intro a ha b hb
  rcases List.mem_cons.1 hb with rfl | hb
  · exact Std.OrientedCmp.lt_of_gt (hA a ha)
  · exact h3 a ha b hb

theorem sorted_set [Ord K] {kv kv' : K × V} {A B : List (K × V)} (hs : Sorted (A ++ kv :: B))
    (hk : kv'.1 = kv.1) : Sorted (A ++ kv' :: B) := by
  obtain ⟨h1, h2, h3⟩ := Sorted.append_iff.1 hs
  obtain ⟨h4, h5⟩ := List.pairwise_cons.1 h2
  refine Sorted.append_iff.2 ⟨h1, List.pairwise_cons.2 ⟨fun b hb => hk ▸ h4 b hb, h5⟩, ?_⟩
  intro a ha b hb
  rcases List.mem_cons.1 hb with rfl | hb
  · rw [hk]; exact h3 a ha kv (by simp)
  · exact h3 a ha b (by simp [hb])

theorem sorted_remove [Ord K] {kv : K × V} {A B : List (K × V)} (hs : Sorted (A ++ kv :: B)) : Sorted (A ++ B) :=
  List.Pairwise.sublist (List.Sublist.append_left (List.sublist_cons_self _ _) _) hs

/-! ### search -/

/-- A handle designates the pair `kv`, with `A` before and `B` after it. -/
def Map.Points (m : Map K V) (hd : Handle) (A : List (K × V)) (kv : K × V) (B : List (K × V)) : Prop :=
  KvAt m.height m.root hd.up.reverse hd.idx A kv B

/-- A handle designates the leaf edge between `A` and `B`. -/
def Map.Gap (m : Map K V) (hd : Handle) (A B : List (K × V)) : Prop :=
  EdgeAt m.height m.root hd.up.reverse hd.idx A B

theorem Map.Points.toList {m : Map K V} {hd A kv B} (h : m.Points hd A kv B) : m.toList = A ++ kv :: B :=
  KvAt.toList_eq h
theorem Map.Gap.toList {m : Map K V} {hd A B} (h : m.Gap hd A B) : m.toList = A ++ B :=
  EdgeAt.toList_eq h
theorem Map.Points.kvAt {m : Map K V} {hd A kv B} (h : m.Points hd A kv B) : m.kvAt hd = .ok kv :=
  KvAt.kvAt h

theorem Map.search_wf [Ord Q] {lo rt x : Nat} {m : Map K V} (h : m.ShapedN lo rt x) (bor : K → Q) (q : Q) :
    (∃ hd A kv B, m.search bor q = .ok (.found hd) ∧ m.Points hd A kv B ∧ compare q (bor kv.1) = .eq) ∨
    (∃ hd A B, m.search bor q = .ok (.goDown hd) ∧ m.Gap hd A B) := by
  rcases searchTree_valid bor q h.below [] with ⟨p, idx, A, kv, B, h1, h2, h3⟩ | ⟨p, idx, A, B, h1, h2⟩
  · exact .inl ⟨⟨p.reverse, idx⟩, A, kv, B, by simpa [Map.search] using h1, by simpa [Map.Points] using h2, h3⟩
  · exact .inr ⟨⟨p.reverse, idx⟩, A, B, by simpa [Map.search] using h1, by simpa [Map.Gap] using h2⟩

theorem Map.search_valid [Ord K] [Ord Q] [Std.TransOrd Q] {bor : K → Q} (hbo : BorrowOK bor) {lo rt x : Nat} {m : Map K V}
    (h : m.OrderedN lo rt x) (q : Q) :
    (∃ hd A kv B, m.search bor q = .ok (.found hd) ∧ m.Points hd A kv B ∧
      (∀ a ∈ A, compare q (bor a.1) = .gt) ∧ compare q (bor kv.1) = .eq ∧ (∀ b ∈ B, compare q (bor b.1) = .lt)) ∨
    (∃ hd A B, m.search bor q = .ok (.goDown hd) ∧ m.Gap hd A B ∧
      (∀ a ∈ A, compare q (bor a.1) = .gt) ∧ (∀ b ∈ B, compare q (bor b.1) = .lt)) := by
  rcases searchTree_sorted hbo q h.below h.sorted [] with
    ⟨p, idx, A, kv, B, h1, h2, h3⟩ | ⟨p, idx, A, B, h1, h2, h3⟩
  · exact .inl ⟨⟨p.reverse, idx⟩, A, kv, B, by simpa [Map.search] using h1, by simpa [Map.Points] using h2, h3⟩
  · exact .inr ⟨⟨p.reverse, idx⟩, A, B, by simpa [Map.search] using h1, by simpa [Map.Gap] using h2, h3⟩

theorem Map.getKeyValue_spec [Ord K] [Ord Q] [Std.TransOrd Q] {bor : K → Q} (hbo : BorrowOK bor) {lo rt x : Nat} {m : Map K V}
    (h : m.OrderedN lo rt x) (q : Q) : m.getKeyValue bor q = .ok (find? bor q m.toList) := by
  rcases Map.search_valid hbo h q with ⟨hd, A, kv, B, h1, h2, h3, h4, h5⟩ | ⟨hd, A, B, h1, h2, h3, h4⟩
  · rw [h2.toList, find?_hit h3 h4]; simp [Map.getKeyValue, h1, h2.kvAt]
  · rw [h2.toList, find?_miss h3 h4]; simp [Map.getKeyValue, h1]

theorem Map.get_eq_getKeyValue [Ord Q] (m : Map K V) (bor : K → Q) (q : Q) :
    m.get bor q = (m.getKeyValue bor q >>= fun r => .ok (r.map (·.2))) := by
  simp only [Map.get, Map.getKeyValue]
  cases m.search bor q with
  | ok r =>
    cases r with
    | found hd => simp; cases m.kvAt hd <;> simp
    | goDown hd => simp
  | ub => simp
  | panic s => simp

theorem Map.get_spec [Ord K] [Ord Q] [Std.TransOrd Q] {bor : K → Q} (hbo : BorrowOK bor) {lo rt x : Nat} {m : Map K V}
    (h : m.OrderedN lo rt x) (q : Q) : m.get bor q = .ok (lookup bor q m.toList) := by
  simp [Map.get_eq_getKeyValue, Map.getKeyValue_spec hbo h, lookup]

/-! ### writing a value -/

theorem Map.setVal_spec {lo rt x : Nat} {m : Map K V} (h : m.ShapedN lo rt x) {hd A kv B} (hp : m.Points hd A kv B) (v : V) :
    ∃ m', m.setVal hd v = .ok (m', kv.2) ∧ m'.ShapedN lo rt x ∧ m'.Points hd A (kv.1, v) B ∧ m'.length = m.length ∧
      m'.height = m.height ∧ m'.shared = m.shared := by
  obtain ⟨t', h1, h2, h3, h4⟩ := KvAt.replaceKv hp (kv.1, v)
  have hp' : ({ m with root := t' } : Map K V).Points hd A (kv.1, v) B := h2
  refine ⟨{ m with root := t' }, by simp [Map.setVal, hp.kvAt, h1], ⟨?_, ?_, ?_, h.tidy⟩, hp', rfl, rfl, rfl⟩
  · obtain ⟨s1, s2, s3⟩ := h.shape
    exact ⟨by simpa [h3] using s1, by simpa [h3] using s2, h4 s3⟩
  · have e1 := h.len; rw [hp.toList] at e1; rw [hp'.toList]; simpa using e1
  · intro hs
    obtain ⟨e1, e2⟩ := h.shared hs
    have := hp.toList
    simp [Map.toList, e1, e2, emptyLeaf] at this

/-! ### insertion -/

/-- What `ensure_root_is_owned` does. -/
theorem Map.ensureRoot_spec {lo rt x : Nat} {m : Map K V} (h : m.ShapedN lo rt x) (a : Alloc) :
    ∃ r m' a', m.ensureRootIsOwned a = (r, m', a') ∧ m'.ShapedN lo rt x ∧ m'.toList = m.toList ∧ m'.length = m.length ∧
      (r = .ok () → m'.shared = false) ∧ (∀ e, r = .error e → m' = m) ∧ (a.Good → r = .ok () ∧ a'.Good) := by
  unfold Map.ensureRootIsOwned
  cases hs : m.shared with
  | false => exact ⟨_, m, a, by simp, h, rfl, rfl, by simp [hs], by simp, fun hg => ⟨rfl, hg⟩⟩
  | true =>
    obtain ⟨e1, e2⟩ := h.shared hs
    have hl : m.length = x := by simpa [Map.toList, e1, e2, emptyLeaf] using h.len
    cases hr : a.request.1 with
    | true =>
      refine ⟨.ok (), { m with height := 0, root := emptyLeaf, shared := false }, a.request.2, by simp [hr], ?_, ?_,
        rfl, by simp, by simp, fun hg => ⟨rfl, hg.tail⟩⟩
      · exact ⟨⟨by simp [emptyLeaf], by simp, rfl⟩, by simp [Map.toList, hl, emptyLeaf], by simp, by simp⟩
      · simp [Map.toList, e1, e2, emptyLeaf]
    | false =>
      refine ⟨.error .allocError, m, a.request.2, by simp [hr], h, rfl, rfl, by simp, by simp, fun hg => ?_⟩
      have := hg.head; simp [hr] at this

/-- `VacantEntry::try_insert`, for any allocation schedule. -/
theorem Map.vacantInsert_spec {lo rt x : Nat} {m : Map K V} (h : m.ShapedN lo rt x) (hsh : m.shared = false) {hd A B} (hg : m.Gap hd A B)
    (k : K) (v : V) (a : Alloc) (hf : lo ≤ 4 ∧ rt ≤ 1 := by decide) :
    ∃ r m' a', m.vacantInsert hd k v a = .ok (r, m', a') ∧ m'.shared = false ∧ m'.length = m.length + 1 ∧
      (match r with
       | .ok loc => m'.ShapedN lo rt x ∧ m'.Points loc A (k, v) B
       | .error _ => (∃ x', x < x' ∧ m'.ShapedN lo rt x') ∧ Torn (lo + 1) m.toList (A ++ (k, v) :: B) m'.toList) ∧
      (a.Good → a'.Good ∧ ∃ loc, r = .ok loc) := by
  obtain ⟨s1, s2, s3⟩ := h.shape
  obtain ⟨r, a', h1, h2, h3⟩ := insertRec_spec hg (k, v) a s3 s1 hf.1
  have hlen : m.length + 1 = (A ++ (k, v) :: B).length + x := by
    have := h.len; rw [hg.toList] at this; simp at this ⊢; omega
  have hloss : ∀ (hh : Nat) (t : Tree K V), RootN lo rt hh t → (BTree.toList hh t).length < (A ++ (k, v) :: B).length →
      ∃ x', x < x' ∧ (⟨hh, t, m.shared, m.length + 1⟩ : Map K V).ShapedN lo rt x' := by
    intro hh t hr hlt
    refine ⟨m.length + 1 - (BTree.toList hh t).length, by omega, hr, ?_, by simp [hsh], by simp [hsh]⟩
    show m.length + 1 = (BTree.toList hh t).length + (m.length + 1 - (BTree.toList hh t).length)
    omega
  cases r with
  | fit t loc =>
    obtain ⟨g1, g2, g3, g4⟩ := h2
    have hr : RootN lo rt m.height t := ⟨g2, fun h0 => Nat.le_trans (s2 h0) g3, g1⟩
    refine ⟨.ok loc, { m with root := t, length := m.length + 1 }, a', by simp [Map.vacantInsert, h1], hsh, rfl,
      ⟨⟨hr, ?_, by simp [hsh], by simp [hsh]⟩, g4⟩, fun hG => ⟨(h3 hG).1, loc, rfl⟩⟩
    show m.length + 1 = (BTree.toList m.height t).length + x
    rw [g4.toList_eq, hlen]
  | oom t gone =>
    have g3 := h2.torn
    have g4 := h2.lost.2
    rw [← hg.toList] at g3
    obtain ⟨g1, g2, _⟩ := h2
    refine ⟨.error .allocError, { m with root := t, length := m.length + 1 }, a', by simp [Map.vacantInsert, h1],
      hsh, rfl, ⟨hloss m.height t ⟨by rw [g2]; exact s1, fun h0 => by rw [g2]; exact s2 h0, g1⟩ g4, g3⟩,
      fun hG => ?_⟩
    exact absurd rfl ((h3 hG).2 t gone)
  | split l mid r inRight loc =>
    have htl := InsertSpecN.split_toList h2
    obtain ⟨g1, g2, g4, _, g3⟩ := h2
    have hreq : require (!m.shared) = .ok () := by simp [hsh]
    have hpush : Tree.pushInternal ⟨[], [l]⟩ mid r = .ok ⟨[mid], [l, r]⟩ := by simp [Tree.pushInternal, Tree.len]
    cases hr : a'.request.1 with
    | true =>
      have hroot : RootN lo rt (m.height + 1) (⟨[mid], [l, r]⟩ : Tree K V) := by
        refine ⟨by simp, by simp; omega, by simp, ?_⟩
        intro c hc
        simp at hc
        rcases hc with rfl | rfl
        · exact g1
        · exact g2
      have hk : KvAt (m.height + 1) ⟨[mid], [l, r]⟩
          (loc.under (if inRight then 1 else 0)).up.reverse (loc.under (if inRight then 1 else 0)).idx A (k, v) B := by
        cases inRight with
        | true =>
          obtain ⟨A', rfl, hk⟩ := g3
          have := KvAt.child [mid] [] [l] [] rfl rfl hk
          simpa [Handle.under] using this
        | false =>
          obtain ⟨B', rfl, hk⟩ := g3
          have := KvAt.child [] [mid] [] [r] rfl rfl hk
          simpa [Handle.under] using this
      refine ⟨.ok (loc.under (if inRight then 1 else 0)),
        { m with height := m.height + 1, root := ⟨[mid], [l, r]⟩, length := m.length + 1 }, a'.request.2, ?_, hsh,
        rfl, ⟨⟨hroot, ?_, by simp [hsh], by simp [hsh]⟩, hk⟩, fun hG => ⟨(h3 hG).1.tail, _, rfl⟩⟩
      · simp only [Map.vacantInsert, h1, Exec.ok_bind, hreq]
        simp only [hr, if_true, hpush, Exec.ok_bind]
      · show m.length + 1 = (BTree.toList (m.height + 1) _).length + x
        rw [hk.toList_eq, hlen]
    | false =>
      refine ⟨.error .allocError, { m with root := l, length := m.length + 1 }, a'.request.2, ?_, hsh, rfl,
        ⟨hloss m.height l ⟨g1.2.1, fun _ => by omega, g1.2.2⟩ (by rw [← htl]; simp), ?_⟩, fun hG => ?_⟩
      · simp only [Map.vacantInsert, h1, Exec.ok_bind, hreq]
        simp [hr]
      · refine .inr ⟨BTree.toList m.height l, mid :: BTree.toList m.height r, [], by rw [← htl]; simp, by simp [Map.toList], ?_⟩
        have := g2.1
        have := len_le_toList g2.2.2
        simp only [List.length_cons]; omega
      · have := (h3 hG).1.head; simp [hr] at this

/-! ### removal -/

theorem Map.removeKv_spec {x : Nat} {m : Map K V} (h : m.Shaped x) {hd A kv B} (hp : m.Points hd A kv B) :
    ∃ m', m.removeKv hd = .ok (kv, m') ∧ m'.Shaped x ∧ m'.toList = A ++ B ∧ m'.shared = m.shared := by
  obtain ⟨s1, s2, s3⟩ := h.shape
  obtain ⟨t', leaf, h1, h2, h3, h4, h5⟩ := removeRaw_spec hp s3
  have hlen := h.len
  rw [hp.toList] at hlen
  have hpos : 0 < m.length := by rw [hlen]; simp; omega
  have hsh := h.not_shared (by rw [hp.toList]; simp)
  obtain ⟨t2, w, g1, g2, g3⟩ := underflow_spec h3 (fun h0 => by rw [h4 h0]; exact s2 h0)
  have hl1 : t'.len ≤ 11 := by
    rcases Nat.eq_zero_or_pos m.height with h0 | h0
    · have := h5 h0; omega
    · rw [h4 h0]; exact s1
  have hlen' : ∀ (l : List (K × V)), l = BTree.toList m.height t' → m.length - 1 = l.length + x := by
    intro l hl; rw [hl, h2, hlen]; simp; omega
  have hreq : require (decide (0 < m.length)) = .ok () := require_of (by simpa using hpos)
  cases w with
  | done =>
    obtain ⟨k1, k2, k3⟩ := g3
    refine ⟨⟨m.height, t2, m.shared, m.length - 1⟩, ?_, ⟨⟨?_, ?_, k1⟩, hlen' _ g2, by simp [hsh], by simp [hsh]⟩, g2.trans h2, rfl⟩
    · simp [Map.removeKv, hreq, h1, g1, popLevelIf]
    · simpa [k2] using hl1
    · intro h0; simpa [k2, h4 h0] using s2 h0
  | walking =>
    obtain ⟨k1, k2, k3, k4⟩ := g3
    refine ⟨⟨m.height, t2, m.shared, m.length - 1⟩, ?_, ⟨⟨?_, k4, k1⟩, hlen' _ g2, by simp [hsh], by simp [hsh]⟩, g2.trans h2, rfl⟩
    · simp [Map.removeKv, hreq, h1, g1, popLevelIf]
    · show t2.len ≤ 11
      omega
  | popRoot =>
    obtain ⟨k1, k2, d, rfl, k3⟩ := g3
    obtain ⟨hh, hheq⟩ : ∃ hh, m.height = hh + 1 := ⟨m.height - 1, by omega⟩
    have htl : BTree.toList m.height (⟨[], [d]⟩ : Tree K V) = BTree.toList hh d := by
      rw [hheq]; simpa using toList_split (h := hh) (A := []) (C := []) (X := []) (Y := []) (c := d) rfl
    have hge : getE [d] 0 = .ok d := rfl
    rw [hheq] at k3
    refine ⟨⟨hh, d, m.shared, m.length - 1⟩, ?_, ⟨k3.root, ?_, by simp [hsh], by simp [hsh]⟩, ?_, rfl⟩
    · simp only [Map.removeKv, hreq, Exec.ok_bind, h1, g1]
      rw [hheq]
      simp [popLevelIf, hge]
    · exact hlen' _ (htl.symm.trans g2)
    · show BTree.toList hh d = _
      rw [← htl, g2, h2]

/-! ### entries -/

/-- `try_entry` with any `Ord`. -/
theorem Map.tryEntry_wf [Ord K] {lo rt x : Nat} {m : Map K V} (h : m.ShapedN lo rt x) (k : K) (a : Alloc) :
    ∃ r m' a', m.tryEntry k a = .ok (r, m', a') ∧ m'.ShapedN lo rt x ∧ m'.toList = m.toList ∧ m'.length = m.length ∧
      (match r with
       | .error _ => m' = m
       | .ok (.occupied hd) => m'.shared = false ∧ ∃ A kv B, m'.Points hd A kv B ∧ compare k kv.1 = .eq
       | .ok (.vacant k' hd) => m'.shared = false ∧ k' = k ∧ ∃ A B, m'.Gap hd A B) ∧
      (a.Good → a'.Good ∧ ∃ e, r = .ok e) := by
  obtain ⟨r, m', a', h1, h2, h3, h4, h5, h6, h7⟩ := Map.ensureRoot_spec h a
  simp only [Map.tryEntry, h1]
  cases r with
  | error e => exact ⟨_, m', a', rfl, h2, h3, h4, h6 e rfl, fun hg => by simp at h7; exact (h7 hg).elim⟩
  | ok u =>
    rcases Map.search_wf h2 id k with ⟨hd, A, kv, B, g1, g2, g3⟩ | ⟨hd, A, B, g1, g2⟩
    · exact ⟨.ok (.occupied hd), m', a', by simp [g1], h2, h3, h4, ⟨h5 rfl, A, kv, B, g2, g3⟩,
        fun hg => ⟨(h7 hg).2, _, rfl⟩⟩
    · exact ⟨.ok (.vacant k hd), m', a', by simp [g1], h2, h3, h4, ⟨h5 rfl, rfl, A, B, g2⟩,
        fun hg => ⟨(h7 hg).2, _, rfl⟩⟩

/-- Where an entry of `m` for `k` points. -/
def EntryAt [Ord K] (m : Map K V) (k : K) : Entry K → Prop
  | .occupied hd => ∃ A kv B, m.Points hd A kv B ∧ (∀ a ∈ A, compare k a.1 = .gt) ∧ compare k kv.1 = .eq ∧
      (∀ b ∈ B, compare k b.1 = .lt)
  | .vacant k' hd => k' = k ∧ ∃ A B, m.Gap hd A B ∧ (∀ a ∈ A, compare k a.1 = .gt) ∧
      (∀ b ∈ B, compare k b.1 = .lt)

theorem borrowOK_id [Ord K] : BorrowOK (id : K → K) := fun _ _ => rfl

/-- `try_entry` on an ordered map. -/
theorem Map.tryEntry_ordered [Ord K] [Std.TransOrd K] {lo rt x : Nat} {m : Map K V} (h : m.OrderedN lo rt x) (k : K)
    (a : Alloc) :
    ∃ r m' a', m.tryEntry k a = .ok (r, m', a') ∧ m'.OrderedN lo rt x ∧ m'.toList = m.toList ∧ m'.length = m.length ∧
      (match r with
       | .error _ => m' = m ∧ m.toList = []
       | .ok e => m'.shared = false ∧ EntryAt m' k e) ∧
      (a.Good → a'.Good ∧ ∃ e, r = .ok e) := by
  obtain ⟨r, m', a', h1, h2, h3, h4, h5, h6, h7⟩ := Map.ensureRoot_spec h.toShaped a
  have ho : m'.OrderedN lo rt x := ⟨h2, by rw [h3]; exact h.sorted⟩
  simp only [Map.tryEntry, h1]
  cases r with
  | error e =>
    refine ⟨_, m', a', rfl, ho, h3, h4, ⟨h6 e rfl, ?_⟩, fun hg => by simp at h7; exact (h7 hg).elim⟩
    cases hs : m.shared with
    | false => simp [Map.ensureRootIsOwned, hs] at h1
    | true =>
      obtain ⟨e1, e2⟩ := h.shared hs
      simp [Map.toList, e1, e2, emptyLeaf]
  | ok u =>
    rcases Map.search_valid borrowOK_id ho k with ⟨hd, A, kv, B, g1, g2, g3, g4, g5⟩ | ⟨hd, A, B, g1, g2, g3, g4⟩
    · exact ⟨.ok (.occupied hd), m', a', by simp [g1], ho, h3, h4, ⟨h5 rfl, A, kv, B, g2, g3, g4, g5⟩,
        fun hg => ⟨(h7 hg).2, _, rfl⟩⟩
    · exact ⟨.ok (.vacant k hd), m', a', by simp [g1], ho, h3, h4, ⟨h5 rfl, rfl, A, B, g2, g3, g4⟩,
        fun hg => ⟨(h7 hg).2, _, rfl⟩⟩

/-- `try_insert` with any `Ord`. -/
theorem Map.tryInsert_wf [Ord K] {lo rt x : Nat} {m : Map K V} (h : m.ShapedN lo rt x) (k : K) (v : V) (a : Alloc) (hf : lo ≤ 4 ∧ rt ≤ 1 := by decide) :
    ∃ r m' a', m.tryInsert k v a = .ok (r, m', a') ∧
      (match r with
       | .ok old => m'.ShapedN lo rt x ∧ m'.toList.length = m.toList.length + (if old.isSome then 0 else 1)
       | .error _ => ∃ x', x ≤ x' ∧ m'.ShapedN lo rt x') ∧
      (a.Good → a'.Good ∧ ∃ o, r = .ok o) := by
  obtain ⟨r, m1, a1, h1, h2, h3, h4, h5, h6⟩ := Map.tryEntry_wf h k a
  simp only [Map.tryInsert, h1, Exec.ok_bind]
  cases r with
  | error e => exact ⟨_, m1, a1, rfl, ⟨x, Nat.le_refl _, h2⟩, fun hg => by simpa using (h6 hg).2⟩
  | ok e =>
    cases e with
    | occupied hd =>
      obtain ⟨_, A, kv, B, g1, g2⟩ := h5
      obtain ⟨m', k1, k2, k3, k4, k5, k6⟩ := Map.setVal_spec h2 g1 v
      refine ⟨.ok (some kv.2), m', a1, by simp [k1], ⟨k2, ?_⟩, fun hg => ⟨(h6 hg).1, _, rfl⟩⟩
      have e1 := k2.len; have e2 := h2.len
      rw [← h3]; simp; omega
    | vacant k' hd =>
      obtain ⟨hs, rfl, A, B, g1⟩ := h5
      obtain ⟨r, m', a', k1, k2, k3, k4, k5⟩ := Map.vacantInsert_spec h2 hs g1 k' v a1 hf
      cases r with
      | ok loc =>
        refine ⟨.ok none, m', a', by simp [k1], ⟨k4.1, ?_⟩, fun hg => ⟨(k5 (h6 hg).1).1, _, rfl⟩⟩
        have e1 := k4.1.len; have e2 := h2.len
        rw [← h3]; simp; omega
      | error e =>
        obtain ⟨⟨x', e1, e2⟩, e3⟩ := k4
        exact ⟨.error e, m', a', by simp [k1], ⟨x', Nat.le_of_lt e1, e2⟩,
          fun hg => by simpa using (k5 (h6 hg).1).2⟩

/-- `try_insert` on an ordered map, for any allocation schedule. -/
theorem Map.tryInsert_ordered [Ord K] [Std.TransOrd K] {lo rt x : Nat} {m : Map K V} (h : m.OrderedN lo rt x) (k : K) (v : V)
    (a : Alloc) (hf : lo ≤ 4 ∧ rt ≤ 1 := by decide) :
    ∃ r m' a', m.tryInsert k v a = .ok (r, m', a') ∧
      (match r with
       | .ok old => m'.OrderedN lo rt x ∧ m'.toList = Spec.insert k v m.toList ∧ old = lookup id k m.toList
       | .error _ => lookup id k m.toList = none ∧ Torn (lo + 1) m.toList (Spec.insert k v m.toList) m'.toList ∧
           ((m' = m ∧ m.toList = []) ∨ (m'.length = m.length + 1 ∧ ∃ x', x < x' ∧ m'.OrderedN lo rt x'))) ∧
      (a.Good → a'.Good ∧ ∃ o, r = .ok o) := by
  obtain ⟨r, m1, a1, h1, h2, h3, h4, h5, h6⟩ := Map.tryEntry_ordered h k a
  simp only [Map.tryInsert, h1, Exec.ok_bind]
  cases r with
  | error e =>
    obtain ⟨e1, e2⟩ := h5
    exact ⟨_, m1, a1, rfl, ⟨by simp [e2, lookup, find?], .inl (by rw [e1]), .inl ⟨e1, e2⟩⟩,
      fun hg => by simpa using (h6 hg).2⟩
  | ok e =>
    cases e with
    | occupied hd =>
      obtain ⟨_, A, kv, B, g1, g2, g3, g4⟩ := h5
      obtain ⟨m', k1, k2, k3, k4, k5, k6⟩ := Map.setVal_spec h2.toShaped g1 v
      have hs := h2.sorted
      rw [g1.toList] at hs
      refine ⟨.ok (some kv.2), m', a1, by simp [k1], ⟨⟨k2, ?_⟩, ?_, ?_⟩, fun hg => ⟨(h6 hg).1, _, rfl⟩⟩
      · rw [k3.toList]; exact sorted_set hs rfl
      · rw [← h3, g1.toList, k3.toList, insert_hit g2 g3]
      · rw [← h3, g1.toList, lookup, find?_hit g2 g3]; rfl
    | vacant k' hd =>
      obtain ⟨hsh, rfl, A, B, g1, g2, g3⟩ := h5
      obtain ⟨r, m', a', k1, k2, k3, k4, k5⟩ := Map.vacantInsert_spec h2.toShaped hsh g1 k' v a1 hf
      have hs := h2.sorted
      rw [g1.toList] at hs
      have hs' := sorted_insert (v := v) hs g2 g3
      have hlk : lookup id k' m.toList = none := by
        rw [← h3, g1.toList, lookup, find?_miss g2 g3]; rfl
      have hin : Spec.insert k' v m.toList = A ++ (k', v) :: B := by
        rw [← h3, g1.toList, insert_miss g2 g3]
      cases r with
      | ok loc =>
        refine ⟨.ok none, m', a', by simp [k1], ⟨⟨k4.1, ?_⟩, ?_, hlk.symm⟩, fun hg => ⟨(k5 (h6 hg).1).1, _, rfl⟩⟩
        · rw [k4.2.toList]; exact hs'
        · rw [k4.2.toList, hin]
      | error e =>
        obtain ⟨⟨x', e1, e2⟩, e3⟩ := k4
        refine ⟨.error e, m', a', by simp [k1], ⟨hlk, by rw [hin, ← h3]; exact e3, .inr ⟨by omega, x', e1, e2, ?_⟩⟩,
          fun hg => by simpa using (k5 (h6 hg).1).2⟩
        exact List.Pairwise.sublist (e3.sublist (by rw [g1.toList]; simp)) hs'

/-- `remove_entry`/`remove` with any `Ord`. -/
theorem Map.removeEntry_wf [Ord Q] {x : Nat} {m : Map K V} (h : m.Shaped x) (bor : K → Q) (q : Q) :
    ∃ r m', m.removeEntry bor q = .ok (r, m') ∧ m'.Shaped x ∧
      m.toList.length = m'.toList.length + (if r.isSome then 1 else 0) ∧
      (∀ kv, r = some kv → compare q (bor kv.1) = .eq) := by
  rcases Map.search_wf h bor q with ⟨hd, A, kv, B, h1, h2, h3⟩ | ⟨hd, A, B, h1, h2⟩
  · obtain ⟨m', g1, g2, g3, g4⟩ := Map.removeKv_spec h h2
    refine ⟨some kv, m', by simp [Map.removeEntry, h1, g1], g2, ?_, by simp [h3]⟩
    rw [h2.toList, g3]; simp; omega
  · exact ⟨none, m, by simp [Map.removeEntry, h1], h, by simp, by simp⟩

/-- `remove_entry`/`remove` on an ordered map. -/
theorem Map.removeEntry_ordered [Ord K] [Ord Q] [Std.TransOrd Q] {bor : K → Q} (hbo : BorrowOK bor) {x : Nat}
    {m : Map K V} (h : m.Ordered x) (q : Q) :
    ∃ m', m.removeEntry bor q = .ok (find? bor q m.toList, m') ∧ m'.Ordered x ∧
      m'.toList = erase bor q m.toList := by
  rcases Map.search_valid hbo h q with ⟨hd, A, kv, B, h1, h2, h3, h4, h5⟩ | ⟨hd, A, B, h1, h2, h3, h4⟩
  · obtain ⟨m', g1, g2, g3, g4⟩ := Map.removeKv_spec h.toShaped h2
    have hs := h.sorted
    rw [h2.toList] at hs
    refine ⟨m', ?_, ⟨g2, by rw [g3]; exact sorted_remove hs⟩, by rw [g3, h2.toList, erase_hit h3 h4 h5]⟩
    rw [h2.toList, find?_hit h3 h4]; simp [Map.removeEntry, h1, g1]
  · refine ⟨m, ?_, h, by rw [h2.toList, erase_miss h3 h4]⟩
    rw [h2.toList, find?_miss h3 h4]; simp [Map.removeEntry, h1]

end Verif.BTree
