import Verif.BTree.Proofs.SpecLemmas
/-
Comparing item sequences; the meaning of inserting a sequence of pairs.
-/
namespace Verif.BTree
open Verif Verif.Spec

variable {K V Q α : Type}

theorem zipAll_iff {eq : α → α → Bool} {l r : List α} (hlen : l.length = r.length) :
    zipAll eq l r = true ↔ All2 (fun a b => eq a b = true) l r := by
  induction l generalizing r with
  | nil => cases r with
    | nil => simp [zipAll, All2]
    | cons => simp at hlen
  | cons a l ih => cases r with
    | nil => simp at hlen
    | cons b r =>
      have := ih (r := r) (by simpa using hlen)
      simp only [zipAll, All2, Bool.and_eq_true, this]

theorem lexCmp_eq {cmp : α → α → Ordering} {l r : List α} :
    lexCmp cmp l r = .eq ↔ All2 (fun a b => cmp a b = .eq) l r := by
  induction l generalizing r with
  | nil => cases r <;> simp [lexCmp, All2]
  | cons a l ih => cases r with
    | nil => simp [lexCmp, All2]
    | cons b r =>
      simp only [lexCmp, All2]
      cases h : cmp a b <;> simp [ih]

theorem lexPartial_spec {cmp : α → α → Option Ordering} : ∀ (l r : List α), FirstDecides cmp l r (lexPartial cmp l r)
  | [], [] => ⟨[], [], trivial, .inl ⟨rfl, rfl, rfl⟩⟩
  | [], y :: r => ⟨[], [], trivial, .inr (.inl ⟨rfl, ⟨y, r, rfl⟩, rfl⟩)⟩
  | x :: l, [] => ⟨[], [], trivial, .inr (.inr (.inl ⟨⟨x, l, rfl⟩, rfl, rfl⟩))⟩
  | x :: l, y :: r => by
    unfold lexPartial
    by_cases h : cmp x y = some .eq
    · rw [h]
      dsimp only
      obtain ⟨p, p', hp, h1⟩ := lexPartial_spec (cmp := cmp) l r
      refine ⟨x :: p, y :: p', ⟨h, hp⟩, ?_⟩
      rcases h1 with ⟨h1, h2, h3⟩ | ⟨h1, ⟨z, r', h2⟩, h3⟩ | ⟨⟨z, l', h1⟩, h2, h3⟩ | ⟨z, l', w, r', h1, h2, h3, h4⟩
      · exact .inl ⟨by rw [h1], by rw [h2], h3⟩
      · exact .inr (.inl ⟨by rw [h1], ⟨z, r', by rw [h2]; rfl⟩, h3⟩)
      · exact .inr (.inr (.inl ⟨⟨z, l', by rw [h1]; rfl⟩, by rw [h2], h3⟩))
      · exact .inr (.inr (.inr ⟨z, l', w, r', by rw [h1]; rfl, by rw [h2]; rfl, h3, h4⟩))
    · refine ⟨[], [], trivial, .inr (.inr (.inr ⟨x, l, y, r, rfl, rfl, h, ?_⟩))⟩
      split
      · rename_i h2; exact absurd h2 h
      · rfl

theorem LexLess.cons {cmp : α → α → Ordering} {a b : α} {l r : List α} :
    LexLess cmp (a :: l) (b :: r) ↔ cmp a b = .lt ∨ (cmp a b = .eq ∧ LexLess cmp l r) := by
  constructor
  · rintro ⟨p, p', hp, h⟩
    cases p with
    | nil =>
      cases p' with
      | cons => simp [All2] at hp
      | nil =>
        rcases h with ⟨h, _⟩ | ⟨x, l', y, r', h1, h2, h3⟩
        · simp at h
        · simp at h1 h2; obtain ⟨rfl, _⟩ := h1; obtain ⟨rfl, _⟩ := h2; exact .inl h3
    | cons c p =>
      cases p' with
      | nil => simp [All2] at hp
      | cons d p' =>
        rcases h with ⟨h, y, r', h2⟩ | ⟨x, l', y, r', h1, h2, h3⟩
        · simp at h h2; obtain ⟨rfl, rfl⟩ := h; obtain ⟨rfl, rfl⟩ := h2
          exact .inr ⟨hp.1, l, p', hp.2, .inl ⟨rfl, y, r', rfl⟩⟩
        · simp at h1 h2; obtain ⟨rfl, rfl⟩ := h1; obtain ⟨rfl, rfl⟩ := h2
          exact .inr ⟨hp.1, p, p', hp.2, .inr ⟨x, l', y, r', rfl, rfl, h3⟩⟩
  · rintro (h | ⟨h, p, p', hp, h'⟩)
    · exact ⟨[], [], trivial, .inr ⟨a, l, b, r, rfl, rfl, h⟩⟩
    · refine ⟨a :: p, b :: p', ⟨h, hp⟩, ?_⟩
      rcases h' with ⟨rfl, y, r', rfl⟩ | ⟨x, l', y, r', rfl, rfl, h3⟩
      · exact .inl ⟨rfl, y, r', rfl⟩
      · exact .inr ⟨x, l', y, r', rfl, rfl, h3⟩

theorem LexLess.nil_right {cmp : α → α → Ordering} {l : List α} : ¬ LexLess cmp l [] := by
  rintro ⟨p, p', _, ⟨_, y, r', h⟩ | ⟨_, _, y, r', _, h, _⟩⟩ <;> simp at h

theorem LexLess.nil_cons {cmp : α → α → Ordering} {b : α} {r : List α} : LexLess cmp [] (b :: r) :=
  ⟨[], [], trivial, .inl ⟨rfl, b, r, rfl⟩⟩

theorem lexCmp_lt {cmp : α → α → Ordering} {l r : List α} : lexCmp cmp l r = .lt ↔ LexLess cmp l r := by
  induction l generalizing r with
  | nil => cases r with
    | nil => simp [lexCmp, LexLess.nil_right]
    | cons b r => simp [lexCmp, LexLess.nil_cons]
  | cons a l ih => cases r with
    | nil => simp [lexCmp, LexLess.nil_right]
    | cons b r =>
      rw [LexLess.cons, ← ih]
      simp only [lexCmp]
      cases h : cmp a b <;> simp

theorem lexCmp_gt {cmp : α → α → Ordering} {l r : List α} (hs : ∀ a b, cmp b a = (cmp a b).swap) :
    lexCmp cmp l r = .gt ↔ LexLess cmp r l := by
  induction l generalizing r with
  | nil => cases r with
    | nil => simp [lexCmp, LexLess.nil_right]
    | cons b r => simp [lexCmp, LexLess.nil_right]
  | cons a l ih => cases r with
    | nil => simp [lexCmp, LexLess.nil_cons]
    | cons b r =>
      rw [LexLess.cons, ← ih, hs a b]
      simp only [lexCmp]
      cases h : cmp a b <;> simp

/-! ### a sequence of insertions -/

theorem sorted_inserts [Ord K] [Std.TransOrd K] (items : List (K × V)) {l : List (K × V)} (hs : Sorted l) :
    Sorted (items.foldl (fun acc kv => Spec.insert kv.1 kv.2 acc) l) := by
  induction items generalizing l with
  | nil => exact hs
  | cons kv items ih => exact ih (Sorted.insert hs kv.1 kv.2)

/-- Last write wins; the key object is the first one stored. -/
theorem find?_inserts [Ord K] [Std.TransOrd K] (items : List (K × V)) {l : List (K × V)} (hs : Sorted l) (q : K) :
    find? id q (items.foldl (fun acc kv => Spec.insert kv.1 kv.2 acc) l) =
      match (find? id q l).or (find? id q items), find? id q items.reverse with
      | some first, some last => some (first.1, last.2)
      | some first, none => some first
      | none, _ => none := by
  induction items generalizing l with
  | nil => simp [find?]; cases List.find? (fun kv => compare q kv.fst == Ordering.eq) l <;> rfl
  | cons kv items ih =>
    rw [List.foldl_cons, ih (Sorted.insert hs kv.1 kv.2), find?_insert borrowOK_id hs, List.reverse_cons, find?_append]
    by_cases hc : compare q kv.1 = .eq
    · have hq : ∀ (l : List (K × V)), find? id kv.1 l = find? id q l := by
        intro l
        simp only [find?]
        congr 1
        funext x
        rw [show compare q (id x.1) = compare kv.1 (id x.1) from Std.TransCmp.congr_left hc]
      have h1 : find? id q (kv :: items) = some kv := by rw [find?_cons]; simp [hc]
      have h2 : find? id q [kv] = some kv := by rw [find?_cons]; simp [hc]
      rw [h1, h2, hq]
      simp only [id, hc, if_true, Option.some_or]
      cases hf : find? id q l <;> cases hr : find? id q items.reverse <;> simp
    · have h1 : find? id q (kv :: items) = find? id q items := by rw [find?_cons]; simp [hc]
      have h2 : find? id q [kv] = none := by rw [find?_cons]; simp [hc, find?]
      rw [h1, h2]
      simp [hc]

end Verif.BTree
