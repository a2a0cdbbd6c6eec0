import Verif.SpecWhole
import Verif.BTree.Proofs.Compare
/-
The specification of programs that use the whole API leaves no choice when the key order is lawful and no request for memory is refused.
-/
namespace Verif.Spec
open Verif Verif.BTree

variable {K V Q S α : Type}

theorem decides_unique {cmp : α → α → Option Ordering} : ∀ {p p' l r : List α} {c : Option Ordering}, All2 (fun a b => cmp a b = some .eq) p p' →
    ((l = p ∧ r = p' ∧ c = some .eq) ∨ (l = p ∧ (∃ y r', r = p' ++ y :: r') ∧ c = some .lt) ∨ ((∃ x l', l = p ++ x :: l') ∧ r = p' ∧ c = some .gt) ∨
     (∃ x l' y r', l = p ++ x :: l' ∧ r = p' ++ y :: r' ∧ cmp x y ≠ some .eq ∧ c = cmp x y)) → c = lexPartial cmp l r
  | [], [], l, r, c, _, h => by
    rcases h with ⟨rfl, rfl, rfl⟩ | ⟨rfl, ⟨y, r', rfl⟩, rfl⟩ | ⟨⟨x, l', rfl⟩, rfl, rfl⟩ | ⟨x, l', y, r', rfl, rfl, h, rfl⟩
    · rfl
    · rfl
    · rfl
    · simp only [List.nil_append, lexPartial]
  | a :: p, b :: p', l, r, c, ⟨hab, hp⟩, h => by
    rcases h with ⟨rfl, rfl, rfl⟩ | ⟨rfl, ⟨y, r', rfl⟩, rfl⟩ | ⟨⟨x, l', rfl⟩, rfl, rfl⟩ | ⟨x, l', y, r', rfl, rfl, h, rfl⟩
    all_goals simp only [List.cons_append, lexPartial, hab]
    · exact decides_unique hp (.inl ⟨rfl, rfl, rfl⟩)
    · exact decides_unique hp (.inr (.inl ⟨rfl, ⟨y, r', rfl⟩, rfl⟩))
    · exact decides_unique hp (.inr (.inr (.inl ⟨⟨x, l', rfl⟩, rfl, rfl⟩)))
    · exact decides_unique hp (.inr (.inr (.inr ⟨x, l', y, r', rfl, rfl, h, rfl⟩)))

theorem FirstDecides.unique {cmp : α → α → Option Ordering} {l r : List α} {c c' : Option Ordering} (h : FirstDecides cmp l r c) (h' : FirstDecides cmp l r c') : c = c' := by
  obtain ⟨p, p', h1, h2⟩ := h
  obtain ⟨q, q', h3, h4⟩ := h'
  rw [decides_unique h1 h2, decides_unique h3 h4]

theorem Ask.unique [Ord Q] {f : Orders K V S} {bor : K → Q} {ls : List (List (K × V))} {a : Ask Q} {t t' : Told K V S} (h : a.Right f bor True ls t) (h' : a.Right f bor True ls t') :
    t = t' := by
  cases a with
  | eq i j =>
    simp only [Ask.Right] at h h'
    cases hi : ls[i]? <;> cases hj : ls[j]? <;> simp only [hi, hj] at h h' <;> try (rw [h, h'])
    obtain ⟨b, rfl, h1⟩ := h
    obtain ⟨b', rfl, h2⟩ := h'
    have : b = b' := Bool.eq_iff_iff.2 (h1.trans h2.symm)
    rw [this]
  | partialCmp i j =>
    simp only [Ask.Right] at h h'
    cases hi : ls[i]? <;> cases hj : ls[j]? <;> simp only [hi, hj] at h h' <;> try (rw [h, h'])
    obtain ⟨b, rfl, h1⟩ := h
    obtain ⟨b', rfl, h2⟩ := h'
    rw [h1.unique h2]
  | cmp i j =>
    simp only [Ask.Right] at h h'
    cases hi : ls[i]? <;> cases hj : ls[j]? <;> simp only [hi, hj] at h h' <;> try (rw [h, h'])
    obtain ⟨b, rfl, h1⟩ := h
    obtain ⟨b', rfl, h2⟩ := h'
    rw [Option.some.inj (h1.unique h2)]
  | hash i =>
    simp only [Ask.Right] at h h'
    cases hi : ls[i]? <;> simp only [hi] at h h' <;> rw [h, h']
  | debug i =>
    simp only [Ask.Right] at h h'
    cases hi : ls[i]? <;> simp only [hi] at h h' <;> rw [h, h']
  | index i q =>
    simp only [Ask.Right] at h h'
    cases hi : ls[i]? <;> simp only [hi] at h h' <;> try (rw [h, h'])
    obtain ⟨b, rfl, _, h1⟩ := h
    obtain ⟨b', rfl, _, h2⟩ := h'
    rw [h1 trivial, h2 trivial]

/-- A cursor over nothing shows nothing and changes nothing, wherever it is. -/
theorem looks_nothing (kind : MutKind) (l : List (K × V)) : ∀ (as : List (MutLook V)) (m n : Nat),
    Cursor.looks kind ⟨l, m, m, []⟩ as = Cursor.looks kind ⟨l, n, n, []⟩ as
  | [], m, n => rfl
  | a :: as, m, n => by
    have hp : ∀ m, (⟨l, m, m, []⟩ : Cursor K V).pending = [] := fun m => by simp [Cursor.pending]
    have h : ∀ m, Cursor.look kind ⟨l, m, m, []⟩ a = ((Cursor.look kind ⟨l, 0, 0, []⟩ a).1, ⟨l, m, m, []⟩) := by
      intro m
      cases a with
      | act a =>
        cases a with
        | take e => cases e <;> simp [Cursor.look, Cursor.act]
        | write i f => simp [Cursor.look, Cursor.act]
      | hint => simp [Cursor.look, hp]
      | debug => simp [Cursor.look, hp]
    simp only [Cursor.looks]
    rw [h m, h n, looks_nothing kind l as m n]

/-- The stretch is where its first element is. -/
theorem stretch_unique {P : α → Bool} {l pre mid post pre' post' : List α} (h : l = pre ++ mid ++ post) (h' : l = pre' ++ mid ++ post') (hm : mid = l.filter P) (hne : mid ≠ []) :
    pre.length = pre'.length := by
  have key : ∀ {pre post : List α}, l = pre ++ mid ++ post → pre = l.takeWhile fun a => !P a := by
    intro pre post h
    have hmm : ∀ a ∈ mid, P a = true := fun a ha => by rw [hm] at ha; exact (List.mem_filter.1 ha).2
    have h1 : mid.filter P = mid := List.filter_eq_self.2 hmm
    have h2 : mid = pre.filter P ++ mid ++ post.filter P := by
      conv => lhs; rw [hm, h, List.filter_append, List.filter_append, h1]
    have h3 : pre.filter P = [] := by
      have := congrArg List.length h2
      simp only [List.length_append] at this
      exact List.eq_nil_of_length_eq_zero (by omega)
    rw [h]
    obtain ⟨x, mid', rfl⟩ := List.exists_cons_of_ne_nil hne
    rw [List.append_assoc, List.takeWhile_append_of_pos (fun a ha => by simpa using List.filter_eq_nil_iff.1 h3 a ha)]
    simp [hmm x (by simp)]
  rw [key h, key h']

theorem place_unique [Ord K] {k : K} {p q : Place K V} (hp : p.IsFor k) (hq : q.IsFor k) (h : p.list = q.list) : p = q := by
  have key : ∀ {p : Place K V}, p.IsFor k → p.before = p.list.filter (fun a => compare k a.1 == .gt) ∧ p.here.toList = p.list.filter (fun a => compare k a.1 == .eq) ∧
      p.after = p.list.filter (fun a => compare k a.1 == .lt) := by
    rintro ⟨A, x, B⟩ ⟨h1, h2, h3⟩
    dsimp only at h1 h2 h3
    have h2' : ∀ a ∈ x.toList, compare k a.1 = .eq := fun a ha => h2 a (by simpa using ha)
    have yes : ∀ {o : Ordering} {l : List (K × V)}, (∀ a ∈ l, compare k a.1 = o) → l.filter (fun a => compare k a.1 == o) = l :=
      fun h => List.filter_eq_self.2 fun a ha => by simp [h a ha]
    have no : ∀ {o o' : Ordering} {l : List (K × V)}, o ≠ o' → (∀ a ∈ l, compare k a.1 = o) → l.filter (fun a => compare k a.1 == o') = [] :=
      fun hn h => List.filter_eq_nil_iff.2 fun a ha => by simp [h a ha, hn]
    simp only [Place.list, List.filter_append, yes h1, yes h2', yes h3, no (o := .gt) (o' := .eq) (by simp) h1, no (o := .gt) (o' := .lt) (by simp) h1,
      no (o := .eq) (o' := .gt) (by simp) h2', no (o := .eq) (o' := .lt) (by simp) h2', no (o := .lt) (o' := .gt) (by simp) h3, no (o := .lt) (o' := .eq) (by simp) h3]
    simp
  obtain ⟨a1, a2, a3⟩ := key hp
  obtain ⟨b1, b2, b3⟩ := key hq
  rw [← h] at b1 b2 b3
  obtain ⟨A, x, B⟩ := p
  obtain ⟨A', x', B'⟩ := q
  dsimp only at *
  have hx : x.toList = x'.toList := a2.trans b2.symm
  have : x = x' := by
    cases x <;> cases x' <;> simp at hx ⊢
    exact hx
  rw [a1.trans b1.symm, this, a3.trans b3.symm]

theorem onSome_unique {ls ls' ls'' : List (List (K × V))} {i : Nat} {x x' : Ans K V S} {P P' : List (K × V) → List (K × V) → Prop} (h : onSome ls i x ls' P) (h' : onSome ls i x' ls'' P')
    (hu : ∀ l l1 l2, P l l1 → P' l l2 → x = x' ∧ l1 = l2) : x = x' ∧ ls' = ls'' := by
  unfold onSome at h h'
  cases hi : ls[i]? with
  | none =>
    rw [hi] at h h'
    exact ⟨h.1.trans h'.1.symm, h.2.trans h'.2.symm⟩
  | some l =>
    rw [hi] at h h'
    obtain ⟨l1, rfl, h1⟩ := h
    obtain ⟨l2, rfl, h2⟩ := h'
    obtain ⟨e1, e2⟩ := hu l l1 l2 h1 h2
    exact ⟨e1, by rw [e2]⟩

theorem Act.Right.unique [Ord K] [Ord Q] {f : Orders K V S} {bor : K → Q} {ls : List (List (K × V))} {a : Act K V Q} {x x' : Ans K V S} {ls' ls'' : List (List (K × V))}
    (h : a.Right f bor True False ls x ls') (h' : a.Right f bor True False ls x' ls'') : x = x' ∧ ls' = ls'' := by
  cases a with
  | op o =>
    obtain ⟨y, rfl, h1⟩ := h
    obtain ⟨y', rfl, h2⟩ := h'
    rcases h1 trivial with h1 | ⟨_, h, _⟩
    · rcases h2 trivial with h2 | ⟨_, h, _⟩
      · have := h1.trans h2.symm
        simp only [Prod.mk.injEq] at this
        exact ⟨by rw [this.1], this.2⟩
      · exact h.elim
    · exact h.elim
  | ask q =>
    obtain ⟨t, rfl, h1, rfl⟩ := h
    obtain ⟨t', rfl, h2, rfl⟩ := h'
    exact ⟨by rw [Ask.unique h1 h2], rfl⟩
  | iterMut i as =>
    refine onSome_unique h h' ?_
    rintro l l1 l2 ⟨rfl, rfl⟩ ⟨rfl, rfl⟩
    exact ⟨rfl, rfl⟩
  | valuesMut i as =>
    refine onSome_unique h h' ?_
    rintro l l1 l2 ⟨rfl, rfl⟩ ⟨rfl, rfl⟩
    exact ⟨rfl, rfl⟩
  | rangeMut i lo hi as =>
    refine onSome_unique h h' ?_
    rintro l l1 l2 (⟨rfl, rfl, g1⟩ | ⟨pre, mid, post, e1, g1, rfl, rfl⟩) (⟨rfl, rfl, g2⟩ | ⟨pre', mid', post', e2, g2, rfl, rfl⟩)
    · exact ⟨rfl, rfl⟩
    · rw [g1 trivial] at g2; simp at g2
    · rw [g2 trivial] at g1; simp at g1
    · obtain ⟨_, h1⟩ := g1 trivial
      obtain ⟨_, h2⟩ := g2 trivial
      rw [← h1] at h2
      subst h2
      have : Cursor.looks .range ⟨l, pre.length, pre.length + mid'.length, []⟩ as = Cursor.looks .range ⟨l, pre'.length, pre'.length + mid'.length, []⟩ as := by
        by_cases hne : mid' = []
        · rw [hne]
          exact looks_nothing .range l as _ _
        · rw [stretch_unique e1 e2 h1 hne]
      exact ⟨by rw [this], by rw [this]⟩
  | entry i k as fin =>
    refine onSome_unique h h' ?_
    rintro l l1 l2 ⟨p, rfl, _, g1, rfl, rfl⟩ ⟨q, e2, _, g2, rfl, rfl⟩
    rw [place_unique (g1 trivial) (g2 trivial) e2.symm]
    exact ⟨rfl, rfl⟩

end Verif.Spec
