import Verif.Props.Set
/-
C29, continued: building, copying and emptying sets.
-/
namespace Verif.Props
open Verif Verif.BTree Verif.Spec

variable {T : Type}

/-- **C29** `extend` (which keeps the stored object when an equal element comes along): it panics only if the allocator refuses a request; otherwise the set then
has the old elements and, of the new ones, each that has no equal among the old ones nor earlier in the sequence. -/
theorem C29_extend [Ord T] [Std.TransOrd T] {s : BSet T} {l} (hs : SetReach s) (hl : s.items = .ok l) (items : List T) (a : Alloc) :
    (¬ a.Good ∧ ∃ msg, s.extend items a = .panic msg) ∨
    ∃ s' a' l', s.extend items a = .ok (s', a') ∧ s'.items = .ok l' ∧ Ascending l' ∧ s'.len = l'.length ∧
      ∀ z, z ∈ l' ↔ z ∈ l ∨ ∃ pre post, items = pre ++ z :: post ∧ ¬ Has z l ∧ ¬ Has z pre := by
  have htot : (¬ a.Good ∧ ∃ msg, s.extend items a = .panic msg) ∨ ∃ s' a', s.extend items a = .ok (s', a') := by
    rw [BSet.extend_eq]
    rcases Map.extend_spec (items.map (·, ())) hs.valid a with ⟨⟨msg, h1⟩, h2⟩ | ⟨m', a', h1, _⟩
    · exact .inl ⟨h2, msg, by rw [h1]; rfl⟩
    · exact .inr ⟨⟨m'⟩, a', by rw [h1]; rfl⟩
  rcases htot with h | ⟨s', a', he⟩
  · exact .inl h
  · refine .inr ⟨s', a', s'.elems, he, ?_⟩
    have hv := (SetReach.extend hs he).valid
    refine ⟨BSet.items_spec hv.toShaped, BSet.ascending hv, BSet.len_spec hv.toShaped, ?_⟩
    clear hv
    induction items generalizing s l a with
    | nil =>
      simp only [BSet.extend, Exec.ok.injEq, Prod.mk.injEq] at he
      obtain ⟨rfl, rfl⟩ := he
      obtain rfl := BTree.Exec.ok_unique hl (BSet.items_spec hs.valid.toShaped)
      simp
    | cons x items ih =>
      unfold BSet.extend at he
      obtain ⟨⟨r, s1, a1⟩, h1, he⟩ := Exec.bind_eq_ok.1 he
      cases r with
      | error e => simp at he
      | ok b =>
        dsimp only at he
        obtain ⟨hb, l1, h2, h3, h4, _⟩ := C29_insert hs hl h1
        have hasc : Ascending l := by
          obtain rfl := BTree.Exec.ok_unique hl (BSet.items_spec hs.valid.toShaped)
          exact BSet.ascending hs.valid
        intro z
        rw [ih (SetReach.insert hs h1) h2 a1 he z, h4]
        have hhas : Has z l1 ↔ Has z l ∨ compare z x = .eq := by
          constructor
          · rintro ⟨y, hy, e⟩
            rcases (h4 y).1 hy with hy | ⟨rfl, _⟩
            · exact .inl ⟨y, hy, e⟩
            · exact .inr e
          · rintro (⟨y, hy, e⟩ | e)
            · exact ⟨y, (h4 y).2 (.inl hy), e⟩
            · cases hbb : b with
              | true => exact ⟨x, (h4 x).2 (.inr ⟨rfl, hbb⟩), e⟩
              | false =>
                have : Has x l := by
                  apply Classical.byContradiction
                  intro hn
                  rw [hb.2 hn] at hbb
                  cases hbb
                obtain ⟨y, hy, e'⟩ := this
                exact ⟨y, (h4 y).2 (.inl hy), Std.TransCmp.eq_trans e e'⟩
        constructor
        · rintro ((h | ⟨rfl, hbt⟩) | ⟨pre, post, rfl, h5, h6⟩)
          · exact .inl h
          · exact .inr ⟨[], items, rfl, hb.1 hbt, by rintro ⟨y, hy, _⟩; simp at hy⟩
          · rw [hhas] at h5
            refine .inr ⟨x :: pre, post, rfl, fun h => h5 (.inl h), ?_⟩
            rintro ⟨y, hy, e⟩
            rcases List.mem_cons.1 hy with rfl | hy
            · exact h5 (.inr e)
            · exact h6 ⟨y, hy, e⟩
        · rintro (h | ⟨pre, post, he', h5, h6⟩)
          · exact .inl (.inl h)
          · cases pre with
            | nil =>
              simp only [List.nil_append, List.cons.injEq] at he'
              obtain ⟨rfl, rfl⟩ := he'
              exact .inl (.inr ⟨rfl, hb.2 h5⟩)
            | cons p pre =>
              simp only [List.cons_append, List.cons.injEq] at he'
              obtain ⟨rfl, rfl⟩ := he'
              refine .inr ⟨pre, post, rfl, ?_, fun ⟨y, hy, e⟩ => h6 ⟨y, by simp [hy], e⟩⟩
              rw [hhas]
              rintro (h | h)
              · exact h5 h
              · exact h6 ⟨x, by simp, h⟩

example : (match mid.extend [12, 9, 1, 12] allOk with
    | .ok (s', _) => s'.items == .ok [1, 3, 4, 9, 10, 11, 12, 70] && s'.len == 8
    | _ => false) = true := by decide +kernel

/-- **C29** `from_iter` (`collect`): the elements that have no equal earlier in the sequence. -/
theorem C29_from_iter [Ord T] [Std.TransOrd T] (items : List T) (a : Alloc) :
    (¬ a.Good ∧ ∃ msg, BSet.fromIter items a = .panic msg) ∨
    ∃ s a' l, BSet.fromIter items a = .ok (s, a') ∧ s.items = .ok l ∧ Ascending l ∧ s.len = l.length ∧
      ∀ z, z ∈ l ↔ ∃ pre post, items = pre ++ z :: post ∧ ¬ Has z pre := by
  have hl : (BSet.new : BSet T).items = .ok [] := rfl
  rcases C29_extend SetReach.new hl items a with h | ⟨s', a', l', h1, h2, h3, h4, h5⟩
  · exact .inl h
  · refine .inr ⟨s', a', l', h1, h2, h3, h4, fun z => ?_⟩
    rw [h5]
    constructor
    · rintro (h | ⟨pre, post, e, _, h⟩)
      · cases h
      · exact ⟨pre, post, e, h⟩
    · rintro ⟨pre, post, e, h⟩
      exact .inr ⟨pre, post, e, by rintro ⟨y, hy, _⟩; simp at hy, h⟩

example : (match BSet.fromIter [5, 3, 5, 4] allOk with
    | .ok (s', _) => s'.items == .ok [3, 4, 5] && s'.len == 3
    | _ => false) = true := by decide +kernel

/-- **C29** `new` and `clear` give the empty set, `is_empty` says whether there are elements, `len` how many. -/
theorem C29_empty [Ord T] [Std.TransOrd T] {s : BSet T} {l} (hs : SetReach s) (hl : s.items = .ok l) :
    (BSet.new : BSet T).items = .ok [] ∧ s.clear.items = .ok [] ∧ s.clear.len = 0 ∧ s.len = l.length ∧ (s.isEmpty = true ↔ l = []) := by
  obtain rfl := BTree.Exec.ok_unique hl (BSet.items_spec hs.valid.toShaped)
  have hlen := BSet.len_spec hs.valid.toShaped
  refine ⟨rfl, rfl, rfl, hlen, ?_⟩
  unfold BSet.isEmpty
  rw [hlen, beq_iff_eq, List.length_eq_zero_iff]

example : mid.isEmpty = false ∧ mid.clear.isEmpty = true ∧ mid.len = 6 := by decide +kernel

/-- **C29** `clone`, whatever the elements' own `clone` does: clones of exactly the elements, in order, or a panic, which happens only if the allocator refuses a
request. -/
theorem C29_clone [Ord T] [Std.TransOrd T] {s : BSet T} {l} (hs : SetReach s) (hl : s.items = .ok l) (clone : T → T) (a : Alloc) :
    (¬ a.Good ∧ ∃ msg, s.clone clone a = .panic msg) ∨
    ∃ s' a', s.clone clone a = .ok (s', a') ∧ s'.items = .ok (l.map clone) ∧ s'.len = s.len := by
  obtain rfl := BTree.Exec.ok_unique hl (BSet.items_spec hs.valid.toShaped)
  obtain ⟨r, a', h1, h2, h3⟩ := Map.tryClone_wf (fun k a => (.ok (clone k), a)) (fun v a => (.ok (id v), a)) hs.valid.toShaped a
  cases r with
  | error er =>
    refine .inl ⟨fun hg => ?_, "Out of Mem", by simp [BSet.clone, Map.clone, h1]⟩
    have h := h3 hg (fun x a hg => hg) (fun x a hg => hg)
    obtain ⟨_, ho⟩ := h.2 fun kv _ => ⟨fun a _ => ⟨_, a, rfl⟩, fun a _ => ⟨_, a, rfl⟩⟩
    simp at ho
  | ok c =>
    obtain ⟨e1, e2⟩ := h2 c rfl
    have he : c.toList.map (·.1) = (s.map.toList.map (·.1)).map clone := by
      revert e2
      generalize s.map.toList = l
      generalize c.toList = l'
      intro e2
      induction l generalizing l' with
      | nil => cases l' with
        | nil => rfl
        | cons => exact e2.elim
      | cons x l ih => cases l' with
        | nil => exact e2.elim
        | cons y l' =>
          obtain ⟨⟨⟨_, _, g1⟩, _⟩, h⟩ := e2
          simp only [Prod.mk.injEq, Except.ok.injEq] at g1
          simp only [List.map_cons, ih _ h, g1.1]
    refine .inr ⟨⟨c⟩, a', by simp [BSet.clone, Map.clone, h1], ?_, ?_⟩
    · rw [BSet.items_spec (s := ⟨c⟩) e1]
      exact congrArg _ he
    · rw [BSet.len_spec (s := ⟨c⟩) e1, BSet.len_spec hs.valid.toShaped]
      have := congrArg List.length he
      simpa [BSet.elems] using this

example : (match mid.clone id allOk with
    | .ok (s', _) => s'.items == .ok [3, 4, 9, 10, 11, 70] && s'.len == 6
    | _ => false) = true := by decide +kernel

end Verif.Props
