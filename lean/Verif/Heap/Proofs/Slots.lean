import Verif.Heap.Mem
/-
What the array primitives do to arrays whose initialised slots are described by a list.
-/
namespace Verif.Heap.Slots
open Verif

variable {α : Type}

/-- The array whose first slots hold `l` and whose other slots are uninitialised. -/
def ofList (l : List α) : Slots α := fun i => l[i]?

/-- The array that holds `l` from slot `k` on; the first `k` slots are uninitialised. -/
def shifted (k : Nat) (l : List α) : Slots α := fun i => if i < k then none else l[i - k]?

/-- The array that holds `a`, one uninitialised slot, and `b`. -/
def hole (a b : List α) : Slots α := fun i => if i < a.length then a[i]? else if i = a.length then none else b[i - a.length - 1]?

@[simp] theorem uninit_eq : (uninit : Slots α) = ofList [] := by funext i; simp [uninit, ofList]

theorem get_congr {l : List α} {i j : Nat} (h : i = j) : l[i]? = l[j]? := by rw [h]
theorem get_none {l : List α} {i : Nat} (h : l.length ≤ i) : none = l[i]? := (List.getElem?_eq_none h).symm
theorem none_get {l : List α} {i : Nat} (h : l.length ≤ i) : l[i]? = none := List.getElem?_eq_none h
theorem both_none {l : List α} {l' : List α} {i j : Nat} (h : l.length ≤ i) (h' : l'.length ≤ j) :
    l[i]? = l'[j]? := by rw [none_get h, none_get h']
theorem get_cons {x : α} {l : List α} {i : Nat} : (x :: l)[i]? = if i = 0 then some x else l[i - 1]? := by
  cases i <;> simp

macro "slot_cases" : tactic => `(tactic|
  (repeat' split) <;> first
    | rfl
    | omega
    | (exfalso; omega)
    | (apply get_congr; omega)
    | (apply get_none; (try simp only [List.length_append, List.length_cons, List.length_nil]); omega)
    | (apply none_get; (try simp only [List.length_append, List.length_cons, List.length_nil]); omega)
    | (apply both_none <;> omega))

macro "slot_ext" : tactic => `(tactic|
  (funext x
   simp only [ofList, shifted, hole, List.getElem?_append, get_cons, List.getElem?_nil, List.length_append,
     List.length_cons, List.length_nil]
   slot_cases))

theorem shifted_zero (l : List α) : shifted 0 l = ofList l := by slot_ext
theorem hole_nil (a : List α) : hole a [] = ofList a := by slot_ext
theorem shifted_nil (k : Nat) : shifted k ([] : List α) = ofList [] := by slot_ext
theorem nil_hole (b : List α) : hole [] b = shifted 1 b := by slot_ext

theorem take_ofList {a b : List α} {x : α} {cap i : Nat} (hi : i = a.length) (hc : i < cap) :
    (ofList (a ++ x :: b)).take cap i = .ok (x, hole a b) := by
  subst hi
  simp only [take, hc, if_true, ofList, List.getElem?_append_right (Nat.le_refl _), Nat.sub_self,
    List.getElem?_cons_zero]
  congr 2
  slot_ext

theorem take_last {a : List α} {x : α} {cap i : Nat} (hi : i = a.length) (hc : i < cap) :
    (ofList (a ++ [x])).take cap i = .ok (x, ofList a) := by
  rw [take_ofList hi hc, hole_nil]

theorem peek_ofList {a b : List α} {x : α} {cap i : Nat} (hi : i = a.length) (hc : i < cap) :
    (ofList (a ++ x :: b)).peek cap i = .ok x := by
  subst hi
  simp only [peek, hc, if_true, ofList, List.getElem?_append_right (Nat.le_refl _), Nat.sub_self,
    List.getElem?_cons_zero]

theorem peek_get {l : List α} {x : α} {cap i : Nat} (h : l[i]? = some x) (hc : i < cap) :
    (ofList l).peek cap i = .ok x := by
  simp [peek, hc, ofList, h]

theorem put_hole {a b : List α} {x : α} {cap i : Nat} (hi : i = a.length) (hc : i < cap) :
    (hole a b).put cap i x = .ok (ofList (a ++ x :: b)) := by
  subst hi
  rw [put, if_pos ⟨hc, by simp [hole]⟩]
  congr 1
  slot_ext

theorem put_last {a : List α} {x : α} {cap i : Nat} (hi : i = a.length) (hc : i < cap) :
    (ofList a).put cap i x = .ok (ofList (a ++ [x])) := by
  rw [← hole_nil, put_hole hi hc]

theorem sliceInsert_ofList {a b : List α} {x : α} {cap len idx : Nat} (hl : len = a.length + b.length)
    (hi : idx = a.length) (hc : len < cap) :
    (ofList (a ++ b)).sliceInsert cap len idx x = .ok (ofList (a ++ x :: b)) := by
  subst hi
  have h1 : (ofList (a ++ b)).copyWithin cap a.length (a.length + 1) (len - a.length) = .ok (hole a b) := by
    rw [copyWithin, if_pos]
    · congr 1; slot_ext
    · refine ⟨by omega, by omega, fun d hd => ?_⟩
      by_cases h : a.length + 1 + d < len
      · left; omega
      · right; exact none_get (by simp only [List.length_append]; omega)
  simp only [sliceInsert, require, decide_eq_true_eq]
  rw [if_pos (by omega), Exec.ok_bind, h1, Exec.ok_bind, put_hole rfl (by omega)]

theorem sliceRemove_ofList {a b : List α} {x : α} {cap len idx : Nat} (hl : a.length + 1 + b.length ≤ len)
    (hi : idx = a.length) (hc : len ≤ cap) :
    (ofList (a ++ x :: b)).sliceRemove cap len idx = .ok (x, ofList (a ++ b)) := by
  subst hi
  have h1 : (hole a b).copyWithin cap (a.length + 1) a.length (len - a.length - 1) = .ok (ofList (a ++ b)) := by
    rw [copyWithin, if_pos]
    · congr 1; slot_ext
    · refine ⟨by omega, by omega, fun d hd => ?_⟩
      by_cases h : d = 0
      · right; subst h; simp [hole]
      · left; omega
  simp only [sliceRemove, require, decide_eq_true_eq]
  rw [if_pos (by omega), Exec.ok_bind, take_ofList rfl (by omega), Exec.ok_bind]
  simp only []
  rw [h1, Exec.ok_bind]

theorem moveTo_tail {a b d : List α} {cap i j n : Nat} (hi : i = a.length) (hn : n = b.length) (hj : j = d.length)
    (hc : i + n ≤ cap) (hc' : j + n ≤ cap) :
    (ofList (a ++ b)).moveTo (ofList d) cap i j n = .ok (ofList a, ofList (d ++ b)) := by
  subst hi hn hj
  rw [moveTo, if_pos ⟨hc, hc', fun e he => none_get (by omega)⟩]
  congr 2 <;> slot_ext

theorem moveTo_hole {a b d : List α} {cap i j n : Nat} (hi : i = a.length + 1) (hn : n = b.length) (hj : j = d.length)
    (hc : i + n ≤ cap) (hc' : j + n ≤ cap) :
    (hole a b).moveTo (ofList d) cap i j n = .ok (ofList a, ofList (d ++ b)) := by
  subst hi hn hj
  rw [moveTo, if_pos ⟨hc, hc', fun e he => none_get (by omega)⟩]
  congr 2 <;> slot_ext

theorem moveTo_all {b d : List α} {cap j n : Nat} (hn : n = b.length) (hj : j = d.length)
    (hc : n ≤ cap) (hc' : j + n ≤ cap) :
    (ofList b).moveTo (ofList d) cap 0 j n = .ok (ofList [], ofList (d ++ b)) := by
  have := moveTo_tail (a := []) (b := b) (d := d) (cap := cap) (i := 0) rfl hn hj (by omega) hc'
  simpa using this

/-- Moving a front part out. -/
theorem moveTo_front {a b d : List α} {cap j n : Nat} (hn : n = a.length) (hj : j = d.length)
    (hc : n ≤ cap) (hc' : j + n ≤ cap) :
    (ofList (a ++ b)).moveTo (ofList d) cap 0 j n = .ok (shifted n b, ofList (d ++ a)) := by
  subst hn hj
  rw [moveTo, if_pos ⟨by omega, hc', fun e he => none_get (by omega)⟩]
  congr 2 <;> slot_ext

/-- Moving a tail part to the front of an array with room there. -/
theorem moveTo_shifted {a b d : List α} {cap i n k : Nat} (hi : i = a.length) (hn : n = b.length) (hk : n ≤ k)
    (hc : i + n ≤ cap) (hc' : n ≤ cap) :
    (ofList (a ++ b)).moveTo (shifted k d) cap i 0 n =
      .ok (ofList a, fun x => if x < n then b[x]? else shifted k d x) := by
  subst hi hn
  rw [moveTo, if_pos ⟨by omega, by omega, fun e he => by simp only [shifted]; rw [if_pos (by omega)]⟩]
  congr 2 <;> slot_ext

theorem fill_shifted {b d : List α} {n : Nat} (hn : n = b.length) :
    (fun x => if x < n then b[x]? else shifted n d x) = ofList (b ++ d) := by
  subst hn; slot_ext

theorem fill_hole {b d : List α} {n : Nat} (hn : n = b.length) :
    (fun x => if x < n then b[x]? else shifted (n + 1) d x) = hole b d := by
  subst hn; slot_ext

theorem copy_up {d : List α} {cap k n : Nat} (hn : n = d.length) (hc : k + n ≤ cap) :
    (ofList d).copyWithin cap 0 k n = .ok (shifted k d) := by
  subst hn
  rw [copyWithin, if_pos]
  · congr 1; slot_ext
  · refine ⟨by omega, hc, fun e he => ?_⟩
    by_cases h : k + e < d.length
    · left; omega
    · right; exact none_get (by omega)

theorem copy_down {d : List α} {cap k n : Nat} (hn : n = d.length) (hc : k + n ≤ cap) :
    (shifted k d).copyWithin cap k 0 n = .ok (ofList d) := by
  subst hn
  rw [copyWithin, if_pos]
  · congr 1; slot_ext
  · refine ⟨hc, by omega, fun e he => ?_⟩
    by_cases h : k ≤ e
    · left; omega
    · right; simp only [shifted]; rw [if_pos (by omega)]

theorem take_shifted {c : List α} {x : α} {cap k : Nat} (hc : k < cap) :
    (shifted k (x :: c)).take cap k = .ok (x, shifted (k + 1) c) := by
  have h : shifted k (x :: c) k = some x := by simp [shifted]
  simp only [take, hc, if_true, h]
  congr 2
  slot_ext

/-! ### arrays of pairs seen as two arrays -/

variable {β : Type}

/-- Apply `f` to every initialised slot. -/
def map (f : α → β) (s : Slots α) : Slots β := fun i => (s i).map f

theorem map_eq_none {f : α → β} {s : Slots α} {i : Nat} : s.map f i = none ↔ s i = none := by
  simp [map]

theorem take_map {f : α → β} {s s' : Slots α} {cap i : Nat} {x : α} (h : s.take cap i = .ok (x, s')) :
    (s.map f).take cap i = .ok (f x, s'.map f) := by
  simp only [take] at h ⊢
  split at h
  · next hc =>
    rw [if_pos hc]
    split at h
    · next hx =>
      simp only [Exec.ok.injEq, Prod.mk.injEq] at h
      obtain ⟨rfl, rfl⟩ := h
      simp only [map, hx, Option.map_some]
      congr 2; funext j; by_cases hj : j = i <;> simp [hj, map]
    · cases h
  · cases h

theorem peek_map {f : α → β} {s : Slots α} {cap i : Nat} {x : α} (h : s.peek cap i = .ok x) :
    (s.map f).peek cap i = .ok (f x) := by
  simp only [peek] at h ⊢
  split at h
  · next hc =>
    rw [if_pos hc]
    split at h
    · next hx =>
      simp only [Exec.ok.injEq] at h
      subst h
      simp only [map, hx, Option.map_some]
    · cases h
  · cases h

theorem put_map {f : α → β} {s s' : Slots α} {cap i : Nat} {x : α} (h : s.put cap i x = .ok s') :
    (s.map f).put cap i (f x) = .ok (s'.map f) := by
  simp only [put, map_eq_none] at h ⊢
  split at h
  · next hc =>
    rw [if_pos hc]
    simp only [Exec.ok.injEq] at h
    subst h
    congr 1; funext j; simp only [map]; split <;> rfl
  · cases h

theorem copyWithin_map {f : α → β} {s s' : Slots α} {cap i j n : Nat} (h : s.copyWithin cap i j n = .ok s') :
    (s.map f).copyWithin cap i j n = .ok (s'.map f) := by
  simp only [copyWithin, map_eq_none] at h ⊢
  split at h
  · next hc =>
    simp only [Exec.ok.injEq] at h
    subst h
    rw [if_pos hc]
    congr 1; funext x; simp only [map]; (repeat' split) <;> rfl
  · cases h

theorem moveTo_map {f : α → β} {s d s' d' : Slots α} {cap i j n : Nat} (h : s.moveTo d cap i j n = .ok (s', d')) :
    (s.map f).moveTo (d.map f) cap i j n = .ok (s'.map f, d'.map f) := by
  simp only [moveTo, map_eq_none] at h ⊢
  split at h
  · next hc =>
    simp only [Exec.ok.injEq, Prod.mk.injEq] at h
    obtain ⟨rfl, rfl⟩ := h
    rw [if_pos hc]
    congr 2 <;> (funext x; simp only [map]; split <;> rfl)
  · cases h

theorem sliceInsert_map {f : α → β} {s s' : Slots α} {cap len idx : Nat} {x : α} (h : s.sliceInsert cap len idx x = .ok s') :
    (s.map f).sliceInsert cap len idx (f x) = .ok (s'.map f) := by
  simp only [sliceInsert] at h ⊢
  obtain ⟨_, h1, h⟩ := Exec.bind_eq_ok.1 h
  obtain ⟨s1, h2, h⟩ := Exec.bind_eq_ok.1 h
  rw [h1, Exec.ok_bind, copyWithin_map h2, Exec.ok_bind, put_map h]

theorem sliceRemove_map {f : α → β} {s s' : Slots α} {cap len idx : Nat} {x : α} (h : s.sliceRemove cap len idx = .ok (x, s')) :
    (s.map f).sliceRemove cap len idx = .ok (f x, s'.map f) := by
  simp only [sliceRemove] at h ⊢
  obtain ⟨_, h1, h⟩ := Exec.bind_eq_ok.1 h
  obtain ⟨⟨y, s1⟩, h2, h⟩ := Exec.bind_eq_ok.1 h
  obtain ⟨s2, h3, h⟩ := Exec.bind_eq_ok.1 h
  simp only [Exec.ok.injEq, Prod.mk.injEq] at h
  obtain ⟨rfl, rfl⟩ := h
  rw [h1, Exec.ok_bind, take_map h2, Exec.ok_bind]
  simp only []
  rw [copyWithin_map h3, Exec.ok_bind]

theorem map_ofList {f : α → β} {l : List α} : (ofList l).map f = ofList (l.map f) := by
  funext i; simp [map, ofList]

end Verif.Heap.Slots
