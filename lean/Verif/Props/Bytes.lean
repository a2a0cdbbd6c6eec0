import Verif.Heap.Bytes
/-
C58: where the parts of a node lie in memory, and what `into_key_slice` makes of it.
-/
namespace Verif.Props
open Verif Verif.Heap.Bytes

/-! ### Specification: regions of memory -/

/-- A region of a node that holds one object: first byte, size and required alignment. -/
structure Region where
  off : Nat
  size : Nat
  align : Nat
deriving Repr, DecidableEq

/-- The objects of an array of `n` elements of type `t` at offset `o`. -/
def cells (o : Nat) (t : Ty) (n : Nat) : List Region := (List.range n).map fun i => ⟨o + t.size * i, t.size, t.align⟩

/-- The objects of a leaf node: the parent pointer, the parent index and the length, eleven keys, eleven values. -/
def leafRegions (p : Nat) (k v : Ty) : List Region :=
  let o := (leaf p k v).offsets
  [⟨o.getD 0 0, p, p⟩, ⟨o.getD 1 0, 2, 2⟩, ⟨o.getD 2 0, 2, 2⟩] ++ cells (o.getD 3 0) k 11 ++ cells (o.getD 4 0) v 11

/-- The objects of an internal node: those of the leaf node it starts with (at `data`), and twelve edges. -/
def internalRegions (p : Nat) (k v : Ty) : List Region :=
  let o := (internal p k v).offsets
  (leafRegions p k v).map (fun r => { r with off := o.getD 0 0 + r.off }) ++ cells (o.getD 1 0) ⟨p, p⟩ 12

/-- The regions lie one after the other without overlap inside `size` bytes, each at an offset that is a multiple of its alignment, in an
allocation whose own alignment is a multiple of every alignment needed (so that the addresses are aligned too). -/
def WellLaid (rs : List Region) (size align : Nat) : Prop :=
  rs.Pairwise (fun a b => a.off + a.size ≤ b.off) ∧ ∀ r ∈ rs, r.off + r.size ≤ size ∧ r.off % r.align = 0 ∧ align % r.align = 0

/-! ### Arithmetic -/

theorem le_alignUp {n a : Nat} (h : 0 < a) : n ≤ alignUp n a := by
  unfold alignUp
  have h1 := Nat.div_add_mod (n + a - 1) a
  have h2 := Nat.mod_lt (n + a - 1) h
  have h3 : (n + a - 1) / a * a = a * ((n + a - 1) / a) := Nat.mul_comm _ _
  omega

theorem alignUp_mod {n a : Nat} : alignUp n a % a = 0 := by unfold alignUp; exact Nat.mul_mod_left _ _

theorem pow_mod_of_le {a b : Nat} (ha : ∃ n, a = 2 ^ n) (hb : ∃ n, b = 2 ^ n) (h : a ≤ b) : b % a = 0 := by
  obtain ⟨n, rfl⟩ := ha
  obtain ⟨m, rfl⟩ := hb
  have hnm : n ≤ m := (Nat.pow_le_pow_iff_right (by omega)).1 h
  exact Nat.mod_eq_zero_of_dvd (Nat.pow_dvd_pow 2 hnm)

theorem _root_.Verif.Heap.Bytes.Ty.OK.pos {t : Ty} (h : t.OK) : 0 < t.align := by
  obtain ⟨n, e⟩ := h.pow
  rw [e]; exact Nat.two_pow_pos n

theorem alignUp_of_mod {n a : Nat} (h : 0 < a) (hm : n % a = 0) : alignUp n a = n := by
  unfold alignUp
  obtain ⟨c, rfl⟩ := Nat.dvd_of_mod_eq_zero hm
  have : (a * c + a - 1) / a = c := by
    rw [show a * c + a - 1 = (a - 1) + a * c by omega, Nat.add_mul_div_left _ _ h, Nat.div_eq_of_lt (by omega)]
    omega
  rw [this, Nat.mul_comm]

theorem alignUp_lt {n a : Nat} (h : 0 < a) : alignUp n a < n + a := by
  unfold alignUp
  have h1 := Nat.div_mul_le_self (n + a - 1) a
  omega

theorem max_pow {a b : Nat} (ha : ∃ n, a = 2 ^ n) (hb : ∃ n, b = 2 ^ n) : ∃ n, max a b = 2 ^ n := by
  rcases Nat.le_total a b with h | h
  · rw [Nat.max_eq_right h]; exact hb
  · rw [Nat.max_eq_left h]; exact ha

theorem max_mod {a b c : Nat} (ha : ∃ n, a = 2 ^ n) (hb : ∃ n, b = 2 ^ n) (hc : ∃ n, c = 2 ^ n) (h : c ≤ a ∨ c ≤ b) : max a b % c = 0 := by
  refine pow_mod_of_le hc (max_pow ha hb) ?_
  omega

/-- The objects of an array. -/
theorem cells_laid {o n e : Nat} {t : Ty} (ht : t.OK) (ho : o % t.align = 0) (he : o + t.size * n ≤ e) :
    (cells o t n).Pairwise (fun a b => a.off + a.size ≤ b.off) ∧
    ∀ r ∈ cells o t n, o ≤ r.off ∧ r.off + r.size ≤ e ∧ r.off % r.align = 0 ∧ r.align = t.align := by
  constructor
  · unfold cells
    rw [List.pairwise_map]
    refine List.pairwise_lt_range.imp ?_
    intro i j hij
    show o + t.size * i + t.size ≤ o + t.size * j
    have : t.size * (i + 1) ≤ t.size * j := Nat.mul_le_mul_left _ hij
    rw [Nat.mul_add, Nat.mul_one] at this
    omega
  · intro r hr
    unfold cells at hr
    simp only [List.mem_map, List.mem_range] at hr
    obtain ⟨i, hi, rfl⟩ := hr
    have h1 : t.size * (i + 1) ≤ t.size * n := Nat.mul_le_mul_left _ hi
    rw [Nat.mul_add, Nat.mul_one] at h1
    refine ⟨by simp, by simp; omega, ?_, rfl⟩
    show (o + t.size * i) % t.align = 0
    rw [Nat.add_mod, ho, Nat.mul_mod, ht.mul]
    simp

/-- Where the keys begin. -/
def keysAt (p : Nat) (k : Ty) : Nat := alignUp (p + 4) k.align
/-- Where the values begin. -/
def valsAt (p : Nat) (k v : Ty) : Nat := alignUp (keysAt p k + k.size * 11) v.align

/-- A target's pointers have a size that is a power of two, at least two bytes. -/
def PtrOK (p : Nat) : Prop := ∃ n, p = 2 ^ (n + 1)

theorem PtrOK.pow {p : Nat} (h : PtrOK p) : ∃ n, p = 2 ^ n := h.imp' (· + 1) fun _ e => e
theorem PtrOK.even {p : Nat} (h : PtrOK p) : p % 2 = 0 := by
  obtain ⟨n, rfl⟩ := h
  rw [Nat.pow_succ]; omega
theorem PtrOK.ge {p : Nat} (h : PtrOK p) : 2 ≤ p := by
  obtain ⟨n, rfl⟩ := h
  have := Nat.two_pow_pos n
  rw [Nat.pow_succ]; omega

theorem alignUp_zero {a : Nat} (h : 0 < a) : alignUp 0 a = 0 := alignUp_of_mod h (Nat.zero_mod a)

theorem leaf_eq {p : Nat} (hp : PtrOK p) (k v : Ty) :
    leaf p k v = ⟨[0, p, p + 2, keysAt p k, valsAt p k v], valsAt p k v + v.size * 11, max p (max 2 (max 2 (max k.align (max v.align 1))))⟩ := by
  have h0 := hp.ge
  have h1 := hp.even
  have e1 : alignUp 0 p = 0 := alignUp_zero (by omega)
  have e2 : alignUp p 2 = p := alignUp_of_mod (by omega) h1
  have e3 : alignUp (p + 2) 2 = p + 2 := alignUp_of_mod (by omega) (by omega)
  simp only [leaf, reprC, ptrTy, u16Ty, array, e1, e2, e3, Nat.zero_add, keysAt, valsAt, show p + 2 + 2 = p + 4 by omega, show BTree.CAPACITY = 11 from rfl]

theorem header_eq {p : Nat} (hp : PtrOK p) (k : Ty) :
    header p k = ⟨[0, p, p + 2, keysAt p k], keysAt p k, max p (max 2 (max 2 (max k.align 1)))⟩ := by
  have h0 := hp.ge
  have h1 := hp.even
  have e1 : alignUp 0 p = 0 := alignUp_zero (by omega)
  have e2 : alignUp p 2 = p := alignUp_of_mod (by omega) h1
  have e3 : alignUp (p + 2) 2 = p + 2 := alignUp_of_mod (by omega) (by omega)
  simp only [header, reprC, ptrTy, u16Ty, array, e1, e2, e3, Nat.zero_add, keysAt, show p + 2 + 2 = p + 4 by omega, Nat.mul_zero, Nat.add_zero]

/-- **C58** The bytes of a leaf node: for every pointer size and every size and alignment of the key and the value type, its header fields, its
eleven keys and its eleven values lie inside the allocation, aligned, and do not overlap. -/
theorem C58_leaf {p : Nat} (hp : PtrOK p) {k v : Ty} (hk : k.OK) (hv : v.OK) :
    WellLaid (leafRegions p k v) (leaf p k v).size (leaf p k v).align := by
  have h0 := hp.ge
  have h1 := hp.even
  have hpp := hp.pow
  have two : ∃ n, 2 = 2 ^ n := ⟨1, rfl⟩
  have one : ∃ n, 1 = 2 ^ n := ⟨0, rfl⟩
  rw [leaf_eq hp]
  unfold leafRegions
  rw [leaf_eq hp]
  simp only [List.getD_cons_zero, List.getD_cons_succ]
  have hA : ∃ n, max p (max 2 (max 2 (max k.align (max v.align 1)))) = 2 ^ n :=
    max_pow hpp (max_pow two (max_pow two (max_pow hk.pow (max_pow hv.pow one))))
  have hA0 : 0 < max p (max 2 (max 2 (max k.align (max v.align 1)))) := by omega
  have hsz := le_alignUp (n := valsAt p k v + v.size * 11) hA0
  have hkA : p + 4 ≤ keysAt p k := le_alignUp hk.pos
  have hvA : keysAt p k + k.size * 11 ≤ valsAt p k v := le_alignUp hv.pos
  obtain ⟨ck, ck'⟩ := cells_laid (o := keysAt p k) (n := 11) hk alignUp_mod (Nat.le_refl _)
  obtain ⟨cv, cv'⟩ := cells_laid (o := valsAt p k v) (n := 11) hv alignUp_mod (Nat.le_refl _)
  unfold WellLaid Lay.size
  simp only
  constructor
  · rw [List.pairwise_append]
    refine ⟨?_, cv, ?_⟩
    · rw [List.pairwise_append]
      refine ⟨by simp, ck, ?_⟩
      intro a ha b hb
      have hb' := (ck' b hb).1
      simp only [List.mem_cons, List.not_mem_nil, or_false] at ha
      rcases ha with rfl | rfl | rfl <;> simp only <;> omega
    · intro a ha b hb
      have hb' := (cv' b hb).1
      rw [List.mem_append] at ha
      rcases ha with ha | ha
      · simp only [List.mem_cons, List.not_mem_nil, or_false] at ha
        rcases ha with rfl | rfl | rfl <;> simp only <;> omega
      · have := (ck' a ha).2.1
        omega
  · intro r hr
    rw [List.mem_append, List.mem_append] at hr
    rcases hr with (hr | hr) | hr
    · simp only [List.mem_cons, List.not_mem_nil, or_false] at hr
      rcases hr with rfl | rfl | rfl
      · exact ⟨by simp only; omega, Nat.zero_mod _, pow_mod_of_le hpp hA (by simp only; omega)⟩
      · exact ⟨by simp only; omega, h1, pow_mod_of_le two hA (by simp only; omega)⟩
      · exact ⟨by simp only; omega, by simp only; omega, pow_mod_of_le two hA (by simp only; omega)⟩
    · obtain ⟨_, g2, g3, g4⟩ := ck' r hr
      exact ⟨by omega, g3, by rw [g4]; exact pow_mod_of_le hk.pow hA (by omega)⟩
    · obtain ⟨_, g2, g3, g4⟩ := cv' r hr
      exact ⟨by omega, g3, by rw [g4]; exact pow_mod_of_le hv.pow hA (by omega)⟩

theorem leaf_ty_ok {p : Nat} (hp : PtrOK p) {k v : Ty} (hk : k.OK) (hv : v.OK) : (leaf p k v).ty.OK := by
  have two : ∃ n, 2 = 2 ^ n := ⟨1, rfl⟩
  rw [leaf_eq hp]
  exact ⟨max_pow hp.pow (max_pow two (max_pow two (max_pow hk.pow (max_pow hv.pow ⟨0, rfl⟩)))), alignUp_mod⟩

/-- **C58** The bytes of an internal node likewise: it begins with a leaf node, at the same address (so that a pointer to the one can be
used as a pointer to the other), followed by its twelve edges. -/
theorem C58_internal {p : Nat} (hp : PtrOK p) {k v : Ty} (hk : k.OK) (hv : v.OK) :
    (internal p k v).offsets.head? = some 0 ∧
    WellLaid (internalRegions p k v) (internal p k v).size (internal p k v).align := by
  have hl := leaf_ty_ok hp hk hv
  have h0 := hp.ge
  have ptrok : (⟨p, p⟩ : Ty).OK := ⟨hp.pow, Nat.mod_self p⟩
  have e1 : alignUp 0 (leaf p k v).ty.align = 0 := alignUp_zero hl.pos
  have eI : internal p k v = ⟨[0, alignUp (leaf p k v).size p], alignUp (leaf p k v).size p + p * 12,
      max (leaf p k v).align (max p 1)⟩ := by
    simp only [internal, reprC, e1, Nat.zero_add, array, ptrTy]
    rfl
  refine ⟨by rw [eI]; rfl, ?_⟩
  obtain ⟨g1, g2⟩ := C58_leaf hp hk hv
  have hA : ∃ n, max (leaf p k v).align (max p 1) = 2 ^ n := max_pow hl.pow (max_pow hp.pow ⟨0, rfl⟩)
  have hlp : 0 < (leaf p k v).align := hl.pos
  have hA0 : 0 < max (leaf p k v).align (max p 1) := by omega
  have hsz := le_alignUp (n := alignUp (leaf p k v).size p + p * 12) hA0
  have hes := le_alignUp (n := (leaf p k v).size) (a := p) (by omega)
  obtain ⟨ce, ce'⟩ := cells_laid (o := alignUp (leaf p k v).size p) (n := 12) ptrok alignUp_mod (Nat.le_refl _)
  unfold internalRegions
  rw [eI]
  simp only [List.getD_cons_zero, List.getD_cons_succ, Nat.zero_add, List.map_id']
  unfold WellLaid Lay.size
  simp only
  unfold Lay.size at hes hsz g2 ce' ce
  constructor
  · rw [List.pairwise_append]
    refine ⟨g1, ce, ?_⟩
    intro a ha b hb
    have h3 := (g2 a ha).1
    have h4 := (ce' b hb).1
    omega
  · intro r hr
    rw [List.mem_append] at hr
    rcases hr with hr | hr
    · obtain ⟨h3, h4, h5⟩ := g2 r hr
      refine ⟨by omega, h4, ?_⟩
      have h6 : max (leaf p k v).align (max p 1) % (leaf p k v).align = 0 := pow_mod_of_le hl.pow hA (by omega)
      exact Nat.mod_eq_zero_of_dvd (Nat.dvd_trans (Nat.dvd_of_mod_eq_zero h5) (Nat.dvd_of_mod_eq_zero h6))
    · obtain ⟨_, h3, h4, h5⟩ := ce' r hr
      exact ⟨by simp only at h3; omega, h4, by rw [h5]; exact pow_mod_of_le hp.pow hA (by simp only; omega)⟩

/-- **C58** What `keys()` gives when it returns.  On a node of its own: a pointer to where the node's keys are.  On the shared empty root, which
is only a header: the empty slice, or a pointer that is aligned and not outside that header. -/
theorem C58_keys {p : Nat} (hp : PtrOK p) {k v : Ty} (hk : k.OK) {isShared : Bool} {len : Nat} {s : KeySlice}
    (hr : intoKeySlice p k isShared len = .ok s) :
    (isShared = false → s = .at ((leaf p k v).offsets.getD 3 0) len) ∧
    (isShared = true → s = .empty ∨ ∃ o, s = .at o len ∧ o ≤ (header p unitTy).size ∧ o % k.align = 0 ∧ (header p unitTy).align % k.align = 0) ∧
    intoKeySliceMut p k v isShared len = s := by
  have two : ∃ n, 2 = 2 ^ n := ⟨1, rfl⟩
  have h0 := hp.ge
  have one : ∃ n, 1 = 2 ^ n := ⟨0, rfl⟩
  unfold intoKeySlice at hr
  unfold intoKeySliceMut
  rw [leaf_eq hp unitTy unitTy] at hr ⊢
  rw [leaf_eq hp k v]
  rw [header_eq hp, header_eq hp] at hr
  rw [header_eq hp]
  simp only [List.getD_cons_zero, List.getD_cons_succ, unitTy] at hr ⊢
  split at hr
  next h =>
    obtain ⟨ha, hs⟩ := h
    simp only [Exec.ok.injEq] at hr
    subst hr
    exact ⟨by simp [hs], fun _ => .inl rfl, if_pos ⟨ha, hs⟩⟩
  next h =>
    split at hr
    next hsz =>
      simp only [Exec.ok.injEq] at hr
      subst hr
      refine ⟨by simp, ?_, by rw [if_neg h]⟩
      intro hs
      refine .inr ⟨_, rfl, ?_, alignUp_mod, ?_⟩
      · unfold Lay.size at hsz ⊢
        rw [hsz]
        exact le_alignUp (by simp only; omega)
      · have : ¬ (max p (max 2 (max 2 (max 1 (max 1 1)))) < k.align) := fun g => h ⟨g, hs⟩
        exact pow_mod_of_le hk.pow (max_pow hp.pow (max_pow two (max_pow two (max_pow one one)))) (by omega)
    next => simp at hr

/-- **C58** When `keys()` panics: exactly on a node that is not the shared empty root, with keys whose alignment is more than two
pointers (above 16 on 64-bit targets, above 8 on 32-bit targets).  For such keys every lookup in, and the destructor of, a map that is not
empty panics. -/
theorem C58_overaligned {p : Nat} (hp : p = 4 ∨ p = 8) {k : Ty} (hk : k.OK) {isShared : Bool} {len : Nat} :
    (∃ m, intoKeySlice p k isShared len = .panic m) ↔ (isShared = false ∧ 2 * p < k.align) := by
  have hpo : PtrOK p := by
    rcases hp with rfl | rfl
    · exact ⟨1, rfl⟩
    · exact ⟨2, rfl⟩
  have hkp := hk.pos
  have key : (header p unitTy).size = (header p k).size ↔ k.align ≤ 2 * p := by
    rw [header_eq hpo, header_eq hpo]
    simp only [Lay.size, keysAt, unitTy]
    have e0 : alignUp (p + 4) 1 = p + 4 := alignUp_of_mod (by omega) (Nat.mod_one _)
    have eL : alignUp (alignUp (p + 4) 1) (max p (max 2 (max 2 (max 1 1)))) = 2 * p := by
      rw [e0]; rcases hp with rfl | rfl <;> rfl
    rw [eL]
    constructor
    · intro e
      by_cases hle : k.align ≤ 2 * p
      · exact hle
      · exfalso
        have h1 : p + 4 ≤ alignUp (p + 4) k.align := le_alignUp hkp
        have h2 := le_alignUp (n := alignUp (p + 4) k.align) (a := max p (max 2 (max 2 (max k.align 1)))) (by omega)
        have h3 : alignUp (p + 4) k.align % k.align = 0 := alignUp_mod
        have h4 : k.align ≤ alignUp (p + 4) k.align := Nat.le_of_dvd (by omega) (Nat.dvd_of_mod_eq_zero h3)
        omega
    · intro hle
      obtain ⟨n, e⟩ := hk.pow
      rw [e] at hle ⊢
      have hn : n ≤ 4 := by
        by_cases h : n ≤ 4
        · exact h
        · have : 2 ^ 5 ≤ 2 ^ n := Nat.pow_le_pow_right (by omega) (by omega)
          omega
      rcases hp with rfl | rfl
      · have hn' : n ≤ 3 := by
          by_cases h : n ≤ 3
          · exact h
          · have : 2 ^ 4 ≤ 2 ^ n := Nat.pow_le_pow_right (by omega) (by omega)
            omega
        match n, hn' with
        | 0, _ => rfl
        | 1, _ => rfl
        | 2, _ => rfl
        | 3, _ => rfl
      · match n, hn with
        | 0, _ => rfl
        | 1, _ => rfl
        | 2, _ => rfl
        | 3, _ => rfl
        | 4, _ => rfl
  have hal : (leaf p unitTy unitTy).align = p := by rcases hp with rfl | rfl <;> rfl
  unfold intoKeySlice
  rw [hal]
  simp only [key]
  cases isShared with
  | false =>
    simp only [Bool.false_eq_true, and_false, if_false]
    by_cases h : k.align ≤ 2 * p
    · simp [h]
    · simp [h]; omega
  | true =>
    by_cases h : p < k.align
    · simp [h]
    · simp [h, show k.align ≤ 2 * p by omega]

/-- `u64` keys and `String` values on a 64-bit target: sizes 8 and 24. -/
example : (leaf 8 ⟨8, 8⟩ ⟨24, 8⟩).offsets = [0, 8, 10, 16, 104] ∧ (leaf 8 ⟨8, 8⟩ ⟨24, 8⟩).size = 368 ∧
    (internal 8 ⟨8, 8⟩ ⟨24, 8⟩).size = 464 := by decide

/-- One-byte keys begin right after the length, where the shared root, of 16 bytes, has padding. -/
example : intoKeySlice 8 ⟨1, 1⟩ true 0 = .ok (.at 12 0) := by decide

/-- Keys with an alignment of 64 bytes (`#[repr(align(64))]`): the empty map can be searched, no other. -/
example : intoKeySlice 8 ⟨64, 64⟩ true 0 = .ok .empty ∧ ∃ m, intoKeySlice 8 ⟨64, 64⟩ false 1 = .panic m := by
  exact ⟨rfl, _, rfl⟩

end Verif.Props
