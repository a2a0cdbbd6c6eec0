import Verif.Heap.Layout
import Verif.Heap.Proofs.Program
/-
The memory described by `pool` is laid out properly.
-/
namespace Verif.Heap
open Verif
open Verif.BTree (Map CAPACITY)

variable {K V : Type}

/-- `w` is a part of the memory `s`. -/
def Part (w : World K V) (s : Heap K V) : Prop := ∀ x n, w.cells x = some n → s.cells x = some n

theorem Part.left {w₁ w₂ : World K V} {s : Heap K V} (h : Part (World.union w₁ w₂) s) : Part w₁ s :=
  fun x n hx => h x n (by simp [World.union, hx])
theorem Part.right {w₁ w₂ : World K V} {s : Heap K V} (hd : World.Disj w₁ w₂) (h : Part (World.union w₁ w₂) s) : Part w₂ s :=
  Part.left (w₂ := w₁) (by rw [World.union_comm hd.symm]; exact h)

theorem part_pts {a : Addr} {n : Node K V} {R : HProp K V} {w : World K V} {s : Heap K V} (hw : (pts a n ∗ R) w) (h : Part w s) :
    w.cells a = some n ∧ s.cells a = some n := by
  obtain ⟨w₁, w₂, hd, rfl, ⟨h0, rfl⟩, _⟩ := hw
  have e : (World.union ⟨fun x => if x = a then some n else none, none⟩ w₂).cells a = some n := by simp [World.union]
  exact ⟨e, h _ _ e⟩

theorem linked_get {a : Addr} : ∀ {cs : List (ATree K V)} {k i : Nat} {c : ATree K V}, cs[i]? = some c →
    ∃ xs ys, linked a k cs = xs ++ ((some a, some (k + i)), c) :: ys
  | [], k, i, c, h => by simp at h
  | d :: cs, k, 0, c, h => by
    simp only [List.getElem?_cons_zero, Option.some.injEq] at h
    subst h
    exact ⟨[], linked a (k + 1) cs, rfl⟩
  | d :: cs, k, i + 1, c, h => by
    simp only [List.getElem?_cons_succ] at h
    obtain ⟨xs, ys, e⟩ := linked_get (a := a) (k := k + 1) h
    exact ⟨((some a, some k), d) :: xs, ys, by rw [linked, e, show k + 1 + i = k + (i + 1) by omega]; rfl⟩

/-- Going down one level in a tree. -/
theorem tree_child {l : Link} {h : Nat} {t c : ATree K V} {i : Nat} {R : HProp K V} {w : World K V} (hw : (tree l (h + 1) t ∗ R) w)
    (hc : t.edges[i]? = some c) : ∃ R', (tree (some t.addr, some i) h c ∗ R') w := by
  rw [tree_succ] at hw
  obtain ⟨xs, ys, e⟩ := linked_get (a := t.addr) (k := 0) hc
  unfold kids subs at hw
  rw [e, stars_append, Nat.zero_add] at hw
  refine ⟨fact (t.edges.length = t.kvs.length + 1 ∧ t.kvs.length ≤ CAPACITY) ∗ pts t.addr (t.node l (h + 1)) ∗
    stars (fun lc => tree lc.1 h lc.2) xs ∗ stars (fun lc => tree lc.1 h lc.2) ys ∗ R, ?_⟩
  simp only [stars] at hw
  have e2 : ∀ (A B C D F G : HProp K V), ((A ∗ B ∗ C ∗ D ∗ F) ∗ G) = (D ∗ A ∗ B ∗ C ∗ F ∗ G) := by intros; ac_rfl
  rw [e2] at hw
  exact hw

theorem tree_root {l : Link} {h : Nat} {t : ATree K V} {R : HProp K V} {w : World K V} {s : Heap K V} (hw : (tree l h t ∗ R) w) (hp : Part w s) :
    t.kvs.length ≤ 11 ∧ (if h = 0 then t.edges = [] else t.edges.length = t.kvs.length + 1) ∧
      w.cells t.addr = some (t.node l h) ∧ s.cells t.addr = some (t.node l h) := by
  cases h with
  | zero =>
    rw [tree_zero, sep_assoc] at hw
    obtain ⟨hf, hw⟩ := fact_sep.1 hw
    exact ⟨hf.2, hf.1, part_pts hw hp⟩
  | succ h =>
    rw [tree_succ, sep_assoc] at hw
    obtain ⟨hf, hw⟩ := fact_sep.1 hw
    rw [sep_assoc] at hw
    exact ⟨hf.2, hf.1, part_pts hw hp⟩

theorem node_stored {l : Link} {h : Nat} {t : ATree K V} (h1 : t.kvs.length ≤ 11)
    (h2 : if h = 0 then t.edges = [] else t.edges.length = t.kvs.length + 1) : Stored h (t.node l h) := by
  constructor
  · cases h <;> rfl
  · exact h1
  · intro i
    show ((Slots.ofList t.kvs i).map (·.1)).isSome = true ↔ i < t.kvs.length
    simp [Slots.ofList]
  · intro i
    show ((Slots.ofList t.kvs i).map (·.2)).isSome = true ↔ i < t.kvs.length
    simp [Slots.ofList]
  · intro i
    show ((addrs t.edges)[i]?).isSome = true ↔ 0 < h ∧ i ≤ t.kvs.length
    cases h with
    | zero => simp only [if_true] at h2; simp [h2]
    | succ h =>
      simp at h2
      simp [h2]; omega

/-- Each reachable node is in the map's part of the memory. -/
theorem nodeOf_tree {hm : HMap} {M : Map K V} {R : HProp K V} {w : World K V} {s : Heap K V} (hw : (rep hm M ∗ R) w) (hp : Part w s) {h : Nat} {a : Addr}
    (hn : NodeOf s hm h a) : ∃ l t R', t.addr = a ∧ (tree l h t ∗ R') w := by
  induction hn with
  | root h0 =>
    rw [rep, hex_sep] at hw
    obtain ⟨ta, hw⟩ := hw
    cases hs : M.shared with
    | true =>
      unfold own at hw
      rw [hs, if_pos rfl] at hw
      exact absurd (by rw [(fact_sep.1 hw).1.1]) h0
    | false =>
      rw [own_owned hs, hex_sep] at hw
      obtain ⟨pi, hw⟩ := hw
      rw [sep_assoc] at hw
      obtain ⟨⟨_, rfl⟩, hw2⟩ := fact_sep.1 hw
      exact ⟨_, ta, R, rfl, hw2⟩
  | @child h a c n i _ hc hi he ih =>
    obtain ⟨l, t, R', rfl, ht⟩ := ih
    obtain ⟨h1, h2, h3, h4⟩ := tree_root ht hp
    rw [h4] at hc
    obtain rfl := Option.some.inj hc
    have he' : (addrs t.edges)[i]? = some c := he
    rw [List.getElem?_map] at he'
    cases hti : t.edges[i]? with
    | none => rw [hti] at he'; cases he'
    | some tc =>
      rw [hti] at he'
      obtain rfl := Option.some.inj he'
      obtain ⟨R2, h5⟩ := tree_child ht hti
      exact ⟨_, tc, R2, rfl, h5⟩

/-- Each reachable node is laid out properly. -/
theorem nodeOf_stored {hm : HMap} {M : Map K V} {R : HProp K V} {w : World K V} {s : Heap K V} (hw : (rep hm M ∗ R) w) (hp : Part w s) {h : Nat} {a : Addr}
    (hn : NodeOf s hm h a) : ∃ n, s.cells a = some n ∧ Stored h n ∧ Linked s a n := by
  obtain ⟨l, t, R', rfl, ht⟩ := nodeOf_tree hw hp hn
  obtain ⟨h1, h2, h3, h4⟩ := tree_root ht hp
  refine ⟨_, h4, node_stored h1 h2, fun i c he => ?_⟩
  have he' : (addrs t.edges)[i]? = some c := he
  rw [List.getElem?_map] at he'
  cases hti : t.edges[i]? with
  | none => rw [hti] at he'; cases he'
  | some tc =>
    rw [hti] at he'
    obtain rfl := Option.some.inj he'
    cases h with
    | zero => simp only [if_true] at h2; rw [h2] at hti; simp at hti
    | succ h =>
      obtain ⟨R2, h5⟩ := tree_child ht hti
      exact ⟨_, (tree_root h5 hp).2.2.2, rfl, rfl⟩

/-- The root has no parent. -/
theorem root_parent {hm : HMap} {M : Map K V} {R : HProp K V} {w : World K V} {s : Heap K V} (hw : (rep hm M ∗ R) w) (hp : Part w s) {n : Node K V}
    (h0 : hm.root.node ≠ SHARED) (hn : s.cells hm.root.node = some n) : n.parent = none := by
  rw [rep, hex_sep] at hw
  obtain ⟨ta, hw⟩ := hw
  cases hs : M.shared with
  | true =>
    unfold own at hw
    rw [hs, if_pos rfl] at hw
    exact absurd (by rw [(fact_sep.1 hw).1.1]) h0
  | false =>
    rw [own_owned hs, hex_sep] at hw
    obtain ⟨pi, hw⟩ := hw
    rw [sep_assoc] at hw
    obtain ⟨⟨_, rfl⟩, hw2⟩ := fact_sep.1 hw
    rw [(tree_root hw2 hp).2.2.2] at hn
    obtain rfl := Option.some.inj hn
    rfl

/-- Every node in the part of the memory that a tree takes can be reached from its root. -/
theorem tree_reach {hm : HMap} {s : Heap K V} : ∀ (h : Nat) {l : Link} {t : ATree K V} {w : World K V}, tree l h t w → Part w s → NodeOf s hm h t.addr →
    ∀ {x : Addr} {n : Node K V}, w.cells x = some n → ∃ h', NodeOf s hm h' x
  | h, l, t, w, hw, hp, hr, x, n, hx => by
    have hw' : (tree l h t ∗ emp) w := by rw [sep_emp]; exact hw
    obtain ⟨h1, h2, h3, h4⟩ := tree_root hw' hp
    cases h with
    | zero =>
      rw [tree_zero] at hw
      obtain ⟨hf, h0, rfl⟩ := fact_sep.1 hw
      by_cases hxa : x = t.addr
      · subst hxa; exact ⟨_, hr⟩
      · simp [hxa] at hx
    | succ h =>
      rw [tree_succ] at hw
      obtain ⟨hf, w₁, w₂, hd, rfl, ⟨h0, rfl⟩, hk⟩ := fact_sep.1 hw
      by_cases hxa : x = t.addr
      · subst hxa; exact ⟨_, hr⟩
      · have hx2 : w₂.cells x = some n := by simpa [World.union, hxa] using hx
        have hp2 := hp.right hd
        -- find the child
        have key : ∀ (cs : List (ATree K V)) (k : Nat) (w : World K V), (∀ j c, cs[j]? = some c → t.edges[k + j]? = some c) → kids h t.addr k cs w →
            Part w s → w.cells x = some n → ∃ h', NodeOf s hm h' x := by
          intro cs
          induction cs with
          | nil => intro k w _ hk _ hxw; rw [kids_nil] at hk; rw [hk] at hxw; cases hxw
          | cons c cs ih =>
            intro k w hcs hk hpw hxw
            rw [kids_cons] at hk
            obtain ⟨u, v, hd2, rfl, hu, hv⟩ := hk
            cases hux : u.cells x with
            | some n' =>
              refine tree_reach h hu hpw.left ?_ hux
              have hc0 := hcs 0 c rfl
              refine NodeOf.child (i := k) hr h4 ?_ ?_
              · show k ≤ t.kvs.length
                have := (List.getElem?_eq_some_iff.1 hc0).1
                simp only [if_neg (Nat.succ_ne_zero h)] at h2
                simp at this; omega
              · show (addrs t.edges)[k]? = some c.addr
                rw [List.getElem?_map, show t.edges[k]? = some c from hc0]
                rfl
            | none =>
              refine ih (k + 1) v (fun j c' hj => ?_) hv (hpw.right hd2) ?_
              · rw [show k + 1 + j = k + (j + 1) by omega]
                exact hcs (j + 1) c' hj
              · simpa [World.union, hux] using hxw
        exact key t.edges 0 w₂ (fun j c hj => by rw [Nat.zero_add]; exact hj) hk hp2 hx2

/-- Every node in the part of the memory that a map takes belongs to the map. -/
theorem rep_reach {hm : HMap} {M : Map K V} {w : World K V} {s : Heap K V} (hw : rep hm M w) (hp : Part w s) {x : Addr} {n : Node K V}
    (hx : w.cells x = some n) : ∃ h, NodeOf s hm h x := by
  obtain ⟨ta, hw⟩ := hw
  cases hs : M.shared with
  | true =>
    unfold own at hw
    rw [hs, if_pos rfl] at hw
    rw [hw.2] at hx
    cases hx
  | false =>
    rw [own_owned hs] at hw
    obtain ⟨pi, hw⟩ := hw
    obtain ⟨⟨_, rfl⟩, hw2⟩ := fact_sep.1 hw
    have h0 : ta.addr ≠ SHARED := (fact_sep.1 (tree_pos _ hw2)).1
    exact tree_reach (hm := ⟨⟨M.height, ta.addr⟩, M.length⟩) _ hw2 hp (.root h0) hx

/-- What the pool says about each of its maps. -/
theorem pool_each : ∀ {hs : List HMap} {ms : List (Map K V)} {w : World K V}, pool hs ms w → ∀ {i : Nat} {hm : HMap}, hs[i]? = some hm →
    ∃ M R, (rep hm M ∗ R) w
  | [], [], _, _, i, hm, h => by simp at h
  | [], _ :: _, _, hw, _, _, _ => hw.1.elim
  | _ :: _, [], _, hw, _, _, _ => hw.1.elim
  | h :: hs, m :: ms, w, hw, 0, hm, hi => by
    simp only [List.getElem?_cons_zero, Option.some.injEq] at hi
    subst hi
    exact ⟨m, pool hs ms, hw⟩
  | h :: hs, m :: ms, w, hw, i + 1, hm, hi => by
    obtain ⟨w₁, w₂, hd, rfl, h1, h2⟩ := hw
    obtain ⟨M, R, h3⟩ := pool_each h2 (by simpa using hi)
    refine ⟨M, R ∗ rep h m, ?_⟩
    rw [← sep_assoc, sep_comm]
    exact ⟨w₁, w₂, hd, rfl, h1, h3⟩

theorem pool_part : ∀ {hs : List HMap} {ms : List (Map K V)} {w : World K V} {s : Heap K V}, pool hs ms w → Part w s → ∀ {i : Nat} {hm : HMap} {h : Nat} {a : Addr},
    hs[i]? = some hm → NodeOf s hm h a → w.cells a ≠ none := by
  intro hs ms w s hw hp i hm h a hi hn
  obtain ⟨M, R, h1⟩ := pool_each hw hi
  obtain ⟨l, t, R', rfl, ht⟩ := nodeOf_tree h1 hp hn
  rw [(tree_root ht hp).2.2.1]
  simp

/-- No node belongs to two maps. -/
theorem pool_unique : ∀ {hs : List HMap} {ms : List (Map K V)} {w : World K V} {s : Heap K V}, pool hs ms w → Part w s → ∀ {i j : Nat} {hm hm' : HMap} {h h' : Nat} {a : Addr},
    hs[i]? = some hm → hs[j]? = some hm' → NodeOf s hm h a → NodeOf s hm' h' a → i = j
  | [], [], _, _, _, _, i, _, _, _, _, _, _, h, _, _, _ => by simp at h
  | [], _ :: _, _, _, hw, _, _, _, _, _, _, _, _, _, _, _, _ => hw.1.elim
  | _ :: _, [], _, _, hw, _, _, _, _, _, _, _, _, _, _, _, _ => hw.1.elim
  | h :: hs, m :: ms, w, s, hw, hp, i, j, hm, hm', k, k', a, hi, hj, hn, hn' => by
    obtain ⟨w₁, w₂, hd, rfl, h1, h2⟩ := hw
    have q1 : pool [h] [m] w₁ := by rw [pool_cons, pool_nil, sep_emp]; exact h1
    have p1 := hp.left
    have p2 := hp.right hd
    match i, j with
    | 0, 0 => rfl
    | i + 1, j + 1 => exact congrArg (· + 1) (pool_unique h2 p2 (by simpa using hi) (by simpa using hj) hn hn')
    | 0, j + 1 =>
      have a1 := pool_part q1 p1 (i := 0) (by simpa using hi) hn
      have a2 := pool_part h2 p2 (i := j) (by simpa using hj) hn'
      rcases hd.1 a with e | e
      · exact absurd e a1
      · exact absurd e a2
    | i + 1, 0 =>
      have a1 := pool_part q1 p1 (i := 0) (by simpa using hj) hn'
      have a2 := pool_part h2 p2 (i := i) (by simpa using hi) hn
      rcases hd.1 a with e | e
      · exact absurd e a1
      · exact absurd e a2

/-- Every node belongs to some map. -/
theorem pool_reach : ∀ {hs : List HMap} {ms : List (Map K V)} {w : World K V} {s : Heap K V}, pool hs ms w → Part w s → ∀ {x : Addr} {n : Node K V},
    w.cells x = some n → ∃ m ∈ hs, ∃ h, NodeOf s m h x
  | [], [], w, _, hw, _, _, _, hx => by rw [show w = World.empty from hw] at hx; cases hx
  | [], _ :: _, _, _, hw, _, _, _, _ => hw.1.elim
  | _ :: _, [], _, _, hw, _, _, _, _ => hw.1.elim
  | h :: hs, m :: ms, w, s, hw, hp, x, n, hx => by
    obtain ⟨w₁, w₂, hd, rfl, h1, h2⟩ := hw
    cases hux : w₁.cells x with
    | some n' =>
      obtain ⟨k, hk⟩ := rep_reach h1 hp.left hux
      exact ⟨h, by simp, k, hk⟩
    | none =>
      obtain ⟨m', hm', hk⟩ := pool_reach h2 (hp.right hd) (n := n) (by simpa [World.union, hux] using hx)
      exact ⟨m', by simp [hm'], hk⟩

end Verif.Heap
