import Verif.Heap.AnyOrd
import Verif.Heap.Unwind
import Verif.Heap.CloneLedger
import Verif.Heap.UnwindSplit
import Verif.Heap.UnwindOps
import Verif.SpecCut
import Verif.Heap.Debug
import Verif.BTree.Destructors
/-
Executable conformance checks of the model of unwinding in memory (C64, C65, C66) and of failing copies (C67), of split_off unwinding (C68) and of unwinding calls (C69).  See battery.txt.
-/
open Verif Verif.Heap Verif.Spec
open Verif.BTree (Why)

namespace UBattery

abbrev H := Heap Nat Nat
abbrev O := Op Nat Nat Nat

def start (al : Nat → Bool) : H := Heap.mk (fun _ => none) 1 al (fun _ => 0)

def live (s : H) : Nat := (List.range s.next).countP fun a => (s.cells a).isSome

def drops : List HMap → H → Option (List (List (Nat × Nat)) × Nat)
  | ms, s => match dropAll ms s with
    | .ok (ls, s') => some (ls, live s')
    | _ => none

def isUb {α : Type} : Exec α → Bool
  | .ub => true
  | _ => false

/-- C64 on `n` pairs with `g` grants. -/
def c64 (n g : Nat) : Bool :=
  let items := (List.range n).map fun i => ((i * 7) % (n + 1), i)
  let full := match HMap.fromIterU items (start fun _ => true) with
    | .ok (some m, s) => m.length == n && (match drops [m] s with
      | some ([l], 0) => l.length == n
      | _ => false)
    | _ => false
  let enough := match HMap.fromIterU items (start fun _ => true) with
    | .ok (_, s) => s.next - 1 ≤ g
    | _ => false
  full && (match HMap.fromIterU items (start fun i => i < g) with
    | .ok (some m, _) => enough && m.length == n
    | .ok (none, s) => !enough && g == 0 && live s == 0
    | .ub => !enough && g != 0
    | _ => false) && (match HMap.new.extendU items (start fun i => i < g) with
    | .ok ((true, m), s) => enough && (match drops [m] s with
      | some ([l], 0) => l.length == n && m.length == n
      | _ => false)
    | .ok ((false, m), s) => !enough && (if g == 0 then m.length == 0 && live s == 0 else isUb (m.drop s))
    | _ => false)

def two (a b : Nat) : List O := [.new, .new] ++ (List.range a).map (fun i => .insert 0 (2 * i) 0) ++ (List.range b).map (fun i => .insert 1 (3 * i) 1)

def insertSorted (x : Nat × Nat) : List (Nat × Nat) → List (Nat × Nat)
  | [] => [x]
  | y :: l => if x.1 < y.1 then x :: y :: l else y :: insertSorted x l

def union (a b : Nat) : List (Nat × Nat) :=
  ((List.range b).map fun i => (3 * i, 1)).foldr insertSorted (((List.range a).map fun i => (2 * i, 0)).filter fun x => x.1 % 3 != 0 || x.1 / 3 ≥ b)

def c65 (a b g fuel : Nat) : Bool :=
  match Op.hprog id (two a b) [] (start fun _ => true) with
  | .ok ((_, true, [m, o]), s) =>
    let s := { s with alloc := fun i => i < g }
    match m.appendU o fuel s with
    | .ok ((why, m', o', d), s') => match drops [m', o'] s' with
      | some ([l, r], n) => l.length == m'.length && r.length == o'.length && l.length + r.length + d.length == a + b && (why == some .mem || n == 0) && r == [] &&
          (match why with
          | none => l == union a b
          | some .cmp => l == (union a b).take fuel && o'.root.node == SHARED
          | some .mem => l == (union a b).take l.length && o'.root.node == SHARED)
          && (why == some .mem || d.length + l.length == a + b)
          && (List.range (a + b)).all fun i => (l ++ d).count (2 * i, 0) == (if i < a then 1 else 0) && (l ++ d).count (3 * i, 1) == (if i < b then 1 else 0)
      | _ => false
    | _ => false
  | _ => false

def c66 (a b x y : Nat) (es : List End) : Bool :=
  let ops : List (O × Nat) := (two a b).map (fun o => (o, 0)) ++ [(.clear 0, x), (.len 0, 0), (.insert 0 7 8, 0), (.intoIter 1 es, y), (.get 0 7, 0), (.insert 1 3 4, 0), (.clear 1, 5)]
  match Op.hcalls id ops [] (start fun _ => true) with
  | .ok ((rs, true, p), s) => rs.map (·.1) == (Op.specs id (ops.map (·.1)) []).1 && rs.map (·.2) == Op.dropss id ops [] &&
    (match drops p s with
    | some (ls, n) => ls == (Op.specs id (ops.map (·.1)) []).2 && (!(rs.all (·.2.2)) || n == 0)
    | none => false)
  | _ => false

def marked (bad : Nat) : BTree.Cloner Nat := fun k a => if k == bad then (.error .capacityOverflow, a) else (.ok (k + 1000), a)

/-- A map of `n` entries, the clones of key `bk` and value `bv` fail, `g` requests are granted. -/
def c67 (n bk bv g : Nat) : Bool :=
  let ops : List O := .new :: (List.range n).map fun i => .insert 0 i i
  match Op.hprog id ops [] (start fun _ => true) with
  | .ok ((_, true, [m]), s) =>
    let made (k : Nat) := (List.range k).map fun i => (i + 1000, i + 1000)
    let same (s' : H) := live s' == live s && drops [m] s' == some ([(List.range n).map fun i => (i, i)], 0)
    match m.tryCloneL (marked bk) (marked bv) { s with alloc := fun i => i < g } with
    | .ok ((.error _, L), s') => L.made == made L.made.length && L.dropped.length == L.made.length && L.made.all (fun x => L.dropped.count x == 1) &&
        (L.lone == [] || L.lone == [L.made.length + 1000]) && same s' && L.made.length ≤ n && (bk ≥ n || L.made.length ≤ bk) && (bv ≥ n || L.made.length ≤ bv) &&
        (!(bv < n && bv < bk && g ≥ 100) || (L.made.length == bv && L.lone.length == 1)) && (bk < n || bv < n || g < 100)
    | .ok ((.ok c, L), s') => L.made == made n && L.lone == [] && L.dropped == [] && c.length == n && bk ≥ n && bv ≥ n &&
        (match c.drop s' with
        | .ok (l, s2) => l == L.made && same s2
        | _ => false)
    | _ => false
  | _ => false

/-- `split_off` at `q` of a map of `n` entries, `fuel` comparisons answered, `g` requests granted. -/
def c68 (n q fuel g : Nat) : Bool :=
  let ops : List O := .new :: .new :: .insert 1 7 8 :: (List.range n).map fun i => .insert 0 i i
  match Op.hprog id ops [] (start fun _ => true) with
  | .ok ((_, true, [m, o]), s) =>
    let s := { s with alloc := fun i => i < g }
    let all := (List.range n).map fun i => (i, i)
    let whole := m.splitOff id q s
    match m.splitOffU id q fuel s with
    | .ok ((.returned r, m'), s') => (match whole with
      | .ok ((r0, m0), s0) => r0 == r && m0 == m' && live s0 == live s' && (match r with
        | none => g < 5 && m' == m && drops [m', o] s' == some ([all, [(7, 8)]], 0)
        | some r => drops [m', r, o] s' == some ([all.take q, all.drop q, [(7, 8)]], 0))
      | _ => false)
    | .ok ((.unwound d, m'), s') => d == [] && m' == m && fuel < 60 && (match o.drop s' with | .ok (l, _) => l == [(7, 8)] | _ => false) &&
      (match m'.intoIter s' with
      | .ok (it, s1) => (match m'.drop s' with
        | .ok (l, s2) => l == all && live s2 == 1
        | .ub => (match (it.asks m'.root.height (List.replicate (min q n) .front)) s1 with
          | .ok ((xs, _), _) => xs == (all.take q).map some
          | _ => false)
        | _ => false)
      | _ => false)
    | _ => false
  | _ => false

/-- Where it unwinds and whether dropping the map is then undefined behaviour. -/
def c68w (n q : Nat) : List (Option Bool) :=
  let ops : List O := .new :: (List.range n).map fun i => .insert 0 i i
  match Op.hprog id ops [] (start fun _ => true) with
  | .ok ((_, true, [m]), s) => (List.range 12).map fun fuel => match m.splitOffU id q fuel s with
    | .ok ((.unwound _, m'), s') => some (isUb (m'.drop s'))
    | _ => none
  | _ => []

/-- The program that fills two maps, one call with `fuel` comparisons answered, then two more calls, against lists. -/
def c69 (n : Nat) (op : O) (fuel : Nat) : Bool :=
  let ops : List (O × Nat) := [(.new, 0), (.new, 0), (.insert 1 7 8, 9)] ++ ((List.range n).map fun i => (.insert 0 (2 * i) i, 1000)) ++
    [(op, fuel), (.insert 0 9 9, 1000), (.get 0 4, 1000)]
  match Op.hcuts id ops [] (start fun _ => true) with
  | .ok ((rs, true, p), s) =>
    let agrees (k : Option Nat) :=
      let w := Op.specsCut id ((ops.map (·.1)).zip (((List.replicate (n + 3) none) ++ [k]) ++ [none, none])) []
      rs == w.1 && drops p s == some (w.2, 0)
    match rs[n + 3]? with
    | some (some _) => agrees none
    | some none => fuel < 200 && (match op with
      | .extend _ items => (List.range items.length).any fun k => agrees (some k)
      | _ => agrees (some 0))
    | none => false
  | _ => false

def c69ops : List O := [.insert 0 5 1, .insert 0 6 1, .remove 0 6, .remove 0 7, .get 0 8, .get 0 21, .getKeyValue 0 4, .containsKey 0 3, .update 0 8 (· + 100),
  .extend 0 [(1, 1), (4, 40), (21, 3), (100, 5), (3, 3)], .extend 0 [], .range 0 (.included 4) (.excluded 30) [.front, .back, .front], .range 0 (.excluded 4) (.included 31) [.back, .front],
  .range 0 (.excluded 4) (.excluded 4) [.front], .range 0 (.included 5) (.included 4) [.front], .range 0 .unbounded (.included 9) [.back], .rangeMut 0 (.excluded 3) .unbounded [.take .front, .write 0 (· + 7), .take .front],
  .entryOrInsert 0 11 5 (· + 1), .entryOrInsert 0 12 5 (· + 1), .entryOrInsertWith 0 11 5 (· + 1), .entryRemove 0 6, .entryModify 0 8 (· + 3), .entryKey 0 4, .entryInsert 0 6 60, .replace 0 6 9,
  .replace 0 7 9, .take 0 10, .len 0, .insert 5 1 1]

/-- Filling maps of the given sizes, then using them up as owning iterators, against lists. -/
def c70 (ns : List Nat) (ass : List (List OwnAct)) : Bool :=
  let ops : List O := ns.map (fun _ => .new) ++ (ns.zipIdx.flatMap fun (n, j) => (List.range n).map fun i => .insert j ((7 * i) % 101) i)
  match Op.hprog id ops [] (start fun _ => true) with
  | .ok ((_, true, p), s) => match useUpAll p ass s with
    | .ok (r, s') => r == OwnAct.specsAll (Op.specs id ops []).2 ass && live s' == 0
    | _ => false
  | _ => false

/-- Programs with comparisons that answer anything, against what can be said of them by counting; with honest comparisons against lists. -/
def c72 (n : Nat) (op : O) (c : CallCmps Nat Nat) (honest : Bool) : Bool :=
  let ops : List (O × CallCmps Nat Nat) := [(.new, c), (.new, c), (.insert 1 7 8, c), (.insert 1 8 8, c)] ++ ((List.range n).map fun i => (.insert 0 (2 * i) i, c)) ++
    [(op, c), (.insert 0 9 9, c), (.get 0 4, c)]
  match Op.hanys id ops [] (start fun _ => true) with
  | .ok ((rs, true, p), s) =>
    let lens := p.map (·.length)
    match drops p s with
    | some (ls, 0) => ls.map (·.length) == lens && (!honest || (let w := Op.specs id (ops.map (·.1)) []; rs == w.1.map some && ls == w.2))
    | _ => false
  | .panic _ => match op with
    | .append .. | .splitOff .. => !honest
    | _ => false
  | _ => false

def cfickle : Cmps Nat := fun n _ _ => some (if n % 5 = 0 then .gt else if n % 5 = 1 then .lt else if n % 5 = 2 then .gt else if n % 5 = 3 then .gt else .eq)
def cshaky (j : Nat) : Cmps Nat := fun n a b => if n = j then none else some (compare a b)
def callOf (c : Cmps Nat) : CallCmps Nat Nat := ⟨c, c, fun _ => c⟩
def cBack : Cmps Nat := fun _ a b => some (compare b a)
def cGt : Cmps Nat := fun _ _ _ => some .gt

def c72ops : List O := c69ops ++ [.append 0 1, .append 1 0, .splitOff 0 7, .splitOff 0 30, .clear 0, .clone 0, .iterate 0 [.front, .back], .intoIter 0 [.front, .back, .back],
  .views 0 [.start (.range (.included 3) (.included 20)), .start .iter, .ask 0 .front, .ask 1 .back, .start (.range (.included 9) (.excluded 2)), .start (.setRange (.excluded 2) .unbounded), .ask 2 .front, .debug 0]]

end UBattery
open UBattery
def main : IO Unit := do
  let r64 := (List.range 8).all fun i => (List.range 6).all fun g => c64 (i * i + 1) g
  let r65 := [(1, 1), (5, 30), (30, 20), (0, 3), (3, 0), (60, 7)].all fun p => (List.range 9).all fun g => [0, 1, 7, 13, 40, 200].all fun f => c65 p.1 p.2 g f && c65 p.1 p.2 100 f
  let r66 := [(1, 1), (5, 30), (30, 20), (0, 3), (3, 0), (60, 7)].all fun p => [0, 1, 6, 29, 30, 31, 100].all fun x => [0, 1, 17, 100].all fun y =>
    [[], [.front, .back, .front], [.back]].all fun es => c66 p.1 p.2 x y es
  let r67 := [0, 1, 5, 12, 40, 150].all fun n => [0, 1, 4, 5, 6, 23, 100, 1000].all fun bk => [0, 3, 5, 22, 101, 1000].all fun bv => [0, 1, 2, 3, 7, 100].all fun g => c67 n bk bv g
  let r68 := [0, 1, 5, 12, 40, 150].all (fun n => [0, 1, 5, 6, 23, 39, 40, 100, 1000].all fun q => [0, 1, 2, 3, 4, 5, 8, 12, 100].all fun f => [0, 1, 2, 3, 100].all fun g => c68 n q f g) &&
    c68w 30 13 == List.replicate 2 (some false) ++ List.replicate 6 (some true) ++ List.replicate 4 none && c68w 30 29 == List.replicate 12 (some false)
  let r69 := [0, 1, 12, 40].all fun n => c69ops.all fun op => [0, 1, 2, 3, 4, 5, 7, 9, 12, 17, 30, 60, 1000].all fun f => c69 n op f
  let r70 := [0, 1, 11, 12, 40, 101].all fun n => [0, 1, 5, 6, 30, 99, 120].all fun a => [0, 1, 5, 6, 30, 99, 120].all fun b =>
    c70 [n, 12] [[.debug, .len] ++ List.replicate a (.ask .front) ++ [.debug] ++ List.replicate b (.ask .back) ++ [.len, .debug, .ask .front, .debug], List.replicate b (.ask .back) ++ [.debug, .debug]]
  let r72 := [0, 1, 12, 40].all fun n => c72ops.all fun op => c72 n op CallCmps.ofOrd true && ([cfickle, cshaky 0, cshaky 2, cshaky 7, cBack, cGt].all fun c => c72 n op (callOf c) false)
  IO.println s!"C64 {r64}\nC65 {r65}\nC66 {r66}\nC67 {r67}\nC68 {r68}\nC69 {r69}\nC70 {r70}\nC72 {r72}"
