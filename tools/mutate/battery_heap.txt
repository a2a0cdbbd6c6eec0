import Verif.Heap.Api
/-
Executable conformance checks of the level-2 model (nodes in memory), run on pseudo-random programs.  See battery.txt.
-/
open Verif Verif.Heap Verif.Spec

namespace HBattery

structure Ke where
  k : Nat
  t : Nat
deriving BEq, DecidableEq, Repr, Inhabited
instance : Ord Ke := ⟨fun a b => compare a.k b.k⟩
def bor (x : Ke) : Nat := x.k

abbrev O := Op Ke Nat Nat
abbrev H := Heap Ke Nat

/-- Store the memory in arrays (the functions that represent it grow with every write). -/
def compact (s : H) : H :=
  let arr : Array (Option (Array (Option Ke) × Array (Option Nat) × Array (Option Addr) × Node Ke Nat)) :=
    Array.ofFn (n := s.next) fun a => (s.cells a).map fun n => (Array.ofFn (n := 11) fun i => n.keys i, Array.ofFn (n := 11) fun i => n.vals i, Array.ofFn (n := 12) fun i => n.edges i, { n with keys := fun _ => none, vals := fun _ => none, edges := fun _ => none })
  { s with cells := fun a => match (arr[a]?).join with
      | some (k, v, e, n) => some { n with keys := fun i => (k[i]?).join, vals := fun i => (v[i]?).join, edges := fun i => (e[i]?).join }
      | none => none }

/-- The nodes of a map, their links and their storage. -/
partial def nodes (s : H) (h : Nat) (a : Addr) : List (Nat × Addr) :=
  match s.cells a with
  | none => [(h, a)]
  | some n => (h, a) :: if h = 0 then [] else ((List.range (n.len + 1)).map fun i => match n.edges i with
      | some c => nodes s (h - 1) c
      | none => []).flatten

def mapNodes (s : H) (m : HMap) : List (Nat × Addr) := if m.root.node = SHARED then [] else nodes s m.root.height m.root.node

def stored (s : H) (m : HMap) : Bool := (mapNodes s m).all fun (h, a) => match s.cells a with
  | none => false
  | some n => (n.lay == if h = 0 then .leaf else .internal) && n.len ≤ 11 && (List.range 14).all fun i =>
      ((n.keys i).isSome == (i < n.len : Bool)) && ((n.vals i).isSome == (i < n.len : Bool)) && ((n.edges i).isSome == (0 < h ∧ i ≤ n.len : Bool))

def linksOk (s : H) (m : HMap) : Bool :=
  (mapNodes s m).all (fun (h, a) => match s.cells a with
    | none => true
    | some n => h == 0 || (List.range 12).all fun i => match n.edges i with
      | none => true
      | some c => match s.cells c with
        | none => false
        | some nc => nc.parent == some a && nc.pidx == some i) &&
  (m.root.node == SHARED || match s.cells m.root.node with
    | some n => n.parent.isNone
    | none => false)

def owned (s : H) (p : List HMap) : Bool :=
  let all := (p.map (mapNodes s)).flatten.map (·.2)
  (List.range s.next).all fun a => if (s.cells a).isSome then all.count a == 1 else true

structure St where
  c03 : Bool := true
  c51 : Bool := true
  c52 : Bool := true
  c53 : Bool := true

/-- Run a program call by call; lists beside it. -/
partial def go (ops : List O) (p : List HMap) (l : List (List (Ke × Nat))) (s : H) (ess : List (List End)) (st : St) : St :=
  match ops with
  | [] =>
    let st := match dropAll p s with
      | .ok (ds, s') => if ds == l && (List.range s'.next).all fun a => (s'.cells a).isNone then st else { st with c51 := false }
      | _ => { st with c51 := false }
    match consumeAll p ess s with
      | .ok (ds, s') => if ds.map (·.2) == (l.zipIdx.map fun (x, i) => (pops (ess.getD i []) x).2) && ds.map (·.1) == (l.zipIdx.map fun (x, i) => (pops (ess.getD i []) x).1) && (List.range s'.next).all fun a => (s'.cells a).isNone then st else { st with c51 := false }
      | _ => { st with c51 := false }
  | op :: ops =>
    match Op.hrun bor p op s with
    | .ub => { st with c53 := false, c03 := false }
    | .panic _ => { st with c03 := false }
    | .ok ((o, p), s) =>
      let s := compact s
      let sp := op.spec bor l
      let failed := o == .failed
      if Op.spoils op o then { st with c52 := st.c52 && p.all (linksOk s), c53 := st.c53 && p.all (stored s) }
      else
        let l := if failed then l else sp.2
        go ops p l s ess { c03 := st.c03 && (failed || o == sp.1), c51 := st.c51 && owned s p, c52 := st.c52 && p.all (linksOk s), c53 := st.c53 && p.all (stored s) }

def rnd (s : Nat) : Nat := (s * 1103515245 + 12345) % 2147483648
def ends (s n : Nat) : List End := (List.range n).map fun i => if (s / 2 ^ (i % 17)) % 2 = 0 then .front else .back

def gen (mode : Nat) : Nat → Nat → Nat → List O
  | 0, _, _ => []
  | n + 1, s, t =>
    let s := rnd s
    let a := (s / 65536) % 1000
    let s := rnd s
    let i := (s / 65536) % 2
    let s := rnd s
    let k := (s / 65536) % 97
    let big := if mode = 1 then 40 else 0
    let op : O :=
      if a < 450 then .insert i ⟨k, t⟩ t
      else if a < 600 - big then .remove i k
      else if a < 640 - big then .entryOrInsert i ⟨k, t⟩ t (· + 1)
      else if a < 680 - big then .entryRemove i ⟨k, t⟩
      else if a < 700 then .get i k
      else if a < 720 then .update i k (· + 7)
      else if a < 740 then .iterate i (ends (s / 3) 70)
      else if a < 760 then .range i (.included (k / 2)) (.excluded k) (ends (s / 3) 40)
      else if a < 780 then .range i (.excluded (k / 2)) .unbounded (ends (s / 3) 40)
      else if a < 790 then .rangeMut i .unbounded (.included k) ((ends (s / 5) 8).map .take ++ [.write 1 (· + 3), .write 0 (· + 1)])
      else if a < 800 then .iterMut i ((ends (s / 5) 20).map .take ++ [.write 1 (· + 3)])
      else if a < 830 then .splitOff i k
      else if a < 850 then .append i (1 - i)
      else if a < 870 then .clone i
      else if a < 880 then .intoIter 2 (ends (s / 7) 30)
      else if a < 885 then .clear 3
      else if a < 900 then .append 0 2
      else if a < 920 then .append 1 3
      else if a < 940 then .extend i ((List.range 12).map fun j => (⟨(k * j + a) % 97, t⟩, t))
      else if a < 960 then .entryModify i ⟨k, t⟩ (· + 2)
      else if a < 980 then .entryKey i ⟨k, t⟩
      else .len i
    op :: gen mode n s (t + 1)

def demo : List O := .new :: .new :: .extend 0 ((List.range 160).map fun j => (⟨(j * 37) % 163, j⟩, j)) :: .clone 0 :: .splitOff 2 50 :: .splitOff 2 3 :: .splitOff 3 160 :: .append 2 3 :: []
def sorted : List O := .new :: .new :: ((List.range 90).map fun j => .insert 0 ⟨j, 0⟩ j) ++ ((List.range 90).map fun j => .insert 1 ⟨200 - j, 0⟩ j) ++
  [.splitOff 0 44, .splitOff 1 180, .append 0 1, .append 0 2, .append 0 3] ++ ((List.range 60).map fun j => .remove 0 (200 - j)) ++ ((List.range 60).map fun j => .remove 0 j)

def programs : List (List O) := demo :: sorted :: (demo ++ gen 1 150 5 1000) :: ((List.range 12).map fun s => .new :: .new :: gen (s % 2) 260 (s * 7919 + 1) 0)

def run (al : Nat → Bool) (ops : List O) : St := go ops [] [] (Heap.mk (fun _ => none) 1 al (fun _ => 0)) [ends 12345 9, ends 777 50, [], ends 4242 20] {}

end HBattery
open HBattery
def main : IO Unit := do
  let mut r : St := {}
  for ops in programs do
    let x := run (fun _ => true) ops
    r := { c03 := r.c03 && x.c03, c51 := r.c51 && x.c51, c52 := r.c52 && x.c52, c53 := r.c53 && x.c53 }
  for n in List.range 24 do
    for ops in [demo ++ gen 1 100 n 1000, .new :: .new :: gen 0 150 (n + 99) 0] do
      let x := run (fun i => i != n * 2) ops
      r := { r with c51 := r.c51 && x.c51 , c52 := r.c52 && x.c52, c53 := r.c53 && x.c53 }
  IO.println s!"C03 {r.c03}\nC51 {r.c51}\nC52 {r.c52}\nC53 {r.c53}"
