import Verif.BTree.AlgUnwind
import Verif.BTree.AlgCost
import Verif.SpecAlgCost
import Verif.BTree.Set
import Verif.BTree.Count
import Verif.Vec.Calls
import Verif.Misc.Io
import Verif.Misc.Format
import Verif.Misc.TryClone
import Verif.BTree.AlgViews
import Verif.BTree.Budget
import Verif.BTree.Unwind
import Verif.Heap.Bytes
/-
Executable conformance checks: for each claim a Boolean that is true of the model as committed and is evaluated again on every
seeded mutant.  Inputs are fixed samples; nothing here is a proof.  Run by tools/mutate/run.py.
-/
open Verif Verif.BTree Verif.Spec

namespace Battery

structure Ke where
  k : Nat
  t : Nat
deriving BEq, DecidableEq, Repr, Inhabited
instance : Ord Ke := ⟨fun a b => compare a.k b.k⟩
def bor (x : Ke) : Nat := x.k
instance : BEq Ordering := ⟨fun a b => decide (a = b)⟩
deriving instance BEq for TryReserveError
deriving instance BEq for Except
deriving instance BEq for Exec
deriving instance BEq for Handle
deriving instance BEq for Why

abbrev M := Map Ke Nat
abbrev L := List (Ke × Nat)
def A : Alloc := fun _ => true
def failAt (n : Nat) : Alloc := fun i => i != n
def failFrom (n : Nat) : Alloc := fun i => i < n

def ex {α} : Exec α → Option α
  | .ok a => some a
  | _ => none
def items (m : M) : Option L := ex m.toListE
def isPanic {α} : Exec α → Bool
  | .panic _ => true
  | _ => false
def isUb {α} : Exec α → Bool
  | .ub => true
  | _ => false
def noFault {α} : Exec α → Bool
  | .ok _ => true
  | _ => false

def lcg (s : Nat) : Nat := (s * 1103515245 + 12345) % 2147483648
def rnd (n seed range : Nat) : List Nat :=
  ((List.range n).foldl (fun (acc : List Nat × Nat) _ => let s := lcg acc.2; ((s / 65536) % range :: acc.1, s)) ([], seed)).1

/-- A map and what should be in it. -/
structure Samp where
  m : M
  l : L
  good : Bool
def Samp.new : Samp := ⟨Map.new, [], true⟩
def Samp.ins (s : Samp) (k : Nat) (t : Nat := 0) : Samp :=
  match s.m.tryInsert ⟨k, t⟩ (k + 1000 * t) A with
  | .ok (.ok _, m, _) => ⟨m, Spec.insert ⟨k, t⟩ (k + 1000 * t) s.l, s.good⟩
  | _ => { s with good := false }
def Samp.del (s : Samp) (k : Nat) : Samp :=
  match s.m.removeEntry bor k with
  | .ok (_, m) => ⟨m, Spec.erase bor k s.l, s.good⟩
  | _ => { s with good := false }
def insAll (s : Samp) (ks : List Nat) (t : Nat := 0) : Samp := ks.foldl (fun s k => s.ins k t) s
def delAll (s : Samp) (ks : List Nat) : Samp := ks.foldl (fun s k => s.del k) s
def asc (n : Nat) : Samp := insAll .new ((List.range n).map (2 * ·))
def desc (n : Nat) : Samp := insAll .new ((List.range n).reverse.map (2 * ·))
def ran (n seed : Nat) : Samp := insAll .new ((rnd n seed (3 * n)).map (2 * ·))
def base : List Samp := [.new, asc 1, asc 5, asc 11, asc 12, asc 17, asc 30, desc 12, desc 30, ran 40 7, ran 90 11, asc 130, desc 160, ran 200 5]
def pruned : List Samp :=
  [delAll (asc 12) [0, 2, 4], delAll (asc 30) ((List.range 25).map (2 * ·)), delAll (desc 40) ((List.range 20).reverse.map (4 * ·)),
   delAll (ran 200 5) ((rnd 150 5 600).map (2 * ·)), delAll (asc 130) ((List.range 100).map fun i => 2 * (129 - i)),
   delAll (asc 130) ((List.range 100).map (2 * ·)), delAll (ran 200 9) ((rnd 400 3 600).map (2 * ·)),
   delAll (ran 150 21) ((rnd 100 21 450).reverse.map (2 * ·))]
def samples : List Samp := base ++ pruned
def small : List Samp := [.new, asc 1, asc 5, asc 12, asc 30, desc 30, ran 40 7, ran 90 11]
def probes (s : Samp) : List Nat :=
  let n := 2 * 200
  [0, 1, 2, 3, 6, 7, 10, 11, 12, 13, 14, 22, 23, 24, 25, 26, 57, 58, 59, 60, 100, 101, 140, 200, 258, 259, 300, n, n + 1] ++ (s.l.take 30 |>.map (·.1.k))
def sortedB (l : L) : Bool := match l with
  | [] => true
  | a :: l => (l.head?.elim true fun b => a.1.k < b.1.k) && sortedB l
def allG (ss : List Samp) (f : Samp → Bool) : Bool := ss.all fun s => s.good && f s

def C01 (_ : Unit) : Bool := allG samples fun s => (probes s).all fun q =>
  match s.m.tryInsert ⟨q, 7⟩ 99 A with
  | .ok (.ok old, m, _) => old == lookup bor q s.l &&
      (probes s).all fun p => ex (m.get bor p) == some (lookup bor p (Spec.insert ⟨q, 7⟩ 99 s.l))
  | _ => false
def C02 (_ : Unit) : Bool := allG samples fun s => (probes s).all fun q =>
  match s.m.remove bor q with
  | .ok (r, m) => r == lookup bor q s.l && m.len == (Spec.erase bor q s.l).length &&
      (probes s).all fun p => ex (m.get bor p) == some (lookup bor p (Spec.erase bor q s.l))
  | _ => false
def C04 (_ : Unit) : Bool := allG samples fun s => items s.m == some s.l && sortedB s.l && s.m.len == s.l.length &&
  (match s.m.iter with
   | .ok it => ((Iter.runMap (·.1) s.m (List.replicate (s.l.length + 2) .front) it |> ex).map (·.1)) == some (s.l.map (some ·.1) ++ [none, none]) &&
      ((Iter.runMap (·.2) s.m (List.replicate (s.l.length + 2) .front) it |> ex).map (·.1)) == some (s.l.map (some ·.2) ++ [none, none])
   | _ => false)
def ends (seed n : Nat) : List End := (rnd n seed 2).map fun b => if b == 0 then .front else .back
def patterns (n : Nat) : List (List End) := [ends 3 (n + 3), ends 8 (n + 3), List.replicate (n + 3) .back, List.replicate (n + 2) .front, ends 17 (n / 2)]
def C05 (_ : Unit) : Bool := allG samples fun s => (patterns s.l.length).all fun es =>
  match s.m.iter with
  | .ok it => match Iter.run s.m es it with
    | .ok (o, it') => o == (pops es s.l).1 && it'.sizeHint == ((pops es s.l).2.length, some (pops es s.l).2.length)
    | _ => false
  | _ => false
def C06 (_ : Unit) : Bool := allG samples fun s => s.m.len == s.l.length && (items s.m).map List.length == some s.m.len && s.m.isEmpty == s.l.isEmpty
def bounds : List (Bound Nat) := [.unbounded, .included 0, .excluded 0, .included 12, .excluded 12, .included 13, .excluded 13, .excluded 24, .included 24,
  .included 59, .excluded 60, .included 60, .excluded 257, .included 258, .included 1000]
def rangeOK (s : Samp) (f : Bound Nat → Bound Nat → Bool) : Bool := bounds.all fun lo => bounds.all fun hi => f lo hi
def C07 (_ : Unit) : Bool := allG samples fun s => rangeOK s fun lo hi => badRange lo hi ||
  match s.m.range bor lo hi with
  | .ok r => (patterns (within bor lo hi s.l).length).all fun es => (Range.run s.m es r |> ex).map (·.1) == some (pops es (within bor lo hi s.l)).1
  | _ => false
def C08 (_ : Unit) : Bool := allG samples fun s => rangeOK s fun lo hi => isPanic (s.m.range bor lo hi) == badRange lo hi && !isUb (s.m.range bor lo hi)
def okMap (m : M) (l : L) : Bool := items m == some l && m.len == l.length && (l.all fun kv => ex (m.get bor kv.1.k) == some (some kv.2))
def C09 (_ : Unit) : Bool := allG samples fun s => (probes s).all fun q =>
  match s.m.splitOff bor q A with
  | .ok (.ok r, m, _) => okMap m (below bor q s.l) && okMap r (atLeast bor q s.l)
  | _ => false
def allocs : List Alloc := [failAt 0, failAt 1, failAt 2, failAt 3, failFrom 0, failFrom 1, failFrom 2, failFrom 3]
def C10 (_ : Unit) : Bool := allG samples fun s => (probes s |>.take 12).all fun q => allocs.all fun a =>
  match s.m.splitOff bor q a with
  | .ok (.ok _, _, _) => true
  | .ok (.error _, m, _) => okMap m s.l
  | _ => false
def unionL (l r : L) : L := r.foldl (fun acc kv => Spec.insert kv.1 kv.2 (Spec.erase bor kv.1.k acc)) l
def tagged : List Samp := [.new, insAll .new [3, 4, 10] 5, insAll .new ((List.range 30).map (3 * ·)) 5, insAll .new (rnd 120 31 300) 5, insAll .new ((List.range 200).map (500 + ·)) 5,
  insAll .new ((List.range 9).map (30 + ·)) 5]
def C11 (_ : Unit) : Bool := allG samples fun s => allG tagged fun o =>
  match s.m.append o.m A with
  | .ok (m, o', _) => okMap m (unionL s.l o.l) && okMap o' []
  | _ => false
def C12 (_ : Unit) : Bool := allG small fun s => allG (tagged.take 3) fun o => allocs.all fun a => !isUb (s.m.append o.m a) &&
  (!(!s.l.isEmpty && !o.l.isEmpty) || isPanic (s.m.append o.m (failFrom 0)))
def C13 (_ : Unit) : Bool := allG samples fun s =>
  (match s.m.tryClone (fun k a => (.ok ⟨k.k, 9⟩, a)) (fun v a => (.ok (v + 1), a)) A with
   | .ok (.ok c, _) => okMap c (s.l.map fun kv => (⟨kv.1.k, 9⟩, kv.2 + 1))
   | _ => false) &&
  (allocs.all fun a => noFault (s.m.tryClone (fun k a => (.ok k, a)) (fun v a => (.ok v, a)) a)) &&
  (s.l.isEmpty || match s.m.tryClone (fun k a => (.ok k, a)) (fun v a => (.ok v, a)) (failFrom 0) with
    | .ok (.error _, _) => true
    | _ => false)
def C14 (_ : Unit) : Bool := (allG samples fun s => (probes s).all fun q =>
  match s.m.tryInsert ⟨q, 7⟩ 99 A with
  | .ok (.ok _, m, _) => ex (m.getKeyValue bor q) == some (some (((find? bor q s.l).map (·.1)).getD ⟨q, 7⟩, 99))
  | _ => false)
  && [0, 1, 6, 13, 24, 40].all fun q =>
    match BSet.fromIter ((List.range 30).map fun i => (⟨2 * i, 0⟩ : Ke)) A with
    | .ok (t, _) => match t.replace ⟨q, 7⟩ A with
      | .ok (.ok r, t', _) => r == (if q % 2 == 0 then some ⟨q, 0⟩ else none) && ex (t'.get bor q) == some (some ⟨q, 7⟩)
      | _ => false
    | _ => false
def lookups (m : M) : Option L := ((List.range 1300).mapM fun q => ex (m.getKeyValue bor q)).map (·.filterMap id)
def C16 (_ : Unit) : Bool := allG samples fun s => (probes s |>.take 24).all fun q => allocs.all fun a =>
  match s.m.tryInsert ⟨q, 7⟩ 99 a with
  | .ok (.ok _, _, _) => true
  | .ok (.error _, m, _) => match lookups m with
    | some r => r.all fun kv => s.l.contains kv || kv == (⟨q, 7⟩, 99)
    | none => false
  | _ => false
/-- the true part of C15: nothing was allocated before the failure, i.e. the first request failed: the entries are all still there -/
def C15 (_ : Unit) : Bool := allG samples fun s => (probes s |>.take 24).all fun q =>
  match s.m.tryInsert ⟨q, 7⟩ 99 (failFrom 0) with
  | .ok (.ok _, _, _) => true
  | .ok (.error _, m, _) => lookups m == some s.l
  | _ => false
def C17 (_ : Unit) : Bool := allG samples fun s => (probes s).all fun q =>
  match s.m.tryEntry ⟨q, 7⟩ A with
  | .ok (.ok e, m, _) =>
    (ex (m.entryKey e) == some (((find? bor q s.l).map (·.1)).getD ⟨q, 7⟩)) && okMap m s.l &&
    (match m.orTryInsert e 99 A with
     | .ok (.ok h, m', _) => ex (m'.kvAt h) == some ((find? bor q s.l).getD (⟨q, 7⟩, 99)) && okMap m' (if (find? bor q s.l).isSome then s.l else Spec.insert ⟨q, 7⟩ 99 s.l)
     | _ => false) &&
    (match m.orTryInsertWith e (fun _ => 98) A with
     | .ok (.ok h, m', _, ran) => ran == (find? bor q s.l).isNone && ex (m'.kvAt h) == some ((find? bor q s.l).getD (⟨q, 7⟩, 98))
     | _ => false) &&
    (match m.andModify e (· + 5) with
     | .ok (m', _) => okMap m' (modify bor q (· + 5) s.l)
     | _ => false)
  | _ => false
def C18 (_ : Unit) : Bool := allG samples fun s => (probes s).all fun q =>
  match s.m.tryEntry ⟨q, 7⟩ A with
  | .ok (.ok (.occupied h), m, _) =>
    ex (m.occGet h) == lookup bor q s.l &&
    (match m.occInsert h 77 with
     | .ok (old, m') => some old == lookup bor q s.l && okMap m' (modify bor q (fun _ => 77) s.l)
     | _ => false) &&
    (match m.occRemoveEntry h with
     | .ok (kv, m') => some kv == find? bor q s.l && okMap m' (Spec.erase bor q s.l)
     | _ => false)
  | .ok (.ok (.vacant _ _), _, _) => (find? bor q s.l).isNone
  | _ => false
def shape : Nat → Bool → Tree Ke Nat → Bool
  | 0, root, t => t.len ≤ 11 && (root || 4 ≤ t.len) && t.edges.isEmpty
  | h + 1, root, t => t.len ≤ 11 && (if root then 1 ≤ t.len else 4 ≤ t.len) && t.edges.length == t.len + 1 && t.edges.all (shape h false)
/-- more maps: split and append results -/
def C19 (_ : Unit) : Bool := (allG samples fun s => shape s.m.height true s.m.root) &&
  (allG samples fun s => (probes s |>.take 20).all fun q => match s.m.splitOff bor q A with
   | .ok (.ok r, m, _) => shape r.height true r.root && shape m.height true m.root
   | _ => false) &&
  (allG samples fun s => allG tagged fun o => match s.m.append o.m A with
   | .ok (m, _, _) => shape m.height true m.root
   | _ => false)
def C20 (_ : Unit) : Bool := allG samples fun s => (probes s).all fun q => (s.m.height == 0 || 2 * 5 ^ s.m.height ≤ s.l.length + 1) &&
  match s.m.getC bor q with
  | .ok (r, n) => n ≤ 11 * (s.m.height + 1) && r == lookup bor q s.l
  | _ => false

/-- inconsistent comparisons -/
structure Wd where
  k : Nat
deriving BEq, DecidableEq, Inhabited
instance : Ord Wd := ⟨fun a b => match (a.k * 7 + b.k * 13 + a.k * b.k) % 5 with | 0 => .eq | 1 | 2 => .lt | _ => .gt⟩
def wshape : Nat → Bool → Tree Wd Nat → Bool
  | 0, root, t => t.len ≤ 11 && (root || 4 ≤ t.len) && t.edges.isEmpty
  | h + 1, root, t => t.len ≤ 11 && (if root then 1 ≤ t.len else 4 ≤ t.len) && t.edges.length == t.len + 1 && t.edges.all (wshape h false)
def wok (m : Map Wd Nat) : Bool := (wshape m.height true m.root) && match m.toListE with
  | .ok l => l.length == m.length
  | _ => false
def wild (n seed : Nat) : Option (Map Wd Nat) := (rnd n seed 1000).foldlM (fun m k => match m.tryInsert ⟨k⟩ k A with
  | .ok (.ok _, m, _) => some m
  | _ => none) Map.new
def C22 (_ : Unit) : Bool := [(20, 3), (80, 5), (200, 8), (300, 11)].all fun p => match wild p.1 p.2 with
  | none => false
  | some m => wok m && ((rnd 150 (p.2 + 1) 1000).foldlM (fun (m : Map Wd Nat) k => match m.removeEntry id (⟨k⟩ : Wd) with
    | .ok (_, m) => if wok m then some m else none
    | _ => none) m).isSome && ((rnd 20 4 1000).all fun q => match m.splitOff id (⟨q⟩ : Wd) A with
    | .ok (.ok r, m, _) => wok r && wok m
    | _ => false) && ((rnd 20 4 1000).all fun q => (rnd 20 6 1000).all fun q' => !isUb (m.range id (.included (⟨q⟩ : Wd)) (.included ⟨q'⟩))) &&
    (match (wild 60 9) with
     | some o => match m.append o A with
       | .ok (m, _, _) => wok m
       | _ => false
     | none => false)
def C23 (_ : Unit) : Bool := allG samples fun s =>
  let r := (insAll .new (s.l.reverse.map (·.1.k))).m
  let eqK : Ke → Ke → Bool := (· == ·)
  let eqV : Nat → Nat → Bool := (· == ·)
  ex (s.m.eq r eqK eqV) == some true && ex (s.m.cmp r compare compare) == some .eq &&
  ex (s.m.hash (fun (h : List (Ke × Nat)) kv => kv :: h) []) == ex (r.hash (fun h kv => kv :: h) []) &&
  ex (s.m.hash (fun (h : List (Ke × Nat)) kv => kv :: h) []) == some s.l.reverse &&
  (allG small fun o => ex (s.m.eq o.m eqK eqV) == some (s.l == o.l)) &&
  (match s.m.tryInsert ⟨3, 0⟩ 1 A with
   | .ok (.ok _, m', _) => ex (s.m.eq m' eqK eqV) == some false && ex (m'.cmp s.m compare compare) == some (if (s.l.filter (·.1.k > 3)).isEmpty then .gt else .lt)
   | _ => false)
def acts (seed n : Nat) : List (MutAct Nat) := (rnd n seed 4).zipIdx.map fun (b, i) => if b == 0 then .take .front else if b == 1 then .take .back else .write (i / 3) (· * 2 + b)
def C24 (_ : Unit) : Bool := allG samples fun s => [3, 9, 14].all fun seed =>
  (match s.m.iter with
   | .ok it => match mutRun Iter.stepH (acts seed (3 * s.l.length)) s.m it [] with
     | .ok (xs, m, refs) =>
       let c := (Cursor.mk s.l 0 s.l.length []).acts (acts seed (3 * s.l.length))
       xs == c.1 && items m == some c.2.items && decide (refs.Nodup)
     | _ => false
   | _ => false) &&
  (match s.m.range bor (.included 6) (.excluded 120) with
   | .ok r =>
     let pre := s.l.takeWhile (·.1.k < 6)
     let mid := within bor (.included 6) (.excluded 120) s.l
     match mutRun Range.stepH (acts seed (3 * mid.length)) s.m r [] with
     | .ok (xs, m, refs) =>
       let c := (Cursor.mk s.l pre.length (pre.length + mid.length) []).acts (acts seed (3 * mid.length))
       xs == c.1 && items m == some c.2.items && decide (refs.Nodup)
     | _ => false
   | _ => false)
def C25 (_ : Unit) : Bool := allG small fun s => [4, 40, 150].all fun n =>
  let l := ((rnd n 77 100).zipIdx.map fun (k, i) => ((⟨k, i⟩ : Ke), i))
  (match s.m.extend l A with
   | .ok (m, _) => okMap m (l.foldl (fun acc kv => Spec.insert kv.1 kv.2 acc) s.l)
   | _ => false)
  && (s.l.length > 5 || isPanic (s.m.extend l (failFrom 0)) || s.l.length > 0 && n < 12)
def C21 (_ : Unit) : Bool := C01 () && C02 () && C05 () && C07 () && C09 () && C11 () && C13 () && C24 ()
def C03 (_ : Unit) : Bool := C01 () && C02 () && C09 () && C11 () && C17 () && C18 () && (Map.new : M).len == 0 && (samples.all fun s => okMap s.m.clear [])

/-! sets -/
def setOf (ks : List Nat) (t : Nat) : BSet Ke := match BSet.fromIter (ks.map fun k => (⟨k, t⟩ : Ke)) A with
  | .ok (s, _) => s
  | _ => BSet.new
def elems (ks : List Nat) (t : Nat) : List Ke := (ks.foldl (fun (acc : List (Ke × Unit)) k => Spec.insert ⟨k, t⟩ () acc) []).map (·.1)
def keyLists : List (List Nat) := [[], [3], [1, 2, 3], List.range 10, (List.range 10).map (2 * ·), (List.range 60).map (3 * ·), rnd 80 3 200, [500, 501], [0, 90, 177], (List.range 17).map (10 * ·),
  [0, 1, 5000], List.range 200]
def has (l : List Ke) (x : Ke) : Bool := l.any (·.k == x.k)
def ins (l : List Ke) : List Ke := (l.foldl (fun (acc : List (Ke × Unit)) k => Spec.insert k () acc) []).map (·.1)
def sdiff (l r : List Ke) := l.filter fun x => !has r x
def sinter (l r : List Ke) := if l.length ≤ r.length then l.filter (has r) else r.filter (has l)
def sunion (l r : List Ke) := ins (l ++ sdiff r l)
def ssym (l r : List Ke) := ins (sdiff l r ++ sdiff r l)
def pairs (f : List Nat → List Nat → Bool) : Bool := keyLists.all fun a => keyLists.all fun b => f a b
def drain {S} (next : S → Exec (Option Ke × S)) (hint : S → Nat × Option Nat) : Nat → Exec S → Option (List Ke) × Bool
  | 0, _ => (none, false)
  | n + 1, .ok s =>
    match next s with
    | .ok (none, s') => (match next s' with
      | .ok (none, _) => (some [], (hint s).1 == 0 || (hint s).1 ≤ 0)
      | _ => (none, false))
    | .ok (some x, s') => match drain next hint n (.ok s') with
      | (some l, b) => (some (x :: l), b && (hint s).1 ≤ l.length + 1 && (match (hint s).2 with | some u => l.length + 1 ≤ u | none => true))
      | r => r
    | _ => (none, false)
  | _, _ => (none, false)
def dDiff (a b : List Nat) := drain Difference.next Difference.sizeHint 500 ((setOf a 0).difference (setOf b 1))
def dInter (a b : List Nat) := drain Intersection.next Intersection.sizeHint 500 ((setOf a 0).intersection (setOf b 1))
def dSym (a b : List Nat) := drain TwoIters.symDiffNext TwoIters.symDiffHint 500 ((setOf a 0).twoIters (setOf b 1))
def dUnion (a b : List Nat) := drain TwoIters.unionNext TwoIters.unionHint 500 ((setOf a 0).twoIters (setOf b 1))
def C26 (_ : Unit) : Bool := pairs fun a b =>
  (dDiff a b).1 == some (sdiff (elems a 0) (elems b 1)) && (dInter a b).1 == some (sinter (elems a 0) (elems b 1)) &&
  (dSym a b).1 == some (ssym (elems a 0) (elems b 1)) && (dUnion a b).1 == some (sunion (elems a 0) (elems b 1))
def C28 (_ : Unit) : Bool := pairs fun a b => (dDiff a b).2 && (dInter a b).2 && (dSym a b).2 && (dUnion a b).2
def C27 (_ : Unit) : Bool := pairs fun a b =>
  let l := elems a 0; let r := elems b 1
  ex ((setOf a 0).isSubset (setOf b 1)) == some (l.all (has r)) && ex ((setOf a 0).isSuperset (setOf b 1)) == some (r.all (has l)) &&
  ex ((setOf a 0).isDisjoint (setOf b 1)) == some (l.all fun x => !has r x)
def sitems (s : BSet Ke) : Option (List Ke) := ex s.items
def C29 (_ : Unit) : Bool := keyLists.all fun a =>
  let s := setOf a 0; let l := elems a 0
  sitems s == some l && s.len == l.length && s.isEmpty == l.isEmpty && s.clear.isEmpty && sitems s.clear == some [] &&
  (match s.clone (fun x => ⟨x.k, x.t + 5⟩) A with
   | .ok (c, _) => sitems c == some (l.map fun x => ⟨x.k, x.t + 5⟩) && c.len == l.length
   | _ => false) &&
  (let extra : List Ke := [⟨5, 8⟩, ⟨5, 9⟩, ⟨500, 8⟩, ⟨0, 8⟩, ⟨7, 8⟩, ⟨500, 9⟩]
   match s.extend extra A with
   | .ok (c, _) => sitems c == some (ins (l ++ [⟨5, 8⟩, ⟨500, 8⟩, ⟨0, 8⟩, ⟨7, 8⟩].filter (!has l ·)))
   | _ => false) &&
  [0, 1, 3, 7, 12, 90, 199, 500].all fun q =>
    ex (s.contains bor q) == some (has l ⟨q, 0⟩) && ex (s.get bor q) == some (l.find? (·.k == q)) &&
    (match s.tryInsert ⟨q, 7⟩ A with
     | .ok (.ok b, s', _) => b == !has l ⟨q, 0⟩ && sitems s' == some (if has l ⟨q, 0⟩ then l else ins (⟨q, 7⟩ :: l))
     | _ => false) &&
    (match s.replace ⟨q, 7⟩ A with
     | .ok (.ok b, s', _) => b == l.find? (·.k == q) && sitems s' == some (if has l ⟨q, 0⟩ then l.map (fun x => if x.k == q then ⟨q, 7⟩ else x) else ins (⟨q, 7⟩ :: l))
     | _ => false) &&
    (match s.remove bor q with
     | .ok (b, s') => b == has l ⟨q, 0⟩ && sitems s' == some (l.filter (·.k != q))
     | _ => false) &&
    (match s.take bor q with
     | .ok (b, s') => b == l.find? (·.k == q) && sitems s' == some (l.filter (·.k != q))
     | _ => false) &&
    (match s.trySplitOff bor q A with
     | .ok (.ok r, s', _) => sitems s' == some (l.filter (·.k < q)) && sitems r == some (l.filter (q ≤ ·.k))
     | _ => false)
def C30 (_ : Unit) : Bool := pairs fun a b =>
  let f : Ke → Ke := fun x => ⟨x.k, x.t + 10⟩
  let l := elems a 0; let r := elems b 1
  let chk := fun (o : Exec (BSet Ke × Alloc)) (want : List Ke) => match o with
    | .ok (s, _) => sitems s == some (want.map f)
    | _ => false
  chk ((setOf a 0).sub (setOf b 1) f A) (sdiff l r) && chk ((setOf a 0).bitand (setOf b 1) f A) (sinter l r) &&
  chk ((setOf a 0).bitor (setOf b 1) f A) (sunion l r) && chk ((setOf a 0).bitxor (setOf b 1) f A) (ssym l r)
def wsetOf (n seed : Nat) : BSet Wd := match BSet.fromIter ((rnd n seed 1000).map Wd.mk) A with
  | .ok (s, _) => s
  | _ => BSet.new
def wdrain {S} (next : S → Exec (Option Wd × S)) : Nat → Exec S → Bool
  | 0, _ => false
  | n + 1, .ok s => (match next s with
    | .ok (none, _) => true
    | .ok (some _, s') => wdrain next n (.ok s')
    | _ => false)
  | _, _ => false
def C55 (_ : Unit) : Bool := [(5, 1), (60, 2), (150, 3)].all fun p => [(3, 4), (60, 5), (200, 6)].all fun q =>
  let a := wsetOf p.1 p.2; let b := wsetOf q.1 q.2
  wdrain Difference.next 500 (a.difference b) && wdrain Intersection.next 500 (a.intersection b) && wdrain TwoIters.symDiffNext 500 (a.twoIters b) &&
  wdrain TwoIters.unionNext 500 (a.twoIters b) && noFault (a.isSubset b) && noFault (b.isSubset a) && noFault (a.isDisjoint b)

/-! vectors -/
open Verif.Vec
def env : Vec.Env Nat := ⟨1000, 4, fun c r => max (2 * c) r, fun _ r => r, fun x => x ≥ 900, true⟩
def w0 (a : Alloc) : World Nat := ⟨a, 0, [], [], []⟩
def vec (l : List Nat) (spare : Nat) : RawVec Nat := ⟨l.length + spare, l.length, fun i => l[i]?⟩
def st (l : List Nat) (spare : Nat) (a : Alloc := A) : St Nat := ⟨vec l spare, w0 a⟩
def holds (v : RawVec Nat) (l : List Nat) : Bool := v.len == l.length && l.length ≤ v.cap && (List.range 130).all (fun i => v.mem i == l[i]?) && v.cap * 4 ≤ 500
def vecs : List (List Nat × Nat) := [([], 0), ([], 3), ([5], 0), ([5, 6, 7], 1), ([1, 2, 3, 4], 0), ([1, 2, 3, 4, 5, 6], 10)]
def avs : List Alloc := [A, failAt 0, failAt 1, failFrom 0]
def allV (f : List Nat → Nat → Alloc → Bool) : Bool := vecs.all fun p => avs.all fun a => f p.1 p.2 a
/-- did the request for `n` more elements have to fail? -/
def refused (l : List Nat) (spare n : Nat) (a : Alloc) : Bool := n > spare && (!a 0 || (max (2 * (l.length + spare)) (l.length + n)) * 4 > 500 || l.length + n > 1000)
def C31 (_ : Unit) : Bool := allV fun l sp a => [0, 1, 2, 11, 200, 2000].all fun n =>
  match tryReserve env n (st l sp a) with
  | (.ok (.ok ()), s) => !refused l sp n a && holds s.v l && l.length + n ≤ s.v.cap && s.w.aborting == 0
  | (.ok (.error _), s) => refused l sp n a && holds s.v l && s.v.cap == l.length + sp
  | _ => false
def C32 (_ : Unit) : Bool := allV fun l sp a =>
  (match tryPush env 42 (st l sp a) with
   | (.ok (.ok ()), s) => !refused l sp 1 a && holds s.v (l ++ [42]) && s.w.aborting == 0
   | (.ok (.error _), s) => refused l sp 1 a && holds s.v l && s.w.dropped == [42]
   | _ => false) &&
  (match tryPushGiveBack env 42 (st l sp a) with
   | (.ok (.ok ()), s) => !refused l sp 1 a && holds s.v (l ++ [42]) && s.w.dropped == []
   | (.ok (.error (x, _)), s) => refused l sp 1 a && x == 42 && holds s.v l && s.w.dropped == []
   | _ => false)
def C34 (_ : Unit) : Bool := allV fun l sp a => [0, 1, 2, 3, 4, 7].all fun i =>
  match tryInsert env i 42 (st l sp a) with
  | (.ok (.ok ()), s) => !refused l sp 1 a && i ≤ l.length && holds s.v (l.take i ++ 42 :: l.drop i)
  | (.ok (.error (x, _)), s) => refused l sp 1 a && x == 42 && holds s.v l
  | (.panic _, s) => !refused l sp 1 a && l.length < i && holds s.v l && s.w.dropped == [42]
  | _ => false
def C35 (_ : Unit) : Bool := allV fun l sp a => [[], [8, 9], [1, 2, 3, 4, 5, 6, 7, 8, 9, 10, 11, 12]].all fun o =>
  match tryAppend env (vec o 1) (st l sp a) with
  | (.ok (.ok (), o'), s) => !refused l sp o.length a && holds s.v (l ++ o) && holds o' [] && s.w.dropped == []
  | (.ok (.error _, o'), s) => refused l sp o.length a && holds s.v l && holds o' o
  | _ => false
def resized (l : List Nat) (n x : Nat) := l.take n ++ List.replicate (n - l.length) x
def C36 (_ : Unit) : Bool := allV fun l sp a => [0, 1, 2, 3, 5, 9].all fun n =>
  (match tryResize env n 42 (st l sp a) with
   | (.ok (.ok ()), s) => !refused l sp (n - l.length) a && holds s.v (resized l n 42)
   | (.ok (.error _), s) => refused l sp (n - l.length) a && holds s.v l
   | _ => false) &&
  (match tryResizeWith env n (fun i => .ok (i + 50)) (st l sp a) with
   | (.ok (.ok ()), s) => !refused l sp (n - l.length) a && holds s.v (l.take n ++ (List.range (n - l.length)).map (· + 50)) && s.w.dropped == l.drop n
   | (.ok (.error _), s) => refused l sp (n - l.length) a && holds s.v l
   | _ => false)
/-- clones that ask the allocator; the value 13 refuses -/
def cl : Vec.Cloner Nat := fun x a => if x == 13 then (.ok (.error .allocError), a) else if x == 666 then (.error "boom", a) else if a 0 then (.ok (.ok x), fun n => a (n + 1)) else (.ok (.error .allocError), fun n => a (n + 1))
def C37 (_ : Unit) : Bool := allV fun l sp a => [0, 1, 2, 3, 5, 9].all fun n => [42, 13].all fun x =>
  match tryResizeNoCopy env cl n x (st l sp a) with
  | (.ok (.ok ()), s) => holds s.v (resized l n x) && s.w.cloned == List.replicate (n - l.length - 1) x && s.w.dropped == (if n ≤ l.length then (l.drop n).reverse ++ [x] else [])
      && s.w.aborting == 0
  | (.ok (.error _), s) => l.length < n && s.w.dropped == [x] && (match ex (Except.toOption (.ok () : Except Unit Unit) |>.elim .ub fun _ => .ok s.v.len) with
      | some k => k < n && holds s.v (l ++ List.replicate (k - l.length) x)
      | none => false) && (!refused l sp (n - l.length) a || holds s.v l)
  | _ => false
def C38 (_ : Unit) : Bool := allV fun l sp a => [[], [8], [8, 9, 13, 10], [1, 2, 3, 4, 5, 6, 7]].all fun xs =>
  (match tryExtendFromSlice env xs (st l sp a) with
   | (.ok (.ok ()), s) => !refused l sp xs.length a && holds s.v (l ++ xs) && s.w.aborting == 0
   | (.ok (.error _), s) => refused l sp xs.length a && holds s.v l
   | _ => false) &&
  (match tryExtendFromSliceNoCopy env cl xs (st l sp a) with
   | (.ok (.ok ()), s) => !refused l sp xs.length a && holds s.v (l ++ xs) && s.w.aborting == 0 && s.w.cloned == xs
   | (.ok (.error _), s) => if refused l sp xs.length a then holds s.v l else s.v.len < l.length + xs.length && holds s.v (l ++ xs.take (s.v.len - l.length))
   | _ => false)
def C33 (_ : Unit) : Bool := allV fun l sp a => ([.reserve 5, .push 3, .pushGiveBack 4, .insert 1 4, .append (vec [8, 9, 10] 0), .resize 7 1, .resizeWith 8 (fun i => .ok i),
    .resizeNoCopy cl 9 4, .extendFromSlice [1, 2, 3], .extendFromSliceNoCopy cl [1, 2, 3, 4, 5, 6, 7]] : List (Call Nat)).all fun c => ((c.run env (st l sp a)).2.w.aborting == 0)
def C39 (_ : Unit) : Bool := allV fun l sp a => ([.reserve 5, .push 3, .pushGiveBack 4, .insert 1 4, .insert 9 4, .append (vec [8, 9, 10] 0), .resize 7 1, .resizeWith 8 (fun i => .ok i), .resizeWith 8 (fun i => if i == 1 then .error "x" else .ok i),
    .resizeNoCopy cl 9 4, .resizeNoCopy cl 1 4, .resizeNoCopy cl 9 13, .resizeNoCopy cl 9 666, .extendFromSlice [1, 2, 3], .extendFromSliceNoCopy cl [1, 2, 3, 4, 5, 6, 7], .extendFromSliceNoCopy cl [1, 666]] : List (Call Nat)).all fun c =>
      let r := c.run env (st l sp a)
      !isUb r.1 && holds r.2.v r.2.v.items && r.2.v.items.length == r.2.v.len &&
      -- nothing lost, nothing twice: owned before + given + made = owned after + dropped + given back
      (match c with
       | .resize .. | .extendFromSlice .. => true
       | _ => (r.2.v.items ++ r.2.w.dropped ++ back r.1).isPerm (l ++ c.given ++ r.2.w.made))
def C54 (_ : Unit) : Bool := match tryResizeNoCopy env cl 1 4 (st [1, 2, 901, 3] 0) with
  | (.panic _, s) => isUb (dropVec env s).1
  | _ => false
def built (r : Exec (Res (RawVec Nat)) × World Nat) (want : List Nat) (err : Bool) : Bool := match r with
  | (.ok (.ok v), w) => !err && holds v want && w.aborting == 0 && w.dropped == []
  | (.ok (.error _), w) => err && w.aborting == 0 && w.dropped.isPerm w.made
  | _ => false
def C40 (_ : Unit) : Bool := [[], [1], [1, 2, 3, 4, 5]].all fun xs =>
  built (tryCloneSlice env cl xs (w0 A)) xs false && (xs.isEmpty || built (tryCloneSlice env cl xs (w0 (failFrom 0))) xs true) && (xs.length < 2 || built (tryCloneSlice env cl xs (w0 (failAt 2))) xs true) &&
  built (Vec.concat env cl [xs, [7], xs] (w0 A)) (xs ++ [7] ++ xs) false && built (Vec.concat env cl [xs, [7], xs] (w0 (failAt 0))) [] true && built (Vec.concat env cl [xs, [13], xs] (w0 A)) [] true
def C41 (_ : Unit) : Bool := [[], [1], [1, 2, 3, 4, 5]].all fun xs =>
  (match tryFromIterator env xs (w0 A) with
   | (.ok (.ok v, rest), w) => holds v xs && rest == [] && w.dropped == []
   | _ => false) &&
  (xs.isEmpty || match tryFromIterator env xs (w0 (failFrom 0)) with
   | (.ok (.error _, rest), w) => rest == xs.tail && w.dropped == [1]
   | _ => false) &&
  (xs.length < 3 || match tryFromIterator env xs (w0 (failAt 2)) with
   | (.ok (.error _, rest), w) => rest == [4, 5] && w.dropped == [3, 1, 2]
   | _ => false)
def C42 (_ : Unit) : Bool := [0, 1, 2, 5].all fun n =>
  (match tryFromElem env cl 42 n (w0 A) with
   | (.ok (.ok v), w) => holds v (List.replicate n 42) && w.cloned == List.replicate (n - 1) 42
   | _ => false) &&
  (n == 0 || built (tryFromElemU8 env 42 n (w0 (failFrom 0))) [] true) && built (tryFromElemU8 env 42 n (w0 A)) (List.replicate n 42) false

/-! the rest -/
open Verif.Misc
def env8 : Vec.Env UInt8 := ⟨1000, 1, fun c r => max (2 * c) r, fun _ r => r, fun _ => false, true⟩
def w8 (a : Alloc) : World UInt8 := ⟨a, 0, [], [], []⟩
def bytes (n : Nat) : List UInt8 := (List.range n).map fun i => UInt8.ofNat i
def src (chunks : List (Option Nat)) : Src := ⟨chunks.map fun c m => match c with | some c => .data (bytes (min c m)) | none => .interrupted, [], false⟩
def vec8 (l : List UInt8) (spare : Nat) : RawVec UInt8 := ⟨l.length + spare, l.length, fun i => l[i]?⟩
def holds8 (v : RawVec UInt8) (l : List UInt8) : Bool := v.len == l.length && l.length ≤ v.cap && (List.range 250).all (fun i => v.mem i == l[i]?)
def C43 (_ : Unit) : Bool := [0, 1, 10, 31, 32, 33, 100].all fun limit => [[], [some 5], [some 100], [some 7, none, some 3, some 40, some 60], [none, some 32, some 1, some 0, some 5]].all fun ch => [0, 5, 40].all fun spare => [A, failAt 0, failAt 1].all fun a =>
  match tryReadUpTo env8 (fun _ => 16) limit ⟨⟨[], src ch⟩, ⟨vec8 (bytes 3) spare, w8 a⟩⟩ with
  | (.ok (.ok n), s) => n ≤ limit && holds8 s.s.v (bytes 3 ++ s.take.src.pulled) && s.take.src.pulled.length == n && (n == limit || s.take.src.eof) && s.s.w.aborting == 0
  | (.ok (.error _), s) => holds8 s.s.v (bytes 3) && s.take.src.pulled == [] && limit > spare && !a 0
  | _ => false
def C44 (_ : Unit) : Bool := [0, 1, 5, 20].all fun n => [0, 3, 10].all fun spare => [A, failAt 0].all fun a =>
  match write env8 (bytes n) ⟨vec8 (bytes 3) spare, w8 a⟩ with
  | (.ok (.ok k), s) => k == n && holds8 s.v (bytes 3 ++ bytes n) && (n ≤ spare || a 0)
  | (.ok (.error _), s) => holds8 s.v (bytes 3) && n > spare && !a 0
  | _ => false
def C45 (_ : Unit) : Bool := [0, 1, 8, 20].all fun cap => [[], [.text (bytes 3), .text (bytes 4)], [.text (bytes 9)]].all fun (ps : List Piece) => [A, failAt 0].all fun a =>
  let txt := ps.flatMap fun p => match p with | .text b => b | _ => []
  match tryFormat env8 cap ps (w8 a) with
  | (.ok (.ok v), w) => holds8 v txt && (txt.length > cap || w.aborting == 0) && (cap == 0 || a 0)
  | (.ok (.error _), w) => cap > 0 && !a 0 && w.aborting == 0
  | (.panic _, w) => txt.length > cap && w.aborting > 0
  | _ => false
def C46 (_ : Unit) : Bool := [A, failAt 0, failFrom 0].all fun a =>
  (match boxTryNew env 42 (w0 a) with
   | (.ok (.ok b), w) => b.slots == 1 && b.content == 42 && a 0 && w.aborting == 0 && w.dropped == []
   | (.ok (.error _), w) => !a 0 && w.dropped == [42] && w.aborting == 0
   | _ => false) &&
  (match boxTryClone env cl ⟨1, 42⟩ (w0 (fun i => if i == 0 then true else a (i - 1))) with
   | (.ok (.ok b), w) => b.content == 42 && w.cloned == [42] && w.aborting == 0
   | (.ok (.error _), w) => !a 0 && w.dropped == [42] && w.aborting == 0
   | _ => false)
def C47 (_ : Unit) : Bool := (match rcTryNew env 8 42 (w0 A) with
   | (.ok (.ok c), w) => c.count == 1 && c.content == 42 && w.aborting == 1
   | _ => false) && isPanic (rcTryNew env 8 42 (w0 (failAt 1))).1 &&
  (match rcTryNew env 8 42 (w0 (failAt 0)) with
   | (.ok (.error _), w) => w.dropped == [42]
   | _ => false) && (match arcTryNewUnstable env 42 (w0 (failAt 0)) with
   | (.ok (.error _), w) => w.dropped == [42] && w.aborting == 0
   | _ => false) && (match arcTryNewUnstable env 42 (w0 A) with
   | (.ok (.ok c), w) => c.count == 1 && c.content == 42 && w.aborting == 0
   | _ => false) && (match arcTryClone 100 1 [⟨1, 5⟩, ⟨2, 6⟩] with
   | (.ok (.ok 1), h) => h == [⟨1, (5 : Nat)⟩, ⟨3, 6⟩]
   | _ => false)
def henv : HEnv Nat Nat Nat := ⟨100, fun n => n + 3, 0, fun s l _ => (s + 1, l.reverse), fun s l x => (s, x :: l, true), fun s _ i => (s, i % 2 == 0), ⟨1000, 1024, fun c r => max (2 * c) r, fun _ r => r, fun _ => false, true⟩⟩
def hw (a : Alloc) : HWorld Nat Nat := ⟨a, 0, [], []⟩
def hitems (m : HMap Nat Nat Nat) : List (Nat × Nat) := m.items
def hmaps : List (HMap Nat Nat Nat) := [⟨[], 0, 0, 0⟩, ⟨[(1, 10)], 0, 1, 0⟩, ⟨[(1, 10), (2, 20), (3, 30)], 1, 9, 0⟩, ⟨[(1, 10), (2, 20), (3, 30)], 0, 9, 0⟩, ⟨[(4, 1), (5, 2)], 5, 7, 0⟩]
def C48 (_ : Unit) : Bool := hmaps.all fun m => [A, failAt 0].all fun a => [1, 2, 5, 9].all fun k =>
  (match tryHashInsert henv k 77 ⟨m, hw a⟩ with
   | (.ok (.ok old), s) => old == m.items.lookup k && tryHashGet id k s.m == some 77 && s.w.aborting == 0 && tryHashLen s.m == (if old.isSome then m.items.length else m.items.length + 1) &&
      ([1, 2, 3, 4, 5, 6, 9].all fun q => q == k || tryHashGet id q s.m == m.items.lookup q) && s.w.droppedV == [] && s.w.droppedK == (if old.isSome then [k] else [])
   | (.ok (.error _), s) => s.m.items == m.items && s.w.droppedK == [k] && s.w.droppedV == [77] && s.w.aborting == 0 && !a 0
   | _ => false) &&
  (match tryHashRemove henv id k ⟨m, hw a⟩ with
   | (.ok r, s) => r == m.items.lookup k && tryHashGet id k s.m == none && ([1, 2, 3, 4, 5, 6, 9].all fun q => q == k || tryHashGet id q s.m == m.items.lookup q)
   | _ => false)
def C49 (_ : Unit) : Bool := hmaps.all fun m => [A, failAt 0, failAt 1, failAt 3].all fun a =>
  match tryHashClone henv cl cl m (hw a) with
  | (.ok (.ok c), w) => c.items.isPerm m.items && w.aborting == 0
  | (.ok (.error _), w) => w.aborting == 0
  | _ => false
def C50 (_ : Unit) : Bool :=
  (ex (optClone (primClone Nat) (some 3) A) |>.map (·.1.toOption)) == some (some (some 3)) && (ex (optClone (primClone Nat) none A) |>.map (·.1.toOption)) == some (some none) &&
  (ex (vecClone env (primClone Nat) [1, 2, 3] A) |>.map (·.1.toOption)) == some (some [1, 2, 3]) && (ex (boxClone env (primClone Nat) 3 A) |>.map (·.1.toOption)) == some (some 3)

/-! C56 to C62 -/
def vacts (seed n : Nat) : List (ViewAct Nat) := (List.range n).map fun j =>
  let r := rnd 3 (seed + 31 * j) 64
  let x := r.getD 0 0; let i := r.getD 1 0 % 6; let z := r.getD 2 0
  match x % 12 with
  | 0 => .start .iter
  | 1 => .start .keys
  | 2 => .start .values
  | 3 => .start (.range (bounds.getD (z % 14) .unbounded) (bounds.getD (z / 4 % 14) .unbounded))
  | 4 => .start (.setRange (bounds.getD (z % 14) .unbounded) (bounds.getD (z / 4 % 14) .unbounded))
  | 5 => .clone i
  | 6 => .hint i
  | 7 => .debug i
  | _ => .ask i (if z % 2 == 0 then .front else .back)
def C56 (_ : Unit) : Bool := allG samples fun s => [1, 5, 9].all fun seed =>
  let as := ViewAct.start .iter :: .start .keys :: .start .values :: .start (.range (.excluded 4) (.included 60)) :: .start (.setRange (.included 3) .unbounded) :: vacts seed 120
  match ViewAct.runs s.m bor as [] with
  | .ok xs => xs == ViewAct.specs bor s.l as []
  | _ => false
def aacts (seed n : Nat) : List AlgAct := [.start .difference, .start .symmetricDifference, .start .intersection, .start .union] ++ (List.range n).map fun j =>
  let r := rnd 2 (seed + 31 * j) 64
  let x := r.getD 0 0; let i := r.getD 1 0 % 7
  match x % 8 with
  | 0 => .clone i
  | 1 => .hint i
  | 2 => .debug i
  | _ => .next i
def aright (outs : AlgKind → List Ke) : List AlgAct → List (List Ke) → List (AlgSeen Ke) → Bool
  | [], _, os => os.isEmpty
  | a :: as, p, o :: os =>
    match a with
    | .start k => o == .opened && aright outs as (p ++ [outs k]) os
    | .clone i => match p[i]? with
      | none => o == .skipped && aright outs as p os
      | some l => o == .opened && aright outs as (p ++ [l]) os
    | .next i => match p[i]? with
      | none => o == .skipped && aright outs as p os
      | some l => o == .item l.head? && aright outs as (p.set i l.tail) os
    | .hint i => match p[i]? with
      | none => o == .skipped && aright outs as p os
      | some l => (match o with
        | .hint (lo, some hi) => decide (lo ≤ l.length) && decide (l.length ≤ hi)
        | .hint (lo, none) => decide (lo ≤ l.length)
        | _ => false) && aright outs as p os
    | .debug i => match p[i]? with
      | none => o == .skipped && aright outs as p os
      | some l => (match o with
        | .printed fs => l.all fun x => fs.any fun f => f.items.contains x
        | _ => false) && aright outs as p os
  | _, _, [] => false
def C57 (_ : Unit) : Bool := pairs fun a b => [2, 11].all fun seed =>
  let l := elems a 0; let r := elems b 1
  let outs : AlgKind → List Ke := fun
    | .difference => sdiff l r
    | .symmetricDifference => ssym l r
    | .intersection => sinter l r
    | .union => sunion l r
  match AlgAct.runs (setOf a 0) (setOf b 1) (aacts seed 80) [] with
  | .ok xs => aright outs (aacts seed 80) [] xs
  | _ => false
open Verif.Heap.Bytes in
def C58 (_ : Unit) : Bool :=
  let tys : List Verif.Heap.Bytes.Ty := [⟨0, 1⟩, ⟨1, 1⟩, ⟨2, 2⟩, ⟨6, 2⟩, ⟨4, 4⟩, ⟨8, 8⟩, ⟨24, 8⟩, ⟨16, 16⟩, ⟨0, 16⟩, ⟨32, 32⟩, ⟨64, 64⟩, ⟨3, 1⟩]
  [4, 8].all fun p => tys.all fun k => tys.all fun v =>
    let fields (l : Lay) (fs : List Verif.Heap.Bytes.Ty) : Bool :=
      l.offsets.length == fs.length && ((l.offsets.zip fs).all fun x => x.1 % x.2.align == 0 && x.1 + x.2.size ≤ l.size && l.align % x.2.align == 0) &&
      (((l.offsets.zip fs).zip ((l.offsets.zip fs).drop 1)).all fun y => y.1.1 + y.1.2.size ≤ y.2.1) && l.size % l.align == 0
    let lf := leaf p k v
    fields lf [⟨p, p⟩, ⟨2, 2⟩, ⟨2, 2⟩, ⟨k.size * 11, k.align⟩, ⟨v.size * 11, v.align⟩] &&
    fields (internal p k v) [⟨lf.size, lf.align⟩, ⟨p * 12, p⟩] &&
    ([true, false].all fun sh => [0, 3, 11].all fun n =>
      match intoKeySlice p k sh n with
      | .ok s => !(!sh && k.align > 2 * p) && s == intoKeySliceMut p k v sh n &&
          (match s with
           | .empty => sh
           | .at o len => (sh || o == lf.offsets.getD 3 0) && len == n && o % k.align == 0 && (!sh || (o ≤ (header p unitTy).size && (header p unitTy).align % k.align == 0)))
      | .panic _ => !sh && k.align > 2 * p
      | .ub => false)
/-- requests made, when the schedule was `i < n` -/
def used (n : Nat) (a : Alloc) : Nat := n - ((List.range (n + 1)).find? fun i => !a i).getD n
def C59 (_ : Unit) : Bool := allG samples fun s => [0, 1, 2, 3, 50].all fun n =>
  let a := failFrom n
  let lim := if s.m.shared then 1 else s.m.height + 2
  ([1, 13, 57, 131, 401].all fun q =>
    (match s.m.tryInsert ⟨q, 0⟩ 5 a with
     | .ok (r, m, a') => used n a' ≤ lim && (match r with
        | .ok _ => m.nodes == s.m.nodes + used n a'
        | .error _ => used n a' == n && n < lim)
     | _ => false) &&
    (match s.m.tryEntry ⟨q, 0⟩ a with
     | .ok (r, _, a') => used n a' == (if s.m.shared && n > 0 then 1 else 0) && (match r with | .ok _ => true | .error _ => s.m.shared && n == 0)
     | _ => false) &&
    (match s.m.splitOff bor q a with
     | .ok (.ok _, _, a') => used n a' == (if s.l.isEmpty then 0 else s.m.height + 1)
     | .ok (.error _, _, a') => used n a' == n && n < s.m.height + 1
     | _ => false)) &&
  (match s.m.tryClone (fun k a => (.ok k, a)) (fun v a => (.ok v, a)) (failFrom 200) with
   | .ok (.ok c, a') => used 200 a' == c.nodes && c.nodes ≤ s.m.nodes
   | _ => false) &&
  (allG (tagged.take 3) fun o => match s.m.append o.m (failFrom 300) with
   | .ok (m, _, a') => used 300 a' == (if s.l.isEmpty || o.l.isEmpty then 0 else m.nodes)
   | _ => false)
def C60 (_ : Unit) : Bool := allG samples fun s => 4 * s.m.nodes ≤ s.m.len + 4 && s.m.len ≤ 11 * s.m.nodes &&
  ([1, 13, 57].all fun q => match s.m.splitOff bor q A with
    | .ok (.ok r, m, _) => 4 * m.nodes ≤ m.len + 4 && 4 * r.nodes ≤ r.len + 4
    | _ => false) &&
  (allG tagged fun o => match s.m.append o.m A with
   | .ok (m, _, _) => 4 * m.nodes ≤ m.len + 4 && m.len ≤ 11 * m.nodes
   | _ => false)
def fuels : List Nat := [0, 1, 2, 3, 5, 8, 11, 12, 13, 20, 33, 60, 150, 1000]
def C61 (_ : Unit) : Bool := allG [.new, asc 5, asc 12, desc 30, ran 90 11, delAll (desc 40) ((List.range 20).reverse.map (4 * ·))] fun s => fuels.all fun f =>
  ((probes s).take 20 |>.all fun q =>
    (match s.m.tryInsertP ⟨q, 7⟩ 99 A f, s.m.tryInsert ⟨q, 7⟩ 99 A with
     | .ok (.unwound m .cmp), _ => okMap m s.l && f < 150
     | .ok (.done ((.ok old, m, _), _)), .ok (.ok old', m', _) => old == old' && items m == items m' && m.len == m'.len
     | _, _ => false) &&
    (match s.m.removeEntryP bor q f, s.m.removeEntry bor q with
     | .ok (.unwound m .cmp), _ => okMap m s.l && f < 150
     | .ok (.done ((old, m), _)), .ok (old', m') => old == old' && items m == items m' && m.len == m'.len
     | _, _ => false)) &&
  (allG tagged fun o =>
    (match s.m.extendP o.l A f with
     | .ok (.unwound m .cmp) => (List.range o.l.length).any fun i => okMap m ((o.l.take i).foldl (fun acc kv => Spec.insert kv.1 kv.2 acc) s.l)
     | .ok (.done ((m, _), _)) => okMap m (o.l.foldl (fun acc kv => Spec.insert kv.1 kv.2 acc) s.l)
     | _ => false) &&
    ([A, failFrom 1, failFrom 2, failFrom 4, failAt 5].all fun a => match s.m.appendP o.m a f with
     | .ok (.unwound (m, o') w) => okMap m ((unionL s.l o.l).take m.len) && okMap o' [] && (w == .mem || m.len == f) && (w == .cmp || !((List.range 20).all fun i => a i)) &&
        (match m.tryInsert ⟨777, 1⟩ 3 A with
         | .ok (.ok _, m', _) => okMap m' (Spec.insert ⟨777, 1⟩ 3 ((unionL s.l o.l).take m.len))
         | _ => false)
     | .ok (.done ((m, o', _), _)) => okMap m (unionL s.l o.l) && okMap o' []
     | _ => false))
def seen (m : M) : L := match m.range bor .unbounded .unbounded with
  | .ok r => match Range.run m (List.replicate (m.len + 2) .front) r with
    | .ok (xs, _) => xs.filterMap id
    | _ => []
  | _ => []
def C62 (_ : Unit) : Bool := allG [.new, asc 12, desc 30, ran 90 11, delAll (desc 40) ((List.range 20).reverse.map (4 * ·)), asc 130] fun s => fuels.all fun f => (probes s).all fun q =>
  match s.m.splitOffP bor q A f, s.m.splitOff bor q A with
  | .ok (.unwound m .cmp), _ => m.len == s.m.len && f < 150 && (seen m == s.l.take (seen m).length) &&
      (if (seen m).length == s.l.length then items m == some s.l else isUb m.toListE)
  | .ok (.done ((.ok r, m, _), _)), .ok (.ok r', m', _) => items m == items m' && items r == items r' && m.len == m'.len && r.len == r'.len
  | _, _ => false

/-- `Some x` answers in order, and how many calls panicked. -/
def C71 (_ : Unit) : Bool := pairs fun a b => [2, 11].all fun seed => [AlgKind.difference, .symmetricDifference, .intersection, .union].all fun k =>
  let l := elems a 0; let r := elems b 1
  let out : List Ke := match k with
    | .difference => sdiff l r
    | .symmetricDifference => ssym l r
    | .intersection => sinter l r
    | .union => sunion l r
  let cs := (rnd (out.length + 12) seed 9).map fun n => if n < 3 then n else if n < 5 then 12 else 1000
  match (setOf a 0).algView (setOf b 1) k with
  | .ok v => match v.callsP (cs ++ List.replicate (out.length + 1) 100000) with
    | .ok (xs, _) =>
      let got := xs.filterMap id
      let some' := got.filterMap id
      let panics := xs.countP Option.isNone
      some'.isSublist out && got.drop some'.length == List.replicate (got.length - some'.length) none && got.length > some'.length &&
      out.length ≤ some'.length + (if k == .difference || k == .intersection then panics else 0)
    | _ => false
  | _ => false

partial def flat (t : Tree Ke Nat) : L :=
  if t.edges.isEmpty then t.kvs else (t.edges.zipIdx.map fun (c, i) => flat c ++ (t.kvs[i]?).toList).flatten
def Gone.all (g : Gone Ke Nat) : Option L := match g.half with
  | none => some [g.pair]
  | some (h, t) => some (g.pair :: flat t)
/-- After a failed insertion one stretch of the entries of a success is missing, the one `insertGone` names. -/
def C84 (_ : Unit) : Bool := allG [.new, asc 11, asc 12, desc 30, asc 83, ran 90 11, asc 130] fun s => (probes s).all fun q => [0, 1, 2, 3].all fun n =>
  match s.m.tryInsert ⟨q, 7⟩ 99 (failFrom n) with
  | .ok (.ok _, _, _) => (s.m.insertGone ⟨q, 7⟩ 99 (failFrom n)).isNone
  | .ok (.error _, m, _) =>
    match s.m.insertGone ⟨q, 7⟩ 99 (failFrom n) with
    | none => false
    | some g =>
      let lost := (Gone.all g).getD []
      let full := Spec.insert ⟨q, 7⟩ 99 s.l
      (lost == [(⟨q, 7⟩, 99)] || 5 ≤ lost.length) &&
      (List.range (full.length + 1)).any fun i => full.take i ++ full.drop (i + lost.length) == seen m && (full.drop i).take lost.length == lost
  | _ => false

/-- No more comparisons than the sizes allow, and the same answers. -/
def C85 (_ : Unit) : Bool := pairs fun a b => [AlgKind.difference, .symmetricDifference, .intersection, .union].all fun k =>
  let s := setOf a 0; let o := setOf b 1
  let n := (elems a 0).length; let m := (elems b 1).length
  (match s.algView o k with
   | .ok v => [0, 1, 3, n + m + 2].all fun calls => match v.runP calls (k.cost n m), runN AlgView.next calls v with
     | .ok (some ((xs, _), _)), .ok (ys, _) => xs == ys
     | _, _ => false
   | _ => false) &&
  (match s.opP o k id A (k.opCost n m), s.op o k id A with
   | .ok (some ((t, _), _)), .ok (t', _) => (ex t.items == ex t'.items)
   | _, _ => false) &&
  (match s.isSubsetP o (subsetCost n m), s.isSubset o with
   | .ok (some (x, _)), .ok y => x == y
   | _, _ => false) &&
  (match s.isSupersetP o (subsetCost m n), s.isSuperset o with
   | .ok (some (x, _)), .ok y => x == y
   | _, _ => false) &&
  (match s.isDisjointP o (disjointCost n m), s.isDisjoint o with
   | .ok (some (x, _)), .ok y => x == y
   | _, _ => false)

def checks : List (String × (Unit → Bool)) := [
  ("C01", C01), ("C02", C02), ("C03", C03), ("C04", C04), ("C05", C05), ("C06", C06), ("C07", C07), ("C08", C08),
  ("C09", C09), ("C10", C10), ("C11", C11), ("C12", C12), ("C13", C13), ("C14", C14), ("C15", C15), ("C16", C16),
  ("C17", C17), ("C18", C18), ("C19", C19), ("C20", C20), ("C21", C21), ("C22", C22), ("C23", C23), ("C24", C24), ("C25", C25),
  ("C26", C26), ("C27", C27), ("C28", C28), ("C29", C29), ("C30", C30), ("C55", C55),
  ("C31", C31), ("C32", C32), ("C33", C33), ("C34", C34), ("C35", C35), ("C36", C36), ("C37", C37), ("C38", C38), ("C39", C39), ("C54", C54),
  ("C40", C40), ("C41", C41), ("C42", C42), ("C43", C43), ("C44", C44), ("C45", C45), ("C46", C46), ("C47", C47), ("C48", C48), ("C49", C49), ("C50", C50),
  ("C56", C56), ("C57", C57), ("C58", C58), ("C59", C59), ("C60", C60), ("C61", C61), ("C62", C62), ("C71", C71), ("C84", C84), ("C85", C85)]
end Battery

def main (args : List String) : IO Unit := do
  for (n, f) in Battery.checks do
    if args.isEmpty || args.contains n then
      let t0 ← IO.monoMsNow
      let b := f ()
      IO.print s!"{n} {b}"
      let t1 ← IO.monoMsNow
      IO.println s!" {t1 - t0}ms"
