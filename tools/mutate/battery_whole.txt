import Verif.Heap.WholeSets
/-
Executable conformance checks of programs that use the whole API of maps (C86) and sets (C87) in turns, against lists.  See battery.txt.
-/
open Verif Verif.Heap Verif.Spec

namespace WBattery

def start {V : Type} (al : Nat → Bool) : Heap Nat V := Heap.mk (fun _ => none) 1 al (fun _ => 0)
def live {V : Type} (s : Heap Nat V) : Nat := (List.range s.next).countP fun a => (s.cells a).isSome

def orders (V : Type) (eqv : V → V → Bool) (c : V → V → Ordering) (h : V → Nat) : Orders Nat V Nat where
  eqK := (· == ·)
  eqV := eqv
  partialK a b := some (compare a b)
  partialV a b := some (c a b)
  cmpK a b := compare a b
  cmpV := c
  feed s e := (31 * s + 7 * e.1 + h e.2) % 1000003
  init := 5

def numO : Orders Nat Nat Nat := orders Nat (· == ·) compare id
def unitO : Orders Nat Unit Nat := orders Unit (fun _ _ => true) (fun _ _ => .eq) (fun _ => 0)

deriving instance Repr for Told
deriving instance Repr for SetTold
deriving instance Repr for Out
deriving instance Repr for Ans
deriving instance Repr for SetAns

def lexCmp {V : Type} (c : V → V → Ordering) : List (Nat × V) → List (Nat × V) → Ordering
  | [], [] => .eq
  | [], _ :: _ => .lt
  | _ :: _, [] => .gt
  | a :: l, b :: r => match compare a.1 b.1 with
    | .eq => match c a.2 b.2 with
      | .eq => lexCmp c l r
      | o => o
    | o => o

def askRef {V : Type} (f : Orders Nat V Nat) (ls : List (List (Nat × V))) : Ask Nat → Told Nat V Nat
  | .eq i j => match ls[i]?, ls[j]? with
    | some l, some r => .bool (l.length == r.length && (l.zip r).all fun (a, b) => f.eqK a.1 b.1 && f.eqV a.2 b.2)
    | _, _ => .skipped
  | .partialCmp i j => match ls[i]?, ls[j]? with
    | some l, some r => .part (some (lexCmp f.cmpV l r))
    | _, _ => .skipped
  | .cmp i j => match ls[i]?, ls[j]? with
    | some l, some r => .ord (lexCmp f.cmpV l r)
    | _, _ => .skipped
  | .hash i => match ls[i]? with
    | some l => .state (l.foldl f.feed f.init)
    | _ => .skipped
  | .debug i => match ls[i]? with
    | some l => .entries l
    | _ => .skipped
  | .index i q => match ls[i]? with
    | some l => .value ((l.find? fun e => e.1 == q).map (·.2))
    | _ => .skipped

def placeOf {V : Type} (k : Nat) (l : List (Nat × V)) : Place Nat V := ⟨l.filter (·.1 < k), l.find? (·.1 == k), l.filter (k < ·.1)⟩

def actRef {V : Type} (f : Orders Nat V Nat) (ls : List (List (Nat × V))) : Act Nat V Nat → Ans Nat V Nat × List (List (Nat × V))
  | .op o => let r := o.spec id ls; (.out r.1, r.2)
  | .ask q => (.told (askRef f ls q), ls)
  | .iterMut i as => match ls[i]? with
    | none => (.skipped, ls)
    | some l => let r := Cursor.looks .iter ⟨l, 0, l.length, []⟩ as; (.looked r.1, ls.set i r.2)
  | .valuesMut i as => match ls[i]? with
    | none => (.skipped, ls)
    | some l => let r := Cursor.looks .values ⟨l, 0, l.length, []⟩ as; (.looked r.1, ls.set i r.2)
  | .rangeMut i lo hi as => match ls[i]? with
    | none => (.skipped, ls)
    | some l =>
      let lt : Nat → Bool := fun k => match lo with | .included x => k < x | .excluded x => k ≤ x | .unbounded => false
      let gt : Nat → Bool := fun k => match hi with | .included x => x < k | .excluded x => x ≤ k | .unbounded => false
      if badRange lo hi then (.panicked, ls)
      else
        let r := Cursor.looks .range ⟨l, (l.filter fun e => lt e.1).length, l.length - (l.filter fun e => gt e.1).length, []⟩ as
        (.looked r.1, ls.set i r.2)
  | .entry i k as fin => match ls[i]? with
    | none => (.skipped, ls)
    | some l => let r := fin.specs k as (placeOf k l); (.used r.1, ls.set i r.2)

def rnd (s : Nat) : Nat := (s * 1103515245 + 12345) % 2147483648

def bound (s k : Nat) : Bound Nat := match s / 7 % 3 with
  | 0 => .included k
  | 1 => .excluded k
  | _ => .unbounded

def looksOf : Nat → Nat → List (MutLook Nat)
  | 0, _ => []
  | n + 1, s => (match s / 64 % 6 with
      | 0 | 1 => .act (.take .front)
      | 2 => .act (.take .back)
      | 3 => .act (.write (s / 1024 % 4) (· + s % 50))
      | 4 => .hint
      | _ => .debug) :: looksOf n (rnd s)

def entryLooks : Nat → Nat → List (EntryLook Nat)
  | 0, _ => []
  | n + 1, s => (match s / 64 % 8 with
      | 0 => .key
      | 1 => .get
      | 2 => .debug
      | 3 => .modify (· + 3) false
      | 4 => .modify (· + 4) (s / 4096 % 4 == 0)
      | 5 => .write (· * 2)
      | _ => .insert (s % 77)) :: entryLooks n (rnd s)

def endOf (s : Nat) : EntryEnd Nat := match s / 64 % 12 with
  | 0 => .leave
  | 1 => .remove
  | 2 => .removeEntry
  | 3 => .intoMut (· + 1)
  | 4 => .intoKey
  | 5 => .insert (s % 50) (· + 2)
  | 6 | 7 => .orInsert (s % 50) (· + 3)
  | 8 => .orInsertWith (some (s % 50)) (· + 4)
  | 9 => .orInsertWith none (· + 4)
  | _ => .orDefault (some 0) (· + 9)

def genAct : Nat → Nat → List (Act Nat Nat Nat)
  | 0, _ => []
  | n + 1, s =>
    let s1 := rnd s
    let k := s1 / 128 % 61
    let i := s1 / 16384 % 3
    let j := s1 / 65536 % 4
    (match s1 / 262144 % 19 with
      | 0 => .iterMut i (looksOf 12 s1)
      | 1 => .valuesMut i (looksOf 12 s1)
      | 2 | 3 => .rangeMut i (bound s1 (k / 2)) (bound (s1 / 5) k) (looksOf 14 s1)
      | 4 => .rangeMut i (bound s1 k) (bound (s1 / 5) (k / 2)) (looksOf 5 s1)
      | 5 | 6 | 7 | 8 => .entry j k (entryLooks (s1 / 32 % 4) s1) (endOf s1)
      | 9 => .ask (.eq i j)
      | 10 => .ask (.cmp i j)
      | 11 => .ask (.partialCmp j i)
      | 12 => .ask (.hash i)
      | 13 => .ask (if s1 / 7 % 2 == 0 then .debug j else .index j k)
      | 14 => .op (.remove i k)
      | 15 => .op (.extend i ((List.range 9).map fun x => ((x * k) % 61, x)))
      | 16 => if s1 / 7 % 4 == 0 then .op (.splitOff i k) else .op (.get i k)
      | 17 => if s1 / 7 % 4 == 0 then .op (.append i j) else .op (.len i)
      | _ => if s1 / 7 % 6 == 0 then .op (.clone i) else .op (.insert i k s1)) :: genAct n s1

def refs {A X L : Type} (f : L → A → X × L) : List A → L → List X × L
  | [], l => ([], l)
  | a :: as, l => let r := f l a; let rs := refs f as r.2; (r.1 :: rs.1, rs.2)

def c86 (acts : List (Act Nat Nat Nat)) : Bool :=
  let w := refs (actRef numO) acts []
  match Act.hprog numO id acts [] (start fun _ => true) with
  | .ok ((xs, true, p), s) => match dropAll p s with
    | .ok (ls, s') => toString (repr xs) == toString (repr w.1) && ls == w.2 && live s' == 0
    | _ => false
  | _ => false

/-- Little memory: not undefined; as many answers as there are, none of them about a failure but the last one. -/
def c86poor (acts : List (Act Nat Nat Nat)) (n : Nat) : Bool :=
  let w := refs (actRef numO) acts []
  match Act.hprog numO id acts [] (start fun i => i < n) with
  | .ok ((xs, true, p), s) => xs.length == acts.length && (match dropAll p s with | .ok (_, s') => live s' == 0 | _ => false)
  | .ok ((xs, false, _), _) =>
    let before := xs.dropLast
    (xs.getLast?.map fun x => match x with | .out .failed => true | .used ys => ys.any (· == .failed) | _ => false) == some true &&
      (before.any (fun x => match x with | .out .failed => true | _ => false) || toString (repr before) == toString (repr (w.1.take before.length)))
  | .ub => false
  | .panic _ => true

def seed : List (Act Nat Nat Nat) := [.op .new, .op .new, .op .new, .op (.extend 0 ((List.range 40).map fun x => ((x * 37) % 61, x))), .op (.extend 1 ((List.range 20).map fun x => (x, x)))]

/-! ### sets -/

def els (l : List (Nat × Unit)) : List Nat := l.map (·.1)

def outRef (l r : List Nat) : AlgKind → List Nat
  | .difference => l.filter fun x => !r.contains x
  | .symmetricDifference => ((l.filter fun x => !r.contains x) ++ (r.filter fun x => !l.contains x)).mergeSort
  | .intersection => l.filter fun x => r.contains x
  | .union => (l ++ r.filter fun x => !l.contains x).mergeSort

def algRef (l r : List Nat) : List AlgAct → List (List Nat) → List (AlgSeen Nat)
  | [], _ => []
  | .start k :: as, p => .opened :: algRef l r as (p ++ [outRef l r k])
  | .clone i :: as, p => match p[i]? with
    | none => .skipped :: algRef l r as p
    | some x => .opened :: algRef l r as (p ++ [x])
  | .next i :: as, p => match p[i]? with
    | none => .skipped :: algRef l r as p
    | some x => .item x.head? :: algRef l r as (p.set i x.tail)
  | _ :: as, p => .skipped :: algRef l r as p

def setAskRef (ls : List (List Nat)) : SetAsk → SetTold Nat
  | .algebra i j acts => match ls[i]?, ls[j]? with
    | some l, some r => .seen (algRef l r acts [])
    | _, _ => .skipped
  | .subset i j => match ls[i]?, ls[j]? with
    | some l, some r => .bool (l.all r.contains)
    | _, _ => .skipped
  | .superset i j => match ls[i]?, ls[j]? with
    | some l, some r => .bool (r.all l.contains)
    | _, _ => .skipped
  | .disjoint i j => match ls[i]?, ls[j]? with
    | some l, some r => .bool (l.all fun x => !r.contains x)
    | _, _ => .skipped
  | .debug i => match ls[i]? with
    | some l => .elements l
    | _ => .skipped

def setRef (ls : List (List (Nat × Unit))) : SetAct Nat Nat → SetAns Nat Nat × List (List (Nat × Unit))
  | .act a => let r := actRef unitO ls a; (.ans r.1, r.2)
  | .ask a => (.told (setAskRef (ls.map els) a), ls)
  | .operator i j k fk => match ls[i]?, ls[j]? with
    | some l, some r => (.made, ls ++ [((outRef (els l) (els r) k).map fk).eraseDups.mergeSort.map (·, ())])
    | _, _ => (.skipped, ls)

def kindOf (s : Nat) : AlgKind := match s % 4 with
  | 0 => .difference
  | 1 => .symmetricDifference
  | 2 => .intersection
  | _ => .union

def algs : Nat → Nat → List AlgAct
  | 0, _ => []
  | n + 1, s => (match s / 64 % 6 with
      | 0 => .start (kindOf (s / 1024))
      | 1 => .clone (s / 1024 % 3)
      | _ => .next (s / 1024 % 3)) :: algs n (rnd s)

def genSet : Nat → Nat → List (SetAct Nat Nat)
  | 0, _ => []
  | n + 1, s =>
    let s1 := rnd s
    let k := s1 / 128 % 61
    let i := s1 / 16384 % 5
    let j := s1 / 65536 % 6
    (match s1 / 524288 % 14 with
      | 0 | 1 => .operator i j (kindOf (s1 / 9)) id
      | 2 => .operator i j (kindOf (s1 / 9)) (fun x => x / 2)
      | 3 => .ask (.subset i j)
      | 4 => .ask (.superset i j)
      | 5 => .ask (.disjoint i j)
      | 6 => .ask (.debug j)
      | 7 | 8 => .ask (.algebra i j (.start (kindOf (s1 / 9)) :: algs 16 s1))
      | 9 => .act (.ask (.eq i j))
      | 10 => .act (.op (.remove i k))
      | 11 => .act (.op (.extend i ((List.range 9).map fun x => ((x * k) % 61, ()))))
      | 12 => .act (if s1 / 7 % 3 == 0 then .op (.splitOff i k) else .ask (.hash i))
      | _ => .act (if s1 / 7 % 3 == 0 then .op (.append i j) else .op (.insert i k ()))) :: genSet n s1

def c87 (acts : List (SetAct Nat Nat)) : Bool :=
  let w := refs setRef acts []
  match SetAct.hprog unitO id acts [] (start fun _ => true) with
  | .ok ((xs, true, p), s) => match dropAll p s with
    | .ok (ls, s') => toString (repr xs) == toString (repr w.1) && ls == w.2 && live s' == 0
    | _ => false
  | _ => false

def seedSet : List (SetAct Nat Nat) := [.act (.op .new), .act (.op .new), .act (.op .new), .act (.op (.extend 0 ((List.range 40).map fun x => ((x * 37) % 61, ())))),
  .act (.op (.extend 1 ((List.range 20).map fun x => (x, ())))), .act (.op (.extend 2 [(3, ()), (4, ())]))]

def c87poor (acts : List (SetAct Nat Nat)) (n : Nat) : Bool :=
  let ops := acts.any fun a => match a with | .operator .. => true | _ => false
  match SetAct.hprog unitO id acts [] (start fun i => i < n) with
  | .ok ((xs, true, p), s) => xs.length == acts.length && (match dropAll p s with | .ok (_, s') => live s' == 0 | _ => false)
  | .ok ((_, false, _), _) => true
  | .ub => ops
  | .panic _ => true

end WBattery
open WBattery
def main : IO Unit := do
  let r86 := (List.range 40).all (fun i => c86 (seed ++ genAct 150 (i * 7919 + 1))) && (List.range 30).all fun n => (List.range 4).all fun i => c86poor (seed ++ genAct 90 (i * 104729 + 3)) n
  let r87 := (List.range 40).all (fun i => c87 (seedSet ++ genSet 120 (i * 7919 + 1))) && (List.range 30).all fun n => (List.range 3).all fun i => c87poor (seedSet ++ genSet 50 (i * 104729 + 3)) n
  IO.println s!"C86 {r86}\nC87 {r87}"
