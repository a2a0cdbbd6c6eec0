import Verif.Heap.Layout
/-
Threads.  The calls of Verif/Heap/Api.lean run to their end in one step; here they are taken apart into single accesses to the memory, and the accesses of several
threads are interleaved.  What Rust's `Send` and `Sync` promise is that this does no harm: each thread has maps of its own, and all of them may read some shared ones.
-/
namespace Verif.Heap
open Verif
open Verif.Spec (Op Out)

variable {K V Q α β : Type}

/-- A computation as a sequence of accesses to the memory: looking at a node, storing into a node, allocating, freeing.  Nothing else of it is visible to other
threads.  (`Box::try_new`, `Global.deallocate`, and the dereferences of src/btree/node.rs.) -/
inductive Prog (K V α : Type) where
  | done (a : α)
  | ub
  | panic (msg : String)
  | read (a : Addr) (k : Node K V → Prog K V α)
  | write (a : Addr) (n : Node K V) (k : Prog K V α)
  | alloc (lay : Layout) (k : Option Addr → Prog K V α)
  | free (a : Addr) (lay : Layout) (k : Prog K V α)

/-- Storing something at an address. -/
def upd (c : Addr → Option (Node K V)) (a : Addr) (n : Option (Node K V)) : Addr → Option (Node K V) := fun x => if x = a then n else c x

/-- One access; `none`: undefined behaviour.  A thread that has ended, or was unwound, does nothing. -/
def Prog.step : Prog K V α → Heap K V → Option (Prog K V α × Heap K V)
  | .done a, s => some (.done a, s)
  | .panic msg, s => some (.panic msg, s)
  | .ub, _ => none
  | .read a k, s =>
    if a = SHARED then none
    else match s.cells a with
      | some n => some (k n, s)
      | none => none
  | .write a n k, s =>
    if a = SHARED then none
    else match s.cells a with
      | some _ => some (k, { s with cells := upd s.cells a (some n) })
      | none => none
  | .alloc lay k, s =>
    if s.alloc.request.1 then
      some (k (some s.spot), ⟨upd s.cells s.spot (some (Node.new lay)), s.nextAfter, s.alloc.request.2, fun n => s.place (n + 1)⟩)
    else some (k none, { s with alloc := s.alloc.request.2 })
  | .free a lay k, s =>
    if a = SHARED then none
    else match s.cells a with
      | some n => if n.lay = lay then some (k, { s with cells := upd s.cells a none }) else none
      | none => none

/-- All accesses one after the other, undisturbed. -/
def Prog.whole : Prog K V α → HM K V α
  | .done a => pure a
  | .ub => HM.ub
  | .panic msg => HM.panic msg
  | .read a k => do
    let n ← getNode a
    (k n).whole
  | .write a n k => do
    atNode a fun _ => .ok ((), n)
    k.whole
  | .alloc lay k => do
    let r ← allocNode lay
    (k r).whole
  | .free a lay k => do
    freeNode a lay
    k.whole

/-- It only looks. -/
def Prog.OnlyReads : Prog K V α → Prop
  | .read _ k => ∀ n, (k n).OnlyReads
  | .write .. | .alloc .. | .free .. => False
  | _ => True

/-- One after the other. -/
def Prog.bind : Prog K V α → (α → Prog K V β) → Prog K V β
  | .done a, f => f a
  | .ub, _ => .ub
  | .panic msg, _ => .panic msg
  | .read a k, f => .read a fun n => (k n).bind f
  | .write a n k, f => .write a n (k.bind f)
  | .alloc lay k, f => .alloc lay fun r => (k r).bind f
  | .free a lay k, f => .free a lay (k.bind f)

/-- What thread number `j` of several does when it is its turn. -/
def stepAt (ts : List (Prog K V α)) (j : Nat) (s : Heap K V) : Option (List (Prog K V α) × Heap K V) :=
  match ts[j]? with
  | none => some (ts, s)
  | some t =>
    match t.step s with
    | none => none
    | some (t', s') => some (ts.set j t', s')

/-- The threads take turns: the schedule says which of them makes the next access.  `none`: undefined behaviour. -/
def interleave : List Nat → List (Prog K V α) → Heap K V → Option (List (Prog K V α) × Heap K V)
  | [], ts, s => some (ts, s)
  | j :: js, ts, s =>
    match stepAt ts j s with
    | none => none
    | some (ts', s') => interleave js ts' s'

/-- The next access is to the node at `x`. -/
def Prog.touches : Prog K V α → Addr → Prop
  | .read a _, x | .write a _ _, x | .free a _ _, x => x = a
  | _, _ => False

/-- The next access stores into the node at `x`, or frees it. -/
def Prog.changes : Prog K V α → Addr → Prop
  | .write a _ _, x | .free a _ _, x => x = a
  | _, _ => False

/-- Run alone from `s`, `t` never stores into a node at an address in `S`, and never frees it. -/
def Prog.Spares (S : Addr → Prop) (t : Prog K V α) (s : Heap K V) : Prop :=
  ∀ n t' s', interleave (List.replicate n 0) [t] s = some ([t'], s') → ∀ a, S a → ¬ t'.changes a

/-- A call takes `&self` only. -/
def Op.shared : Op K V Q → Bool
  | .get .. | .getKeyValue .. | .containsKey .. | .len .. | .isEmpty .. | .iterate .. | .range .. | .views .. => true
  | _ => false

/-- A call takes `&self` and makes a new map. -/
def Op.copies : Op K V Q → Bool
  | .clone .. | .tryClone .. => true
  | _ => false

/-- A call of a thread: on one of the maps shared by all; on the thread's own; or a `clone` or `try_clone` of one of the shared maps, the copy becoming the thread's own. -/
inductive Call (K V Q : Type) where
  | shared (op : Op K V Q)
  | own (op : Op K V Q)
  | copy (op : Op K V Q)

/-- The calls on shared maps take `&self`. -/
def Call.Ok : Call K V Q → Prop
  | .shared op => Op.shared op = true
  | .own _ => True
  | .copy op => Op.copies op = true

/-- A way to take calls apart into accesses: the accesses in a row are the call; calls that take `&self` only look, but for `clone` and `try_clone` — those never store into
a node of the maps that they are given, nor free one, wherever new nodes are put and whatever the allocator answers. -/
structure TakesApart [Ord K] [Ord Q] (bor : K → Q) (d : List HMap → Op K V Q → Prog K V (Out K V × List HMap)) : Prop where
  whole : ∀ p op, (d p op).whole = Op.hrun bor p op
  looks : ∀ p op, Op.shared op = true → (d p op).OnlyReads
  spares : ∀ {setup : List (Op K V Q)} {al : Alloc} {pl : Nat → Addr} {os : List (Out K V)} {sh rest : List HMap} {s : Heap K V}, Op.hprog bor setup [] (Heap.start al pl) = .ok ((os, true, sh ++ rest), s) →
    ∀ op, Op.copies op = true → ∀ next al' pl', s.next ≤ next → (d sh op).Spares (fun a => s.only sh a ≠ none) ⟨s.only sh, next, al', pl'⟩

/-- The program of a thread: it stops after an insertion that fails.  The answers, whether it came to its end, and its own maps. -/
def thread (d : List HMap → Op K V Q → Prog K V (Out K V × List HMap)) (sh : List HMap) :
    List (Call K V Q) → List HMap → Prog K V (List (Out K V) × Bool × List HMap)
  | [], p => .done ([], true, p)
  | .shared op :: cs, p => (d sh op).bind fun r => (thread d sh cs p).bind fun rs => .done (r.1 :: rs.1, rs.2)
  | .own op :: cs, p => (d p op).bind fun r =>
    if Op.spoils op r.1 then .done ([r.1], false, r.2)
    else (thread d sh cs r.2).bind fun rs => .done (r.1 :: rs.1, rs.2)
  | .copy op :: cs, p => (d sh op).bind fun r => (thread d sh cs (p ++ r.2.drop sh.length)).bind fun rs => .done (r.1 :: rs.1, rs.2)

/-- The program of a thread when nobody else is there: its calls run to their end in one step. -/
def alone [Ord K] [Ord Q] (bor : K → Q) (sh : List HMap) : List (Call K V Q) → List HMap → HM K V (List (Out K V) × Bool × List HMap)
  | [], p => pure ([], true, p)
  | .shared op :: cs, p => do
    let r ← Op.hrun bor sh op
    let rs ← alone bor sh cs p
    pure (r.1 :: rs.1, rs.2)
  | .own op :: cs, p => do
    let r ← Op.hrun bor p op
    if Op.spoils op r.1 then pure ([r.1], false, r.2)
    else do
      let rs ← alone bor sh cs r.2
      pure (r.1 :: rs.1, rs.2)
  | .copy op :: cs, p => do
    let r ← Op.hrun bor sh op
    let rs ← alone bor sh cs (p ++ r.2.drop sh.length)
    pure (r.1 :: rs.1, rs.2)

/-- What the calls of a thread should answer, given the shared lists and its own; and its own lists afterwards. -/
def Call.specs [Ord K] [Ord Q] (bor : K → Q) (sh : List (List (K × V))) : List (Call K V Q) → List (List (K × V)) → List (Out K V) × List (List (K × V))
  | [], l => ([], l)
  | .shared op :: cs, l => ((op.spec bor sh).1 :: (Call.specs bor sh cs l).1, (Call.specs bor sh cs l).2)
  | .own op :: cs, l => ((op.spec bor l).1 :: (Call.specs bor sh cs (op.spec bor l).2).1, (Call.specs bor sh cs (op.spec bor l).2).2)
  | .copy op :: cs, l =>
    ((op.spec bor sh).1 :: (Call.specs bor sh cs (l ++ (op.spec bor sh).2.drop sh.length)).1, (Call.specs bor sh cs (l ++ (op.spec bor sh).2.drop sh.length)).2)

/-- A thread has come to its end, or was unwound. -/
def Prog.Ended : Prog K V α → Prop
  | .done _ | .panic _ => True
  | _ => False

/-- The first `m` turns of an infinite schedule. -/
def turns (f : Nat → Nat) (m : Nat) : List Nat := (List.range m).map f

/-- What one thread gets: its calls, and the maps that are moved to it. -/
structure Job (K V Q : Type) where
  calls : List (Call K V Q)
  maps : List HMap

/-- The threads: each with its calls and maps, all with the shared maps `sh`. -/
def spawn (d : List HMap → Op K V Q → Prog K V (Out K V × List HMap)) (sh : List HMap) (jobs : List (Job K V Q)) : List (Prog K V (List (Out K V) × Bool × List HMap)) :=
  jobs.map fun j => thread d sh j.calls j.maps

/-- All the maps of all the threads. -/
def moved (jobs : List (Job K V Q)) : List HMap := (jobs.map (·.maps)).flatten

end Verif.Heap
