import Verif.Vec.Fallible
/-
Model of src/hashmap.rs.  The underlying `HashMap` (hashbrown, with or without std) is a dependency; what is modelled of it is
its contract together with its allocation behaviour: a table holds its entries in some order, has a number of insertions it
can still take without growing (`growthLeft`), and where it puts things is left open (`HEnv`).  Keys are compared with `==`;
`Hash` is assumed to agree with it.
-/
namespace Verif.Misc
open Verif Verif.Vec

variable {K V Q σ : Type}

/-- What the hash function, the hasher's seed and the table layout decide.  `σ` is the whole internal layout. -/
structure HEnv (K V σ : Type) where
  /-- capacities above this are refused with "capacity overflow" -/
  maxItems : Nat
  /-- the capacity of a table allocated for `n` entries -/
  capFor : Nat → Nat
  fresh : σ
  /-- new layout and iteration order after moving everything to a table with the given capacity, or rehashing in place -/
  rehash : σ → List (K × V) → Nat → σ × List (K × V)
  /-- new layout and iteration order after putting a new entry; whether that used up a never-used bucket -/
  place : σ → List (K × V) → K × V → σ × List (K × V) × Bool
  /-- new layout after removing the entry at an index; whether its bucket became as good as never used -/
  erase : σ → List (K × V) → Nat → σ × Bool
  /-- the vector type used to make an error value -/
  errVec : Env Unit

/-- What is demanded of it. -/
structure HEnv.OK (e : HEnv K V σ) : Prop where
  capFor : ∀ n, n ≤ e.capFor n
  rehash : ∀ s l c, (e.rehash s l c).2.Perm l
  place : ∀ s l x, (e.place s l x).2.1.Perm (x :: l)
  errGrow : e.errVec.OK
  errSize : e.errVec.size = 1024
  errWord : 0 < e.errVec.usizeMax

/-- A hash table: its entries in iteration order, the number of insertions possible without growing, the capacity it was
made for, and its layout.  Model of: `inner` of `TryHashMap`, src/hashmap.rs:20-22 (`fmt` 36-38 prints what `inner` prints). -/
structure HMap (K V σ : Type) where
  items : List (K × V)
  growthLeft : Nat
  full : Nat
  layout : σ

/-- The world of a hash map: allocator, number of requests whose failure aborts, dropped keys and values. -/
structure HWorld (K V : Type) where
  alloc : Alloc
  aborting : Nat
  droppedK : List K
  droppedV : List V

/-- The map being worked on, and the world. -/
structure HSt (K V σ : Type) where
  m : HMap K V σ
  w : HWorld K V

/-- Code working on a hash map. -/
abbrev HM (K V σ α : Type) := HSt K V σ → Exec α × HSt K V σ

/-- Statement sequencing. -/
def HM.bind {α β : Type} (x : HM K V σ α) (f : α → HM K V σ β) : HM K V σ β := fun s =>
  match x s with
  | (.ok a, s) => f a s
  | (.ub, s) => (.ub, s)
  | (.panic m, s) => (.panic m, s)

instance : Monad (HM K V σ) where
  pure a := fun s => (.ok a, s)
  bind := HM.bind

/-! ### the underlying hash map -/

/-- `HashMap::new`, `TryHashMap::default` src/hashmap.rs:27-31: no allocation. -/
def HMap.new (e : HEnv K V σ) : HMap K V σ := ⟨[], 0, 0, e.fresh⟩

/-- `HashMap::capacity`. -/
def HMap.capacity (m : HMap K V σ) : Nat := m.items.length + m.growthLeft

/-- `HashMap::try_reserve`: nothing if there is room; rehash in place if at least half of the buckets are only dirty; otherwise
allocate a larger table and move everything. -/
def hashTryReserve (e : HEnv K V σ) (additional : Nat) : HM K V σ (Res Unit) := fun s =>
  if additional ≤ s.m.growthLeft then (.ok (.ok ()), s)
  else
    let newItems := s.m.items.length + additional
    if newItems ≤ s.m.full / 2 then
      let p := e.rehash s.m.layout s.m.items s.m.full
      (.ok (.ok ()), { s with m := ⟨p.2, s.m.full - p.2.length, s.m.full, p.1⟩ })
    else if e.maxItems < max newItems (s.m.full + 1) then (.ok (.error .capacityOverflow), s)
    else
      let w := { s.w with alloc := s.w.alloc.request.2 }
      if s.w.alloc.request.1 then
        let c := e.capFor (max newItems (s.m.full + 1))
        let p := e.rehash s.m.layout s.m.items c
        (.ok (.ok ()), ⟨⟨p.2, c - p.2.length, c, p.1⟩, w⟩)
      else (.ok (.error .allocError), { s with w := w })

/-- The `reserve` inside `HashMap::insert`: like `try_reserve(1)`, but failure panics or aborts; counted when it has to work. -/
def hashReserve1 (e : HEnv K V σ) : HM K V σ Unit := fun s =>
  if 1 ≤ s.m.growthLeft then (.ok (), s)
  else
    match hashTryReserve e 1 { s with w := { s.w with aborting := s.w.aborting + 1 } } with
    | (.ok (.ok ()), s) => (.ok (), s)
    | (.ok (.error _), s) => (.panic "Hash table capacity overflow or allocation failure", s)
    | (.ub, s) => (.ub, s)
    | (.panic m, s) => (.panic m, s)

/-- `HashMap::insert`: reserve, then replace the value of an equal key (the new key is dropped) or put a new entry. -/
def hashInsert [BEq K] (e : HEnv K V σ) (k : K) (v : V) : HM K V σ (Option V) := do
  hashReserve1 e
  fun s =>
    match s.m.items.findIdx? (fun x => x.1 == k), s.m.items.find? (fun x => x.1 == k) with
    | some i, some old =>
      (.ok (some old.2), { m := { s.m with items := s.m.items.set i (old.1, v) }, w := { s.w with droppedK := s.w.droppedK ++ [k] } })
    | _, _ =>
      let p := e.place s.m.layout s.m.items (k, v)
      (.ok none, { s with m := ⟨p.2.1, if p.2.2 then s.m.growthLeft - 1 else s.m.growthLeft, s.m.full, p.1⟩ })

/-- `HashMap::remove`: the key is dropped, the value returned. -/
def hashRemove [BEq Q] (e : HEnv K V σ) (bor : K → Q) (q : Q) : HM K V σ (Option V) := fun s =>
  match s.m.items.findIdx? (fun x => bor x.1 == q), s.m.items.find? (fun x => bor x.1 == q) with
  | some i, some old =>
    let p := e.erase s.m.layout s.m.items i
    (.ok (some old.2),
      { m := ⟨s.m.items.eraseIdx i, if p.2 then s.m.growthLeft + 1 else s.m.growthLeft, s.m.full, p.1⟩,
        w := { s.w with droppedK := s.w.droppedK ++ [old.1] } })
  | _, _ => (.ok none, s)

/-! ### src/hashmap.rs -/

/-- src/hashmap.rs:130-135 `make_try_reserve_error`: `try_reserve(usize::MAX)` on a `Vec<[u8; 1024]>`, then `unwrap_err`. -/
def makeTryReserveError (e : HEnv K V σ) (a : Alloc) : Exec TryReserveError × Alloc :=
  match stdTryReserve e.errVec e.errVec.usizeMax ⟨RawVec.new e.errVec, ⟨a, 0, [], [], []⟩⟩ with
  | (.ok (.error er), s) => (.ok er, s.w.alloc)
  | (.ok (.ok ()), s) => (.panic "called `Result::unwrap_err()` on an `Ok` value", s.w.alloc)
  | (.ub, s) => (.ub, s.w.alloc)
  | (.panic m, s) => (.panic m, s.w.alloc)

/-- src/hashmap.rs:89-93 `reserve`. -/
def tryHashReserve (e : HEnv K V σ) (additional : Nat) : HM K V σ (Res Unit) := do
  match ← hashTryReserve e additional with
  | .ok () => pure (.ok ())
  | .error _ => fun s =>
    match makeTryReserveError e s.w.alloc with
    | (.ok er, a) => (.ok (.error er), { s with w := { s.w with alloc := a } })
    | (.ub, a) => (.ub, { s with w := { s.w with alloc := a } })
    | (.panic m, a) => (.panic m, { s with w := { s.w with alloc := a } })

/-- src/hashmap.rs:64-67 `insert`; on `Err` the key and the value go out of scope. -/
def tryHashInsert [BEq K] (e : HEnv K V σ) (k : K) (v : V) : HM K V σ (Res (Option V)) := fun s =>
  match tryHashReserve e (if s.m.capacity = 0 then 4 else 1) s with
  | (.ub, s) => (.ub, s)
  | (.panic m, s) => (.panic m, s)
  | (.ok (.error er), s) =>
    (.ok (.error er), { s with w := { s.w with droppedK := s.w.droppedK ++ [k], droppedV := s.w.droppedV ++ [v] } })
  | (.ok (.ok ()), s) =>
    match hashInsert e k v s with
    | (.ub, s) => (.ub, s)
    | (.panic m, s) => (.panic m, s)
    | (.ok old, s) => (.ok (.ok old), s)

/-- src/hashmap.rs:55-61 `get`. -/
def tryHashGet [BEq Q] (bor : K → Q) (q : Q) (m : HMap K V σ) : Option V :=
  (m.items.find? (fun x => bor x.1 == q)).map (·.2)

/-- src/hashmap.rs:75-77 `len`. -/
def tryHashLen (m : HMap K V σ) : Nat := m.items.length

/-- src/hashmap.rs:70-72 `iter`, 95-103 `into_iter`. -/
def tryHashIter (m : HMap K V σ) : List (K × V) := m.items

/-- src/hashmap.rs:80-86 `remove`. -/
def tryHashRemove [BEq Q] (e : HEnv K V σ) (bor : K → Q) (q : Q) : HM K V σ (Option V) := hashRemove e bor q

/-- src/hashmap.rs:46-52 `with_capacity`; the `Err` case drops an empty map. -/
def tryHashWithCapacity (e : HEnv K V σ) (capacity : Nat) (w : HWorld K V) : Exec (Res (HMap K V σ)) × HWorld K V :=
  match tryHashReserve e capacity ⟨HMap.new e, w⟩ with
  | (.ok (.ok ()), s) => (.ok (.ok s.m), s.w)
  | (.ok (.error er), s) => (.ok (.error er), s.w)
  | (.ub, s) => (.ub, s.w)
  | (.panic m, s) => (.panic m, s.w)

/-- A `try_clone` of a key or value. -/
def hashCallClone {T : Type} (cl : Cloner T) (x : T) : HM K V σ (Res T) := fun s =>
  match cl x s.w.alloc with
  | (.error m, a) => (.panic m, { s with w := { s.w with alloc := a } })
  | (.ok r, a) => (.ok r, { s with w := { s.w with alloc := a } })

/-- The loop of `try_clone`, src/hashmap.rs:113-115, on the new map.  If cloning the value fails the cloned key is dropped. -/
def cloneLoop [BEq K] (e : HEnv K V σ) (ck : Cloner K) (cv : Cloner V) : List (K × V) → HM K V σ (Res Unit)
  | [] => pure (.ok ())
  | (k, v) :: xs => do
    match ← hashCallClone ck k with
    | .error er => pure (.error er)
    | .ok k' => fun s =>
      match hashCallClone cv v s with
      | (.ub, s) => (.ub, s)
      | (.panic m, s) => (.panic m, { s with w := { s.w with droppedK := s.w.droppedK ++ [k'] } })
      | (.ok (.error er), s) => (.ok (.error er), { s with w := { s.w with droppedK := s.w.droppedK ++ [k'] } })
      | (.ok (.ok v'), s) =>
        match tryHashInsert e k' v' s with
        | (.ub, s) => (.ub, s)
        | (.panic m, s) => (.panic m, s)
        | (.ok (.error er), s) => (.ok (.error er), s)
        | (.ok (.ok old), s) =>
          -- the value replaced, if any, is dropped
          cloneLoop e ck cv xs { s with w := { s.w with droppedV := s.w.droppedV ++ old.toList } }

/-- src/hashmap.rs:106-120 `TryClone for TryHashMap`; the source is only read.  On `Err` or unwinding the new map is dropped. -/
def tryHashClone [BEq K] (e : HEnv K V σ) (ck : Cloner K) (cv : Cloner V) (m : HMap K V σ) (w : HWorld K V) :
    Exec (Res (HMap K V σ)) × HWorld K V :=
  let dropped (s : HSt K V σ) : HWorld K V :=
    { s.w with droppedK := s.w.droppedK ++ s.m.items.map (·.1), droppedV := s.w.droppedV ++ s.m.items.map (·.2) }
  match tryHashWithCapacity e m.items.length w with
  | (.ok (.ok c), w) =>
    match cloneLoop e ck cv m.items ⟨c, w⟩ with
    | (.ok (.ok ()), s) => (.ok (.ok s.m), s.w)
    | (.ok (.error er), s) => (.ok (.error er), dropped s)
    | (.ub, s) => (.ub, s.w)
    | (.panic m, s) => (.panic m, dropped s)
  | (.ok (.error er), w) => (.ok (.error er), w)
  | (.ub, w) => (.ub, w)
  | (.panic m, w) => (.panic m, w)

end Verif.Misc
