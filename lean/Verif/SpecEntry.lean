import Verif.BTree.History
/-
Specification: an entry of a map that is held and used.
-/
namespace Verif.Spec

variable {K V : Type}

/-- The calls that leave an entry in hand.  A closure may panic after what it has written. -/
inductive EntryLook (V : Type) where
  /-- `e.key()` -/
  | key
  /-- `if let Occupied(o) = &e { Some(o.get()) } else { None }` -/
  | get
  /-- `format!("{:?}", e)` -/
  | debug
  /-- `e = e.and_modify(|v| { *v = f(*v); if panics { panic!() } })` -/
  | modify (f : V → V) (panics : Bool)
  /-- `if let Occupied(o) = &mut e { *o.get_mut() = f(*o.get_mut()) }` -/
  | write (f : V → V)
  /-- `if let Occupied(o) = &mut e { Some(o.insert(v)) } else { None }` -/
  | insert (v : V)

/-- The calls that use an entry up.  `f` is what the program writes through the reference it gets. -/
inductive EntryEnd (V : Type) where
  /-- `drop(e)` -/
  | leave
  /-- `if let Occupied(o) = e { Some(o.remove()) } else { None }` -/
  | remove
  /-- `if let Occupied(o) = e { Some(o.remove_entry()) } else { None }` -/
  | removeEntry
  /-- `if let Occupied(o) = e { let r = o.into_mut(); *r = f(*r) }` -/
  | intoMut (f : V → V)
  /-- `if let Vacant(v) = e { Some(v.into_key()) } else { None }` -/
  | intoKey
  /-- `if let Vacant(e) = e { let r = e.try_insert(v)?; *r = f(*r) }` -/
  | insert (v : V) (f : V → V)
  /-- `let r = e.or_try_insert(v)?; let old = *r; *r = f(old); old` -/
  | orInsert (v : V) (f : V → V)
  /-- the same with `or_try_insert_with`; `none`: its closure panics -/
  | orInsertWith (v : Option V) (f : V → V)
  /-- the same with `or_default`, when `V::default()` is `d`, or panics -/
  | orDefault (d : Option V) (f : V → V)

/-- What the program sees. -/
inductive EntrySeen (K V : Type) where
  | key (k : K)
  | value (v : Option V)
  | pair (kv : Option (K × V))
  | ownKey (k : Option K)
  /-- `Entry(VacantEntry(k))` or `Entry(OccupiedEntry { key: k, value: v })` -/
  | printed (k : K) (v : Option V)
  | done
  /-- a `TryReserveError` -/
  | failed
  /-- a closure panicked, and the program caught it: the entry is gone -/
  | unwound
deriving Repr, DecidableEq

/-- Where the entry is: what comes before it, the pair itself if there is one, and what comes after. -/
structure Place (K V : Type) where
  before : List (K × V)
  here : Option (K × V)
  after : List (K × V)
deriving Repr, DecidableEq

/-- The entries of the map. -/
def Place.list (p : Place K V) : List (K × V) := p.before ++ p.here.toList ++ p.after

/-- The place that belongs to a key: what comes before is less, what comes after is greater. -/
structure Place.IsFor [Ord K] (p : Place K V) (k : K) : Prop where
  before : ∀ a ∈ p.before, compare k a.1 = .gt
  here : ∀ kv ∈ p.here, compare k kv.1 = .eq
  after : ∀ b ∈ p.after, compare k b.1 = .lt

def Place.map (p : Place K V) (f : V → V) : Place K V := { p with here := p.here.map fun kv => (kv.1, f kv.2) }

/-- A call that leaves the entry in hand: the answer, and whether it panicked. -/
def EntryLook.spec (k : K) (p : Place K V) : EntryLook V → EntrySeen K V × Bool × Place K V
  | .key => (.key ((p.here.map Prod.fst).getD k), false, p)
  | .get => (.value (p.here.map Prod.snd), false, p)
  | .debug => (.printed ((p.here.map Prod.fst).getD k) (p.here.map Prod.snd), false, p)
  | .modify f panics => if panics && p.here.isSome then (.unwound, true, p.map f) else (.done, false, p.map f)
  | .write f => (.done, false, p.map f)
  | .insert v => (.value (p.here.map Prod.snd), false, p.map fun _ => v)

/-- A value is there, or is made now by something that may panic. -/
def Place.fill (k : K) (p : Place K V) (v : Option V) (f : V → V) : EntrySeen K V × Place K V :=
  match p.here, v with
  | some kv, _ => (.value (some kv.2), p.map f)
  | none, none => (.unwound, p)
  | none, some v => (.value (some v), { p with here := some (k, f v) })

/-- A call that uses the entry up. -/
def EntryEnd.spec (k : K) (p : Place K V) : EntryEnd V → EntrySeen K V × Place K V
  | .leave => (.done, p)
  | .remove => (.value (p.here.map Prod.snd), { p with here := none })
  | .removeEntry => (.pair p.here, { p with here := none })
  | .intoMut f => (.done, p.map f)
  | .intoKey => (.ownKey (if p.here.isSome then none else some k), p)
  | .insert v f => (.done, if p.here.isSome then p else { p with here := some (k, f v) })
  | .orInsert v f => p.fill k (some v) f
  | .orInsertWith v f => p.fill k v f
  | .orDefault d f => p.fill k d f

/-- A whole program on an entry: what it sees, and the map's entries in the end. -/
def EntryEnd.specs (k : K) (e : EntryEnd V) : List (EntryLook V) → Place K V → List (EntrySeen K V) × List (K × V)
  | [], p => ([(e.spec k p).1], (e.spec k p).2.list)
  | a :: as, p =>
    if (a.spec k p).2.1 then ([(a.spec k p).1], (a.spec k p).2.2.list)
    else ((a.spec k p).1 :: (specs k e as (a.spec k p).2.2).1, (specs k e as (a.spec k p).2.2).2)

end Verif.Spec
