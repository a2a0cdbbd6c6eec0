import Verif.BTree.Iter
/-
The maps a safe program can have in its hands: everything obtainable from `new` by calls of the public API.  Each rule is
one call (with its model function's result), for any arguments and any allocator behaviour; entries and references
obtained from the API are used through the rules that obtain and use them.
-/
namespace Verif.BTree
open Verif Verif.Spec

/-- Maps obtainable by API calls in which no insertion returned `Err` (other calls may), with a lawful key order.
`clear` gives `new`.  src/btree/map.rs: the `pub fn`s of `BTreeMap`, `Entry`, `OccupiedEntry`, `VacantEntry`. -/
inductive Reach {K V : Type} [Ord K] : Map K V → Prop
  | new : Reach Map.new
  | insert {m m' k v a old a'} : Reach m → m.tryInsert k v a = .ok (.ok old, m', a') → Reach m'
  | remove {Q : Type} [Ord Q] [Std.TransOrd Q] {bor : K → Q} {m m' q r} : BorrowOK bor → Reach m →
      m.removeEntry bor q = .ok (r, m') → Reach m'
  /-- write through `get_mut` -/
  | getMut {Q : Type} [Ord Q] [Std.TransOrd Q] {bor : K → Q} {m m' q hd f} : BorrowOK bor → Reach m →
      m.getMut bor q = .ok (some hd) → m.occUpdate hd f = .ok m' → Reach m'
  /-- obtain an entry (or be refused one) and drop it -/
  | entry {m m' k a r a'} : Reach m → m.tryEntry k a = .ok (r, m', a') → Reach m'
  /-- an occupied entry's `get_mut`/`into_mut`/`insert`, `and_modify` -/
  | occupied {m m1 m' k a hd a1 f} : Reach m → m.tryEntry k a = .ok (.ok (.occupied hd), m1, a1) →
      m1.occUpdate hd f = .ok m' → Reach m'
  /-- an occupied entry's `remove_entry`/`remove` -/
  | occupiedRemove {m m1 m' k a hd a1 kv} : Reach m → m.tryEntry k a = .ok (.ok (.occupied hd), m1, a1) →
      m1.occRemoveEntry hd = .ok (kv, m') → Reach m'
  /-- `or_try_insert`, `or_try_insert_with`, `or_default`, `VacantEntry::try_insert`, and a write through the
  reference returned -/
  | orInsert {m m1 m2 m' k a e a1 v ref a2 f} : Reach m → m.tryEntry k a = .ok (.ok e, m1, a1) →
      m1.orTryInsert e v a1 = .ok (.ok ref, m2, a2) → m2.occUpdate ref f = .ok m' → Reach m'
  | extend {m m' l a a'} : Reach m → m.extend l a = .ok (m', a') → Reach m'
  | appendSelf {m o m' o' a a'} : Reach m → Reach o → m.append o a = .ok (m', o', a') → Reach m'
  | appendOther {m o m' o' a a'} : Reach m → Reach o → m.append o a = .ok (m', o', a') → Reach o'
  | splitSelf {Q : Type} [Ord Q] [Std.TransOrd Q] {bor : K → Q} {m q a r m' a'} : BorrowOK bor → Reach m →
      m.splitOff bor q a = .ok (r, m', a') → Reach m'
  | splitRight {Q : Type} [Ord Q] [Std.TransOrd Q] {bor : K → Q} {m q a right m' a'} : BorrowOK bor → Reach m →
      m.splitOff bor q a = .ok (.ok right, m', a') → Reach right
  /-- `try_clone` (and `clone`), with key clones that compare equal to the original -/
  | clone {m ck cv a c a'} : (∀ k a k' a', ck k a = (.ok k', a') → compare k k' = .eq) → Reach m →
      m.tryClone ck cv a = .ok (.ok c, a') → Reach c
  /-- a program using `iter_mut`/`values_mut` -/
  | iterMut {m it as xs m' refs} : Reach m → m.iter = .ok it → mutRun Iter.stepH as m it [] = .ok (xs, m', refs) →
      Reach m'
  /-- a program using `range_mut` -/
  | rangeMut {Q : Type} [Ord Q] [Std.TransOrd Q] {bor : K → Q} {m s e r as xs m' refs} : BorrowOK bor → Reach m →
      m.range bor s e = .ok r → mutRun Range.stepH as m r [] = .ok (xs, m', refs) → Reach m'

/-- The same, but every single call may use a different and completely arbitrary comparison function (a `K` or `Q` whose
`Ord` is inconsistent), `Borrow` and `Clone` may be wrong as well. -/
inductive ReachAny {K V : Type} : Map K V → Prop
  | new : ReachAny Map.new
  | insert [Ord K] {m m' k v a old a'} : ReachAny m → m.tryInsert k v a = .ok (.ok old, m', a') → ReachAny m'
  | remove {Q : Type} [Ord Q] {bor : K → Q} {m m' q r} : ReachAny m →
      m.removeEntry bor q = .ok (r, m') → ReachAny m'
  | getMut {Q : Type} [Ord Q] {bor : K → Q} {m m' q hd f} : ReachAny m →
      m.getMut bor q = .ok (some hd) → m.occUpdate hd f = .ok m' → ReachAny m'
  | entry [Ord K] {m m' k a r a'} : ReachAny m → m.tryEntry k a = .ok (r, m', a') → ReachAny m'
  | occupied [Ord K] {m m1 m' k a hd a1 f} : ReachAny m → m.tryEntry k a = .ok (.ok (.occupied hd), m1, a1) →
      m1.occUpdate hd f = .ok m' → ReachAny m'
  | occupiedRemove [Ord K] {m m1 m' k a hd a1 kv} : ReachAny m → m.tryEntry k a = .ok (.ok (.occupied hd), m1, a1) →
      m1.occRemoveEntry hd = .ok (kv, m') → ReachAny m'
  | orInsert [Ord K] {m m1 m2 m' k a e a1 v ref a2 f} : ReachAny m → m.tryEntry k a = .ok (.ok e, m1, a1) →
      m1.orTryInsert e v a1 = .ok (.ok ref, m2, a2) → m2.occUpdate ref f = .ok m' → ReachAny m'
  | extend [Ord K] {m m' l a a'} : ReachAny m → m.extend l a = .ok (m', a') → ReachAny m'
  | appendSelf [Ord K] {m o m' o' a a'} : ReachAny m → ReachAny o → m.append o a = .ok (m', o', a') → ReachAny m'
  | appendOther [Ord K] {m o m' o' a a'} : ReachAny m → ReachAny o → m.append o a = .ok (m', o', a') → ReachAny o'
  | splitSelf {Q : Type} [Ord Q] {bor : K → Q} {m q a r m' a'} : ReachAny m →
      m.splitOff bor q a = .ok (r, m', a') → ReachAny m'
  | splitRight {Q : Type} [Ord Q] {bor : K → Q} {m q a right m' a'} : ReachAny m →
      m.splitOff bor q a = .ok (.ok right, m', a') → ReachAny right
  | clone {m ck cv a c a'} : ReachAny m → m.tryClone ck cv a = .ok (.ok c, a') → ReachAny c
  | iterMut {m it as xs m' refs} : ReachAny m → m.iter = .ok it →
      mutRun Iter.stepH as m it [] = .ok (xs, m', refs) → ReachAny m'
  | rangeMut {Q : Type} [Ord Q] {bor : K → Q} {m s e r as xs m' refs} : ReachAny m →
      m.range bor s e = .ok r → mutRun Range.stepH as m r [] = .ok (xs, m', refs) → ReachAny m'

/-- Like `Reach` (lawful order), but insertions may fail: maps obtainable by API calls under any allocation failures. -/
inductive ReachOom {K V : Type} [Ord K] : Map K V → Prop
  | new : ReachOom Map.new
  | insert {m m' k v a r a'} : ReachOom m → m.tryInsert k v a = .ok (r, m', a') → ReachOom m'
  | remove {Q : Type} [Ord Q] [Std.TransOrd Q] {bor : K → Q} {m m' q r} : BorrowOK bor → ReachOom m →
      m.removeEntry bor q = .ok (r, m') → ReachOom m'
  | getMut {Q : Type} [Ord Q] [Std.TransOrd Q] {bor : K → Q} {m m' q hd f} : BorrowOK bor → ReachOom m →
      m.getMut bor q = .ok (some hd) → m.occUpdate hd f = .ok m' → ReachOom m'
  | entry {m m' k a r a'} : ReachOom m → m.tryEntry k a = .ok (r, m', a') → ReachOom m'
  | occupied {m m1 m' k a hd a1 f} : ReachOom m → m.tryEntry k a = .ok (.ok (.occupied hd), m1, a1) →
      m1.occUpdate hd f = .ok m' → ReachOom m'
  | occupiedRemove {m m1 m' k a hd a1 kv} : ReachOom m → m.tryEntry k a = .ok (.ok (.occupied hd), m1, a1) →
      m1.occRemoveEntry hd = .ok (kv, m') → ReachOom m'
  | orInsert {m m1 m2 m' k a e a1 v ref a2 f} : ReachOom m → m.tryEntry k a = .ok (.ok e, m1, a1) →
      m1.orTryInsert e v a1 = .ok (.ok ref, m2, a2) → m2.occUpdate ref f = .ok m' → ReachOom m'
  | orInsertErr {m m1 m' k a e a1 v er a2} : ReachOom m → m.tryEntry k a = .ok (.ok e, m1, a1) →
      m1.orTryInsert e v a1 = .ok (.error er, m', a2) → ReachOom m'
  | extend {m m' l a a'} : ReachOom m → m.extend l a = .ok (m', a') → ReachOom m'
  | appendSelf {m o m' o' a a'} : ReachOom m → ReachOom o → m.append o a = .ok (m', o', a') → ReachOom m'
  | appendOther {m o m' o' a a'} : ReachOom m → ReachOom o → m.append o a = .ok (m', o', a') → ReachOom o'
  | splitSelf {Q : Type} [Ord Q] [Std.TransOrd Q] {bor : K → Q} {m q a r m' a'} : BorrowOK bor → ReachOom m →
      m.splitOff bor q a = .ok (r, m', a') → ReachOom m'
  | splitRight {Q : Type} [Ord Q] [Std.TransOrd Q] {bor : K → Q} {m q a right m' a'} : BorrowOK bor → ReachOom m →
      m.splitOff bor q a = .ok (.ok right, m', a') → ReachOom right
  | clone {m ck cv a c a'} : (∀ k a k' a', ck k a = (.ok k', a') → compare k k' = .eq) → ReachOom m →
      m.tryClone ck cv a = .ok (.ok c, a') → ReachOom c
  | iterMut {m it as xs m' refs} : ReachOom m → m.iter = .ok it →
      mutRun Iter.stepH as m it [] = .ok (xs, m', refs) → ReachOom m'
  | rangeMut {Q : Type} [Ord Q] [Std.TransOrd Q] {bor : K → Q} {m s e r as xs m' refs} : BorrowOK bor → ReachOom m →
      m.range bor s e = .ok r → mutRun Range.stepH as m r [] = .ok (xs, m', refs) → ReachOom m'

end Verif.BTree
