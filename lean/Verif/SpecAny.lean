import Verif.BTree.History
/-
Specification: what the calls of a program may do when nothing at all is known about the comparisons of keys: they may contradict each other, change
their minds, and panic.  A map is then simply a list of entries in some order.  Nothing here mentions an order on keys, and nothing refers to the model.

`mem`: no allocation is refused.  `ret`: every comparison returns.
-/
namespace Verif.Spec

variable {K V Q : Type}

/-- A call that looks for a key in the list `l`: it finds some entry, or some place between two entries, or (if a comparison panics) it is unwound and has done
nothing.  `o` is the answer, `none` if it was unwound, and `l'` the list afterwards. -/
def Looks (ret : Prop) (l : List (K × V)) (hit : List (K × V) → K × V → List (K × V) → Out K V × List (K × V))
    (miss : List (K × V) → List (K × V) → Out K V × List (K × V)) (o : Option (Out K V)) (l' : List (K × V)) : Prop :=
  (∃ A kv B, l = A ++ kv :: B ∧ o = some (hit A kv B).1 ∧ l' = (hit A kv B).2) ∨
  (∃ A B, l = A ++ B ∧ o = some (miss A B).1 ∧ l' = (miss A B).2) ∨
  (¬ ret ∧ o = none ∧ l' = l)

/-- The same, when it may also return an error for want of memory, having done nothing. -/
def LooksMem (mem ret : Prop) (l : List (K × V)) (hit : List (K × V) → K × V → List (K × V) → Out K V × List (K × V))
    (miss : List (K × V) → List (K × V) → Out K V × List (K × V)) (o : Option (Out K V)) (l' : List (K × V)) : Prop :=
  Looks ret l hit miss o l' ∨ (¬ mem ∧ o = some .failed ∧ l' = l)

/-- Insert the pairs one after another: each takes the place of some value, or goes in at some place. -/
inductive Extends : List (K × V) → List (K × V) → List (K × V) → Prop
  | nil {l : List (K × V)} : Extends [] l l
  | over {items A B l' : List (K × V)} {k k1 : K} {v v1 : V} (h : Extends items (A ++ (k1, v) :: B) l') : Extends ((k, v) :: items) (A ++ (k1, v1) :: B) l'
  | add {items A B l' : List (K × V)} {k : K} {v : V} (h : Extends items (A ++ (k, v) :: B) l') : Extends ((k, v) :: items) (A ++ B) l'

/-- The ways to merge two lists: both keep their order; a pair of the left list may be thrown away where one of the right list comes. -/
inductive Merged : List (K × V) → List (K × V) → List (K × V) → Prop
  | nilL {r : List (K × V)} : Merged [] r r
  | nilR {l : List (K × V)} : Merged l [] l
  | left {x y : K × V} {l r out : List (K × V)} (h : Merged l (y :: r) out) : Merged (x :: l) (y :: r) (x :: out)
  | right {x y : K × V} {l r out : List (K × V)} (h : Merged (x :: l) r out) : Merged (x :: l) (y :: r) (y :: out)
  | both {x y : K × V} {l r out : List (K × V)} (h : Merged l r out) : Merged (x :: l) (y :: r) (y :: out)

/-- The range is bounded at both ends. -/
def Closed (lo hi : Bound Q) : Prop := lo ≠ .unbounded ∧ hi ≠ .unbounded

/-- What one step of a program with several shared iterators may answer and leave.  Only opening a range compares keys: the range is some stretch of the list, or
the call panics, which it does only if the range is bounded at both ends or a comparison panicked. -/
def ViewAct.may (ret : Prop) (l : List (K × V)) (p : List (Pending K V Q)) : ViewAct Q → Seen K V → List (Pending K V Q) → Prop
  | .start (.range lo hi), o, p' => (∃ A M B, l = A ++ (M ++ B) ∧ o = .opened ∧ p' = p ++ [⟨.range lo hi, M⟩]) ∨ ((Closed lo hi ∨ ¬ ret) ∧ o = .panicked ∧ p' = p)
  | .start (.setRange lo hi), o, p' => (∃ A M B, l = A ++ (M ++ B) ∧ o = .opened ∧ p' = p ++ [⟨.setRange lo hi, M⟩]) ∨ ((Closed lo hi ∨ ¬ ret) ∧ o = .panicked ∧ p' = p)
  | .start s, o, p' => o = .opened ∧ p' = p ++ [⟨s, l⟩]
  | .clone i, o, p' => (o, p') = onPending p i fun v => (.opened, p ++ [v])
  | .ask i e, o, p' => (o, p') = onPending p i fun v => (.item ((pop e v.left).1.map v.src.item), p.set i ⟨v.src, (pop e v.left).2⟩)
  | .hint i, o, p' => (o, p') = onPending p i fun v => (.hint (v.src.hintFor v.left.length), p)
  | .debug i, o, p' => (o, p') = onPending p i fun v => (.list (v.left.map v.src.shown), p)

/-- Such a program. -/
def ViewAct.mays (ret : Prop) (l : List (K × V)) : List (ViewAct Q) → List (Pending K V Q) → List (Seen K V) → Prop
  | [], _, os => os = []
  | a :: as, p, os => ∃ o p' os', ViewAct.may ret l p a o p' ∧ ViewAct.mays ret l as p' os' ∧ os = o :: os'

/-- On list number `i`. -/
def onOne (s : List (List (K × V))) (i : Nat) (R : List (K × V) → Option (Out K V) → List (K × V) → Prop) (o : Option (Out K V)) (s' : List (List (K × V))) : Prop :=
  match s[i]? with
  | none => o = some .skipped ∧ s' = s
  | some l => ∃ l', R l o l' ∧ s' = s.set i l'

/-- What a call may answer (`none`: it was unwound) and leave.  An insertion that returns an error is left out: the program ends there. -/
def Op.may (mem ret : Prop) (s : List (List (K × V))) : Op K V Q → Option (Out K V) → List (List (K × V)) → Prop
  | .new, o, s' => o = some .done ∧ s' = s ++ [[]]
  | .insert i k v, o, s' => onOne s i (fun l => Looks ret l (fun A kv B => (.value (some kv.2), A ++ (kv.1, v) :: B)) (fun A B => (.value none, A ++ (k, v) :: B))) o s'
  | .remove i _, o, s' => onOne s i (fun l => Looks ret l (fun A kv B => (.value (some kv.2), A ++ B)) (fun A B => (.value none, A ++ B))) o s'
  | .get i _, o, s' => onOne s i (fun l => Looks ret l (fun _ kv _ => (.value (some kv.2), l)) (fun _ _ => (.value none, l))) o s'
  | .getKeyValue i _, o, s' => onOne s i (fun l => Looks ret l (fun _ kv _ => (.pair (some kv), l)) (fun _ _ => (.pair none, l))) o s'
  | .containsKey i _, o, s' => onOne s i (fun l => Looks ret l (fun _ _ _ => (.flag true, l)) (fun _ _ => (.flag false, l))) o s'
  | .len i, o, s' => onOne s i (fun l o l' => o = some (.count l.length) ∧ l' = l) o s'
  | .isEmpty i, o, s' => onOne s i (fun l o l' => o = some (.flag l.isEmpty) ∧ l' = l) o s'
  | .update i _ f, o, s' => onOne s i (fun l => Looks ret l (fun A kv B => (.flag true, A ++ (kv.1, f kv.2) :: B)) (fun A B => (.flag false, A ++ B))) o s'
  | .clear i, o, s' => onOne s i (fun _ o l' => o = some .done ∧ l' = []) o s'
  | .append i j, o, s' =>
    match s[i]?, s[j]? with
    | some l, some r => if i = j then o = some .skipped ∧ s' = s else ∃ out, Merged l r out ∧ o = some .done ∧ s' = (s.set i out).set j []
    | _, _ => o = some .skipped ∧ s' = s
  | .splitOff i _, o, s' =>
    match s[i]? with
    | some l => (∃ A B, l = A ++ B ∧ o = some .done ∧ s' = s.set i A ++ [B]) ∨ (¬ mem ∧ o = some .failed ∧ s' = s)
    | none => o = some .skipped ∧ s' = s
  | .extend i items, o, s' => onOne s i (fun l o l' => (o = some .done ∧ Extends items l l') ∨ (¬ ret ∧ o = none ∧ ∃ n, Extends (items.take n) l l')) o s'
  | .clone i, o, s' =>
    match s[i]? with
    | some l => o = some .done ∧ s' = s ++ [l]
    | none => o = some .skipped ∧ s' = s
  | .iterate i es, o, s' => onOne s i (fun l o l' => o = some (.items (pops es l).1) ∧ l' = l) o s'
  | .range i lo hi es, o, s' => onOne s i (fun l o l' =>
      ((∃ A M B, l = A ++ (M ++ B) ∧ o = some (.items (pops es M).1)) ∨ (Closed lo hi ∧ o = some .panicked) ∨ (¬ ret ∧ o = none)) ∧ l' = l) o s'
  | .iterMut i acts, o, s' => onOne s i (fun l o l' => o = some (.items (Cursor.acts ⟨l, 0, l.length, []⟩ acts).1) ∧
      l' = (Cursor.acts ⟨l, 0, l.length, []⟩ acts).2.items) o s'
  | .rangeMut i lo hi acts, o, s' => onOne s i (fun l o l' =>
      (∃ A M B, l = A ++ (M ++ B) ∧ o = some (.items (Cursor.acts ⟨l, A.length, A.length + M.length, []⟩ acts).1) ∧
        l' = (Cursor.acts ⟨l, A.length, A.length + M.length, []⟩ acts).2.items) ∨
      (((Closed lo hi ∧ o = some .panicked) ∨ (¬ ret ∧ o = none)) ∧ l' = l)) o s'
  | .intoIter i es, o, s' => onOne s i (fun l o l' => o = some (.items (pops es l).1) ∧ l' = []) o s'
  | .entryOrInsert i k v f, o, s' => onOne s i (fun l => Looks ret l (fun A kv B => (.value (some kv.2), A ++ (kv.1, f kv.2) :: B))
      (fun A B => (.value (some v), A ++ (k, f v) :: B))) o s'
  | .entryOrInsertWith i k v f, o, s' => onOne s i (fun l => Looks ret l (fun A kv B => (.flag false, A ++ (kv.1, f kv.2) :: B))
      (fun A B => (.flag true, A ++ (k, f v) :: B))) o s'
  | .entryRemove i _, o, s' => onOne s i (fun l => LooksMem mem ret l (fun A kv B => (.pair (some kv), A ++ B)) (fun A B => (.pair none, A ++ B))) o s'
  | .entryModify i _ f, o, s' => onOne s i (fun l => LooksMem mem ret l (fun A kv B => (.done, A ++ (kv.1, f kv.2) :: B)) (fun A B => (.done, A ++ B))) o s'
  | .entryKey i k, o, s' => onOne s i (fun l => LooksMem mem ret l (fun _ kv _ => (.key kv.1, l)) (fun _ _ => (.key k, l))) o s'
  | .entryInsert i _ v, o, s' => onOne s i (fun l => LooksMem mem ret l (fun A kv B => (.value (some kv.2), A ++ (kv.1, v) :: B)) (fun A B => (.value none, A ++ B))) o s'
  | .tryClone i ck cv, o, s' =>
    match s[i]? with
    | some l =>
      match cloneList ck cv l with
      | some l' => (o = some .done ∧ s' = s ++ [l']) ∨ (¬ mem ∧ o = some .failed ∧ s' = s)
      | none => o = some .failed ∧ s' = s
    | none => o = some .skipped ∧ s' = s
  | .views i acts, o, s' => onOne s i (fun l o l' => (∃ xs, ViewAct.mays ret l acts [] xs ∧ o = some (.seen xs)) ∧ l' = l) o s'
  | .replace i k v, o, s' => onOne s i (fun l => Looks ret l (fun A kv B => (.oldKey (some kv.1), A ++ (k, kv.2) :: B)) (fun A B => (.oldKey none, A ++ (k, v) :: B))) o s'
  | .take i _, o, s' => onOne s i (fun l => Looks ret l (fun A kv B => (.oldKey (some kv.1), A ++ B)) (fun A B => (.oldKey none, A ++ B))) o s'

/-- A whole program; `ret` says for each call whether its comparisons return. -/
def Op.mays (mem : Prop) : List (Op K V Q × Prop) → List (List (K × V)) → List (Option (Out K V)) → List (List (K × V)) → Prop
  | [], s, os, s' => os = [] ∧ s' = s
  | (op, ret) :: ops, s, os, s' => ∃ o s1 os', op.may mem ret s o s1 ∧ Op.mays mem ops s1 os' s' ∧ os = o :: os'

end Verif.Spec
