import Verif.Trans.Coll
/-
Model of `TransactionalSet` and `TransactionalDictionary` (stingraykit/collection/TransactionalSet.h, TransactionalDictionary.h, TransactionHelpers.h):
committed items, pending added and removed collections, the merged and the diff enumerator, commit and revert. The copy-on-write of the three
collections is modelled in `Verif.Trans.Snapshot`; here an enumeration happens between two modifications. A failed consistency check is `none`.
-/
namespace Verif.Trans
open Verif.Order

section
variable {κ ε : Type}

/-- `EntryType` of the merged enumerator: TransactionHelpers.h:33-37. -/
inductive Entry where
  | none | items | added | removed
  deriving DecidableEq, Repr

/-- What is left of the three collections (`_itemsIt`, `_addedIt`, `_removedIt` up to their ends): TransactionHelpers.h:46-48. -/
structure Cursor (ε : Type) where
  its : List ε
  adds : List ε
  rems : List ε

/-- The condition in TransactionHelpers.h:107: an added entry is left and precedes the first item. -/
def addedFirst (lt : κ → κ → Bool) (f : ε → κ) (adds : List ε) (i : ε) : Bool :=
  match adds with
  | [] => false
  | a :: _ => lt (f a) (f i)

/-- `UpdateEntryType()`: TransactionHelpers.h:99-127. -/
def update (lt : κ → κ → Bool) (f : ε → κ) (c : Cursor ε) : Option Entry :=
  match c.its with
  | [] => match c.adds with
    | [] => some .none
    | _ :: _ => some .added
  | i :: _ =>
    if addedFirst lt f c.adds i then some .added
    else match c.rems with
      | [] => some .items
      | r :: _ => if lt (f i) (f r) then some .items else if lt (f r) (f i) then none else some .removed

/-- The `switch` in `Next()`: TransactionHelpers.h:85-92; `none`: "Enumerator is not valid!". -/
def advance (c : Cursor ε) : Entry → Option (Cursor ε)
  | .items => some ⟨c.its.tail, c.adds, c.rems⟩
  | .added => some ⟨c.its, c.adds.tail, c.rems⟩
  | .removed => some ⟨c.its.tail, c.adds, c.rems.tail⟩
  | .none => none

/-- `Next()`: TransactionHelpers.h:82-96; at most `k` rounds of the loop. -/
def next (lt : κ → κ → Bool) (f : ε → κ) : Nat → Cursor ε → Entry → Option (Cursor ε × Entry)
  | 0, _, _ => none
  | k + 1, c, e =>
    match advance c e with
    | none => none
    | some c' => match update lt f c' with
      | none => none
      | some .removed => next lt f k c' .removed
      | some e' => some (c', e')

/-- `Get()`: TransactionHelpers.h:69-80. -/
def get (c : Cursor ε) : Entry → Option ε
  | .items => c.its.head?
  | .added => c.adds.head?
  | _ => none

/-- A loop `for (; en.Valid(); en.Next()) use(en.Get())`, at most `n` rounds; `Valid()`: TransactionHelpers.h:66-67. -/
def collect (lt : κ → κ → Bool) (f : ε → κ) (k : Nat) : Nat → Cursor ε → Entry → Option (List ε)
  | 0, _, _ => none
  | n + 1, c, e =>
    if e = .items ∨ e = .added then
      match get c e, next lt f k c e with
      | some x, some r => (collect lt f k n r.1 r.2).map (x :: ·)
      | _, _ => none
    else some []

/-- Constructing the enumerator on the three (sub)collections (TransactionHelpers.h:52-64) and exhausting it. -/
def enumerate (lt : κ → κ → Bool) (f : ε → κ) (its adds rems : List ε) : Option (List ε) :=
  match update lt f ⟨its, adds, rems⟩ with
  | none => none
  | some .removed => match next lt f (its.length + adds.length + 1) ⟨its, adds, rems⟩ .removed with
    | none => none
    | some r => collect lt f (its.length + adds.length + 1) (its.length + adds.length + 1) r.1 r.2
  | some e => collect lt f (its.length + adds.length + 1) (its.length + adds.length + 1) ⟨its, adds, rems⟩ e

/-- The start of a reverse enumeration at a key (`ReverseFindEnumerationDirection::Begin`: TransactionalSet.h:163-171, TransactionalDictionary.h:184-192):
everything up to and including the key, backwards. -/
def revUpTo (lt : κ → κ → Bool) (f : ε → κ) (l : List ε) (k : κ) : List ε :=
  match l[lowerBound lt f l k]? with
  | none => (l.take (lowerBound lt f l k)).reverse
  | some e => if lt k (f e) then (l.take (lowerBound lt f l k)).reverse else (l.take (lowerBound lt f l k + 1)).reverse

/-- The operations of a diff, TransactionalSet.h 119-405 and TransactionalDictionary.h 184-510. -/
inductive DiffOp where
  | added | removed
  deriving DecidableEq, Repr

/-- `UpdateEntryType()` of the diff enumerator: TransactionHelpers.h:202-215. -/
def dupdate (lt : κ → κ → Bool) (f : ε → κ) (adds rems : List ε) : Option DiffOp :=
  match adds with
  | a :: _ => match rems with
    | r :: _ => if lt (f a) (f r) then some .added else some .removed
    | [] => some .added
  | [] => match rems with
    | _ :: _ => some .removed
    | [] => none

/-- Exhausting the diff enumerator (TransactionHelpers.h:163-199), at most `n` rounds. -/
def dcollect (lt : κ → κ → Bool) (f : ε → κ) : Nat → List ε → List ε → List (DiffOp × ε)
  | 0, _, _ => []
  | n + 1, adds, rems =>
    match dupdate lt f adds rems with
    | none => []
    | some .added => match adds with
      | a :: adds' => (.added, a) :: dcollect lt f n adds' rems
      | [] => []
    | some .removed => match rems with
      | r :: rems' => (.removed, r) :: dcollect lt f n adds rems'
      | [] => []

/-- `Diff()` enumerated: TransactionalSet.h:370-371, TransactionalDictionary.h:475-476. -/
def diff (lt : κ → κ → Bool) (f : ε → κ) (adds rems : List ε) : List (DiffOp × ε) := dcollect lt f (adds.length + rems.length) adds rems

/-- The committed collection and the open transaction: TransactionalSet.h:178, 214-216. -/
structure State (ε : Type) where
  items : List ε
  added : List ε
  removed : List ε
  deriving DecidableEq, Repr

/-- The insertion loop of `Commit()`; `none`: "Broken invariant: failed to add to items".  For TransactionalSet.h 119-405 and TransactionalDictionary.h 184-510. -/
def insertAll (lt : κ → κ → Bool) (f : ε → κ) : List ε → List ε → Option (List ε)
  | l, [] => some l
  | l, e :: es => if has lt f l (f e) then none else insertAll lt f (insert lt f l e) es

/-- The erasure loop of `Commit()`.  For TransactionalSet.h 119-405 and TransactionalDictionary.h 184-510. -/
def eraseAll (lt : κ → κ → Bool) (f : ε → κ) : List ε → List ε → List ε
  | l, [] => l
  | l, e :: es => eraseAll lt f (erase lt f l (f e)) es

/-- `Commit()`: TransactionalSet.h:376-396, TransactionalDictionary.h:481-501; the new state and the diff sent to `OnChanged`, if any. -/
def commit (lt : κ → κ → Bool) (f : ε → κ) (s : State ε) : Option (State ε × Option (List (DiffOp × ε))) :=
  if s.added.isEmpty && s.removed.isEmpty then some (s, none)
  else match insertAll lt f (eraseAll lt f s.items s.removed) s.added with
    | none => none
    | some items => some (⟨items, [], []⟩, some (diff lt f s.added s.removed))

/-- `Revert()`: TransactionalSet.h:398-405, TransactionalDictionary.h:503-510; destroying the transaction and starting a new one has the same effect. -/
def revert (s : State ε) : State ε := ⟨s.items, [], []⟩

/-- `Contains`, `ContainsKey`: TransactionalSet.h:264-265, TransactionalDictionary.h:284-285. -/
def contains (lt : κ → κ → Bool) (f : ε → κ) (s : State ε) (k : κ) : Bool :=
  has lt f s.added k || (has lt f s.items k && !has lt f s.removed k)

/-- `GetCount()`: TransactionalSet.h:258-259; `none` if the subtraction underflows. -/
def count (s : State ε) : Option Nat := if s.removed.length ≤ s.items.length then some (s.items.length - s.removed.length + s.added.length) else none

/-- `IsEmpty()`: TransactionalSet.h:261-262. -/
def isEmpty (s : State ε) : Bool := s.added.isEmpty && decide (s.items.length = s.removed.length)

/-- `IsDirty()`: TransactionalSet.h:373-374. -/
def isDirty (s : State ε) : Bool := !s.added.isEmpty || !s.removed.isEmpty

/-- `Clear()`: TransactionalSet.h:349-356, TransactionalDictionary.h:456-463. -/
def clear (s : State ε) : State ε := ⟨s.items, [], s.items⟩

/-- The second loop of `RemoveWhere`: TransactionalSet.h:337-344, TransactionalDictionary.h:444-451; the removed collection and the number. -/
def removeLoop (lt : κ → κ → Bool) (f : ε → κ) (p : ε → Bool) : List ε → List ε → Nat → List ε × Nat
  | [], removed, n => (removed, n)
  | e :: es, removed, n => if has lt f removed (f e) || !p e then removeLoop lt f p es removed n else removeLoop lt f p es (insert lt f removed e) (n + 1)

/-- `RemoveWhere`: TransactionalSet.h:319-347, TransactionalDictionary.h:426-454. -/
def removeWhere (lt : κ → κ → Bool) (f : ε → κ) (p : ε → Bool) (s : State ε) : State ε × Nat :=
  (⟨s.items, s.added.filter (fun e => !p e), (removeLoop lt f p s.items s.removed (s.added.filter p).length).1⟩,
    (removeLoop lt f p s.items s.removed (s.added.filter p).length).2)

/-- `Find(key)`: TransactionalSet.h:267-273, 119-129. -/
def findEnum (lt : κ → κ → Bool) (f : ε → κ) (s : State ε) (k : κ) : Option (List ε) :=
  if contains lt f s k then enumerate lt f (fromLower lt f s.items k) (fromLower lt f s.added k) (fromLower lt f s.removed k) else some []

/-- `ReverseFind(key)`: TransactionalSet.h:275-281. -/
def revFindEnum (lt : κ → κ → Bool) (f : ε → κ) (s : State ε) (k : κ) : Option (List ε) :=
  if contains lt f s k then enumerate (fun a b => lt b a) f (revUpTo lt f s.items k) (revUpTo lt f s.added k) (revUpTo lt f s.removed k) else some []

/-- `Reverse()`: TransactionalSet.h:255-256, 131-152. -/
def revEnum (lt : κ → κ → Bool) (f : ε → κ) (s : State ε) : Option (List ε) :=
  enumerate (fun a b => lt b a) f s.items.reverse s.added.reverse s.removed.reverse

end

/-! ### Set -/
section
variable {κ : Type}

/-- `Add`: TransactionalSet.h:283-299. -/
def setAdd (lt : κ → κ → Bool) (s : State κ) (v : κ) : State κ × Bool :=
  if has lt id s.removed v then (⟨s.items, s.added, erase lt id s.removed v⟩, true)
  else if !has lt id s.added v && !has lt id s.items v then (⟨s.items, insert lt id s.added v, s.removed⟩, true)
  else (s, false)

/-- `Remove`: TransactionalSet.h:301-317. -/
def setRemove (lt : κ → κ → Bool) (s : State κ) (v : κ) : State κ × Bool :=
  if has lt id s.added v then (⟨s.items, erase lt id s.added v, s.removed⟩, true)
  else if !has lt id s.removed v && has lt id s.items v then (⟨s.items, s.added, insert lt id s.removed v⟩, true)
  else (s, false)

end

/-! ### Dictionary -/
section
variable {κ ν : Type}

/-- `Get`, `TryGet`: TransactionalDictionary.h:303-333. -/
def dictGet (lt : κ → κ → Bool) (s : State (κ × ν)) (k : κ) : Option ν :=
  match find lt Prod.fst s.added k with
  | some e => some e.2
  | none => match find lt Prod.fst s.items k with
    | some e => if has lt Prod.fst s.removed k then none else some e.2
    | none => none

/-- `Add`: TransactionalDictionary.h:335-356. -/
def dictAdd (lt : κ → κ → Bool) (veq : ν → ν → Bool) (s : State (κ × ν)) (k : κ) (v : ν) : State (κ × ν) × Bool :=
  match find lt Prod.fst s.items k with
  | some e =>
    if !has lt Prod.fst s.removed k || has lt Prod.fst s.added k then (s, false)
    else if veq v e.2 then (⟨s.items, s.added, erase lt Prod.fst s.removed k⟩, true)
    else (⟨s.items, insert lt Prod.fst s.added (k, v), s.removed⟩, true)
  | none =>
    if has lt Prod.fst s.added k then (s, false)
    else (⟨s.items, insert lt Prod.fst s.added (k, v), s.removed⟩, true)

/-- The part of `Set` after the items were looked at: TransactionalDictionary.h:387-400. -/
def dictSetAdded (lt : κ → κ → Bool) (veq : ν → ν → Bool) (s : State (κ × ν)) (k : κ) (v : ν) : State (κ × ν) :=
  match find lt Prod.fst s.added k with
  | some e => if veq v e.2 then s else ⟨s.items, s.added.map (fun x => if equiv lt x.1 k then (x.1, v) else x), s.removed⟩
  | none => ⟨s.items, insert lt Prod.fst s.added (k, v), s.removed⟩

/-- `Set`: TransactionalDictionary.h:358-401. -/
def dictSet (lt : κ → κ → Bool) (veq : ν → ν → Bool) (s : State (κ × ν)) (k : κ) (v : ν) : State (κ × ν) :=
  match find lt Prod.fst s.items k with
  | some e =>
    if veq v e.2 then ⟨s.items, erase lt Prod.fst s.added k, erase lt Prod.fst s.removed k⟩
    else if !has lt Prod.fst s.removed e.1 then dictSetAdded lt veq ⟨s.items, s.added, insert lt Prod.fst s.removed (e.1, e.2)⟩ k v
    else dictSetAdded lt veq s k v
  | none => dictSetAdded lt veq s k v

/-- `Remove`: TransactionalDictionary.h:403-424. -/
def dictRemove (lt : κ → κ → Bool) (s : State (κ × ν)) (k : κ) : State (κ × ν) × Bool :=
  if has lt Prod.fst s.added k then (⟨s.items, erase lt Prod.fst s.added k, s.removed⟩, true)
  else if has lt Prod.fst s.removed k then (s, false)
  else match find lt Prod.fst s.items k with
    | some e => (⟨s.items, s.added, insert lt Prod.fst s.removed (e.1, e.2)⟩, true)
    | none => (s, false)

end

/-! ### Programs with one collection and its transactions, one after another -/

/-- Calls on a set. `commit`, `revert`, `renew` (destroy the transaction, start another) and reads of the committed collection included.  For TransactionalSet.h 119-405 and TransactionalDictionary.h 184-510. -/
inductive SetOp (κ : Type) where
  | add (v : κ) | remove (v : κ) | removeWhere (p : κ → Bool) | clear
  | contains (v : κ) | count | isEmpty | isDirty
  | enumerate | reverse | find (v : κ) | reverseFind (v : κ)
  | diff
  | commit | revert | renew
  | committed

/-- What a call returns, TransactionalSet.h 119-405 and TransactionalDictionary.h 184-510. -/
inductive Out (ε ν : Type) where
  | unit
  | bool (b : Bool)
  | num (n : Nat)
  | list (l : List ε)
  | value (v : Option ν)
  | diff (d : List (DiffOp × ε))
  | changed (d : Option (List (DiffOp × ε)))

/-- One step, TransactionalSet.h 119-405 and TransactionalDictionary.h 184-510. -/
def setStep {κ : Type} (lt : κ → κ → Bool) (s : State κ) : SetOp κ → Option (State κ × Out κ Unit)
  | .add v => some ((setAdd lt s v).1, .bool (setAdd lt s v).2)
  | .remove v => some ((setRemove lt s v).1, .bool (setRemove lt s v).2)
  | .removeWhere p => some ((removeWhere lt id p s).1, .num (removeWhere lt id p s).2)
  | .clear => some (clear s, .unit)
  | .contains v => some (s, .bool (contains lt id s v))
  | .count => (count s).map (fun n => (s, .num n))
  | .isEmpty => some (s, .bool (isEmpty s))
  | .isDirty => some (s, .bool (isDirty s))
  | .enumerate => (enumerate lt id s.items s.added s.removed).map (fun l => (s, .list l))
  | .reverse => (revEnum lt id s).map (fun l => (s, .list l))
  | .find v => (findEnum lt id s v).map (fun l => (s, .list l))
  | .reverseFind v => (revFindEnum lt id s v).map (fun l => (s, .list l))
  | .diff => some (s, .diff (diff lt id s.added s.removed))
  | .commit => (commit lt id s).map (fun r => (r.1, .changed r.2))
  | .revert => some (revert s, .unit)
  | .renew => some (revert s, .unit)
  | .committed => some (s, .list s.items)

/-- One step after another, for histories of TransactionalSet.h 119-405 and TransactionalDictionary.h 184-510. -/
def setRun {κ : Type} (lt : κ → κ → Bool) : State κ → List (SetOp κ) → Option (State κ × List (Out κ Unit))
  | s, [] => some (s, [])
  | s, op :: ops => match setStep lt s op with
    | none => none
    | some r => (setRun lt r.1 ops).map (fun q => (q.1, r.2 :: q.2))

/-- Calls on a dictionary; `ValueEqualsComparer` is equality of values.  For TransactionalSet.h 119-405 and TransactionalDictionary.h 184-510. -/
inductive DictOp (κ ν : Type) where
  | add (k : κ) (v : ν) | set (k : κ) (v : ν) | remove (k : κ) | removeWhere (p : κ → ν → Bool) | clear
  | get (k : κ) | containsKey (k : κ) | count | isEmpty | isDirty
  | enumerate | reverse | find (k : κ) | reverseFind (k : κ)
  | diff
  | commit | revert | renew
  | committed

/-- One step, TransactionalSet.h 119-405 and TransactionalDictionary.h 184-510. -/
def dictStep {κ ν : Type} (lt : κ → κ → Bool) (veq : ν → ν → Bool) (s : State (κ × ν)) : DictOp κ ν → Option (State (κ × ν) × Out (κ × ν) ν)
  | .add k v => some ((dictAdd lt veq s k v).1, .bool (dictAdd lt veq s k v).2)
  | .set k v => some (dictSet lt veq s k v, .unit)
  | .remove k => some ((dictRemove lt s k).1, .bool (dictRemove lt s k).2)
  | .removeWhere p => some ((removeWhere lt Prod.fst (fun e => p e.1 e.2) s).1, .num (removeWhere lt Prod.fst (fun e => p e.1 e.2) s).2)
  | .clear => some (clear s, .unit)
  | .get k => some (s, .value (dictGet lt s k))
  | .containsKey k => some (s, .bool (contains lt Prod.fst s k))
  | .count => (count s).map (fun n => (s, .num n))
  | .isEmpty => some (s, .bool (isEmpty s))
  | .isDirty => some (s, .bool (isDirty s))
  | .enumerate => (enumerate lt Prod.fst s.items s.added s.removed).map (fun l => (s, .list l))
  | .reverse => (revEnum lt Prod.fst s).map (fun l => (s, .list l))
  | .find k => (findEnum lt Prod.fst s k).map (fun l => (s, .list l))
  | .reverseFind k => (revFindEnum lt Prod.fst s k).map (fun l => (s, .list l))
  | .diff => some (s, .diff (diff lt Prod.fst s.added s.removed))
  | .commit => (commit lt Prod.fst s).map (fun r => (r.1, .changed r.2))
  | .revert => some (revert s, .unit)
  | .renew => some (revert s, .unit)
  | .committed => some (s, .list s.items)

/-- One step after another, for histories of TransactionalSet.h 119-405 and TransactionalDictionary.h 184-510. -/
def dictRun {κ ν : Type} (lt : κ → κ → Bool) (veq : ν → ν → Bool) : State (κ × ν) → List (DictOp κ ν) → Option (State (κ × ν) × List (Out (κ × ν) ν))
  | s, [] => some (s, [])
  | s, op :: ops => match dictStep lt veq s op with
    | none => none
    | some r => (dictRun lt veq r.1 ops).map (fun q => (q.1, r.2 :: q.2))

end Verif.Trans
