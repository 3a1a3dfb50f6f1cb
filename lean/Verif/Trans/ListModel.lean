import Verif.Trans.Model
/-
Model of `TransactionalList` (stingraykit/collection/TransactionalList.h): the committed vector and an open transaction with its private copy and cached
diff. `ValueEqualsComparer` is a parameter; `==` of values is equality. The copy-on-write sharing with enumerators is modelled in `Verif.Trans.Snapshot`.
-/
namespace Verif.Trans.TList

section
variable {α : Type}

/-- A diff entry: the operation, the index and the value.  For TransactionalList.h 55-401. -/
abbrev Entry (α : Type) := DiffOp × (Nat × α)

/-- The loop of `MakeDiff`: TransactionalList.h:62-73, at most `n` rounds. -/
def diffLoop (veq : α → α → Bool) (old new : List α) : Nat → Nat → Nat → List (Entry α)
  | 0, _, _ => []
  | n + 1, index, tail =>
    match old[index]?, new[index]? with
    | none, none => []
    | some o, none => (.removed, (index - tail, o)) :: diffLoop veq old new n (index + 1) (tail + 1)
    | none, some v => (.added, (index, v)) :: diffLoop veq old new n (index + 1) tail
    | some o, some v =>
      if !veq o v then (.removed, (index, o)) :: (.added, (index, v)) :: diffLoop veq old new n (index + 1) tail
      else diffLoop veq old new n (index + 1) tail

/-- `MakeDiff`: TransactionalList.h:55-76. -/
def makeDiff (veq : α → α → Bool) (old new : List α) : List (Entry α) := diffLoop veq old new (old.length + new.length) 0 0

/-- The committed vector (also `_oldItems` of the open transaction), `_newItems`, `_cachedDiff`: TransactionalList.h:140, 168-171. -/
structure State (α : Type) where
  items : List α
  new : Option (List α)
  cached : Option (List (Entry α))

/-- `_newItems ? *_newItems : *_oldItems`: TransactionalList.h:222 and others. -/
def cur (s : State α) : List α := s.new.getD s.items

/-- A modification after `CopyOnWrite()`: TransactionalList.h:390-401. -/
def write (s : State α) (l : List α) : State α := ⟨s.items, some l, none⟩

/-- The calls, TransactionalList.h 55-401. -/
inductive Op (α : Type) where
  | add (v : α) | set (i : Nat) (v : α) | insert (i : Nat) (v : α) | removeAt (i : Nat) | remove (v : α) | removeAll (p : α → Bool) | clear
  | get (i : Nat) | tryGet (i : Nat) | indexOf (v : α) | contains (v : α) | count | isEmpty | enumerate | reverse
  | diff | isDirty | commit | revert | renew | committed

/-- What a call returns, TransactionalList.h 55-401. -/
inductive Out (α : Type) where
  | unit
  | throws
  | bool (b : Bool)
  | num (n : Nat)
  | index (i : Option Nat)
  | value (v : α)
  | got (v : Option α)
  | list (l : List α)
  | diff (d : List (Entry α))
  | changed (d : Option (List (Entry α)))

/-- `std::find`.  For TransactionalList.h 55-401. -/
def indexOf [DecidableEq α] (l : List α) (v : α) : Option Nat := l.findIdx? (fun x => decide (x = v))

/-- `Diff()`: TransactionalList.h:365-371. -/
def diffOf (veq : α → α → Bool) (s : State α) : State α × List (Entry α) :=
  match s.cached with
  | some d => (s, d)
  | none => match s.new with
    | some l => (⟨s.items, s.new, some (makeDiff veq s.items l)⟩, makeDiff veq s.items l)
    | none => (s, [])

/-- The diff `Commit()` uses: TransactionalList.h:343. -/
def commitDiff (veq : α → α → Bool) (s : State α) (l : List α) : List (Entry α) := s.cached.getD (makeDiff veq s.items l)

/-- `Commit()`: TransactionalList.h:339-360. -/
def commit (veq : α → α → Bool) (s : State α) : State α × Option (List (Entry α)) :=
  match s.new with
  | none => (⟨s.items, none, none⟩, none)
  | some l => if (commitDiff veq s l).isEmpty then (⟨s.items, none, none⟩, none) else (⟨l, none, none⟩, some (commitDiff veq s l))

/-- The methods of a transaction (TransactionalList.h:205-374) and reads of the committed list (419-474); `renew` destroys the transaction and starts another. -/
def step [DecidableEq α] (veq : α → α → Bool) (s : State α) : Op α → State α × Out α
  | .add v => (write s (cur s ++ [v]), .unit)
  | .set i v => if i < (cur s).length then (write s ((cur s).set i v), .unit) else (s, .throws)
  | .insert i v => if i ≤ (cur s).length then (write s ((cur s).take i ++ v :: (cur s).drop i), .unit) else (s, .throws)
  | .removeAt i => if i < (cur s).length then (write s ((cur s).take i ++ (cur s).drop (i + 1)), .unit) else (s, .throws)
  | .remove v => match indexOf (cur s) v with
    | some i => (write s ((cur s).take i ++ (cur s).drop (i + 1)), .bool true)
    | none => (s, .bool false)
  | .removeAll p => (write s ((cur s).filter (fun x => !p x)), .num ((cur s).length - ((cur s).filter (fun x => !p x)).length))
  | .clear => (write s [], .unit)
  | .get i => match (cur s)[i]? with
    | some v => (s, .value v)
    | none => (s, .throws)
  | .tryGet i => (s, .got (cur s)[i]?)
  | .indexOf v => (s, .index (indexOf (cur s) v))
  | .contains v => (s, .bool (indexOf (cur s) v).isSome)
  | .count => (s, .num (cur s).length)
  | .isEmpty => (s, .bool (cur s).isEmpty)
  | .enumerate => (s, .list (cur s))
  | .reverse => (s, .list (cur s).reverse)
  | .diff => ((diffOf veq s).1, .diff (diffOf veq s).2)
  | .isDirty => (s, .bool s.new.isSome)
  | .commit => ((commit veq s).1, .changed (commit veq s).2)
  | .revert => (⟨s.items, none, none⟩, .unit)
  | .renew => (⟨s.items, none, none⟩, .unit)
  | .committed => (s, .list s.items)

/-- One step after another, for histories of TransactionalList.h 55-401. -/
def run [DecidableEq α] (veq : α → α → Bool) : State α → List (Op α) → State α × List (Out α)
  | s, [] => (s, [])
  | s, op :: ops => ((run veq (step veq s op).1 ops).1, (step veq s op).2 :: (run veq (step veq s op).1 ops).2)

/-- `Apply(entry)`: TransactionalList.h:323-337; `none`: `IndexOutOfRangeException`. -/
def apply (l : List α) : Entry α → Option (List α)
  | (.added, (i, v)) => if i < l.length then some (l.set i v) else none
  | (.removed, (i, _)) => if i < l.length then some (l.take i ++ l.drop (i + 1)) else none

/-- `Apply` of all entries of a diff, one after another.  For TransactionalList.h 55-401. -/
def applyAll : List α → List (Entry α) → Option (List α)
  | l, [] => some l
  | l, e :: es => match apply l e with
    | none => none
    | some l' => applyAll l' es

/-- What `OnChangedPopulator` sends to a new observer: TransactionalList.h:116-134, 154-158. -/
def populator : Nat → List α → List (Entry α)
  | _, [] => []
  | i, x :: l => (.added, (i, x)) :: populator (i + 1) l

end
end Verif.Trans.TList
