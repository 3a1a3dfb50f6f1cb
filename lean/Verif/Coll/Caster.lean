import Verif.Coll.Derived
import Verif.Trans.ListModel
/-
Views of collections through a cast: ListCaster, SetCaster, DictionaryCaster and their observable and transactional
variants.  `cast` is the caster; `back` the back caster, `none` when it returns false.

The contents are those of the wrapped collection (C94-C97, C26-C28).  Simplification: a view is made when its observer connects
(the view itself only passes reports on).
-/
namespace Verif.Coll.Cast
open Verif.Order Verif.Coll Verif.Coll.Obs
variable {κ κ' ν ν' α β : Type}

/-! Lists -/

/-- What the view enumerates.  ListCaster.h 46-47. -/
def listEnumerate (cast : α → β) (xs : List α) : List β := xs.map cast

/-- What `Reverse` enumerates.  ListCaster.h 49-50. -/
def listReverse (cast : α → β) (xs : List α) : List β := xs.reverse.map cast

/-- `GetCount`.  ListCaster.h 52-53. -/
def listCount (xs : List α) : Nat := xs.length

/-- `Contains`.  ListCaster.h 58-62. -/
def listContains [DecidableEq α] (back : β → Option α) (xs : List α) (d : β) : Bool :=
  match back d with
  | some v => Lst.contains xs v
  | none => false

/-- `IndexOf`.  ListCaster.h 64-68. -/
def listIndexOf [DecidableEq α] (back : β → Option α) (xs : List α) (d : β) : Option Nat :=
  match back d with
  | some v => Lst.indexOf xs v
  | none => none

/-- `Get`; `none`: IndexOutOfRangeException.  ListCaster.h 70-71. -/
def listGet (cast : α → β) (xs : List α) (i : Nat) : Option β := (Lst.get xs i).map cast

/-- `TryGet`.  ListCaster.h 73-82. -/
def listTryGet (cast : α → β) (xs : List α) (i : Nat) : Option β :=
  match Lst.tryGet xs i with
  | some v => some (cast v)
  | none => none

/-- `OnChangedPopulator`: an index counts along.  ListCaster.h 123-128. -/
def listPopulate : Nat → List β → List (Event Nat β)
  | _, [] => []
  | i, v :: vs => ⟨.added, i, v⟩ :: listPopulate (i + 1) vs

/-- `ChangedHandler` of a list or dictionary.  ListCaster.h 130-131, DictionaryCaster.h 137-138. -/
def report (cast : α → β) (e : Event κ α) : Event κ β := ⟨e.op, e.key, cast e.value⟩

/-- Everything an observer of the view of a list is told that connects after `before`.  ListCaster.h 110-131. -/
def listLog [DecidableEq α] (cast : α → β) (n : Nat) (before after : List (Act (List α) (Event Nat α) (LOp α))) : List (Event Nat β) :=
  listPopulate 0 (listEnumerate cast (run list n ⟨[], []⟩ before).1.contents) ++
    (later (run list n ⟨[], []⟩ (before ++ .connect passOn :: after)).1 (run list n ⟨[], []⟩ before).1.observers.length).map (report cast)

/-! Dictionaries -/

/-- What the view enumerates: `PairCast`.  DictionaryCaster.h 51-52 and 87-88. -/
def dictEnumerate (cast : ν → ν') (xs : List (κ × ν)) : List (κ × ν') := xs.map fun e => (e.1, cast e.2)

/-- `Get`; `none`: KeyNotFoundException.  DictionaryCaster.h 72-84. -/
def dictGet (kind : Kind) (lt : κ → κ → Bool) (cast : ν → ν') (xs : List (κ × ν)) (k : κ) : Option ν' := (Dict.get kind lt xs k).map cast

/-- What `Find` enumerates.  DictionaryCaster.h 66-67. -/
def dictFind (kind : Kind) (lt : κ → κ → Bool) (cast : ν → ν') (xs : List (κ × ν)) (k : κ) : List (κ × ν') :=
  (Dict.findFrom kind lt xs k).map fun e => (e.1, cast e.2)

/-- What `ReverseFind` enumerates.  DictionaryCaster.h 69-70. -/
def dictReverseFind (kind : Kind) (lt : κ → κ → Bool) (cast : ν → ν') (xs : List (κ × ν)) (k : κ) : List (κ × ν') :=
  (Dict.reverseFindFrom kind lt xs k).map fun e => (e.1, cast e.2)

/-- Everything an observer of the view of a dictionary is told that connects after `before`.  DictionaryCaster.h 118-138. -/
def dictLog (kind : Kind) (lt : κ → κ → Bool) (cast : ν → ν') (n : Nat) (before after : List (Act (List (κ × ν)) (Event κ ν) (Dict.Op κ ν))) : List (Event κ ν') :=
  (dictEnumerate cast (run (dict kind lt) n ⟨[], []⟩ before).1.contents).map (fun e => ⟨.added, e.1, e.2⟩) ++
    (later (run (dict kind lt) n ⟨[], []⟩ (before ++ .connect passOn :: after)).1 (run (dict kind lt) n ⟨[], []⟩ before).1.observers.length).map (report cast)

/-! Sets: the elements are the keys, there are no values -/

/-- What the view enumerates.  SetCaster.h 46-47. -/
def setEnumerate (cast : κ → κ') (xs : List (κ × Unit)) : List (κ' × Unit) := xs.map fun e => (cast e.1, ())

/-- `Contains`.  SetCaster.h 58-62. -/
def setContains (kind : Kind) (lt : κ → κ → Bool) (back : κ' → Option κ) (xs : List (κ × Unit)) (d : κ') : Bool :=
  match back d with
  | some k => Dict.contains kind lt xs k
  | none => false

/-- What `Find` enumerates.  SetCaster.h 64-70. -/
def setFind (kind : Kind) (lt : κ → κ → Bool) (cast : κ → κ') (back : κ' → Option κ) (xs : List (κ × Unit)) (d : κ') : List (κ' × Unit) :=
  match back d with
  | some k => (Dict.findFrom kind lt xs k).map fun e => (cast e.1, ())
  | none => []

/-- What `ReverseFind` enumerates.  SetCaster.h 72-78. -/
def setReverseFind (kind : Kind) (lt : κ → κ → Bool) (cast : κ → κ') (back : κ' → Option κ) (xs : List (κ × Unit)) (d : κ') : List (κ' × Unit) :=
  match back d with
  | some k => (Dict.reverseFindFrom kind lt xs k).map fun e => (cast e.1, ())
  | none => []

/-- `ChangedHandler` of a set.  SetCaster.h 125-126. -/
def setReport (cast : κ → κ') (e : Event κ Unit) : Event κ' Unit := ⟨e.op, cast e.key, ()⟩

/-- Everything an observer of the view of a set is told that connects after `before`.  SetCaster.h 106-126. -/
def setLog (kind : Kind) (lt : κ → κ → Bool) (cast : κ → κ') (n : Nat) (before after : List (Act (List (κ × Unit)) (Event κ Unit) (Dict.Op κ Unit))) : List (Event κ' Unit) :=
  (setEnumerate cast (run (dict kind lt) n ⟨[], []⟩ before).1.contents).map (fun e => ⟨.added, e.1, ()⟩) ++
    (later (run (dict kind lt) n ⟨[], []⟩ (before ++ .connect passOn :: after)).1 (run (dict kind lt) n ⟨[], []⟩ before).1.observers.length).map (setReport cast)

/-! Transactional collections: the diffs are converted entry by entry -/

/-- `ConvertDiffAndInvoke` of a list.  ListCaster.h 175-179. -/
def listDiff (cast : α → β) (d : List (Trans.DiffOp × Nat × α)) : List (Trans.DiffOp × Nat × β) := d.map fun e => (e.1, e.2.1, cast e.2.2)

/-- `ConvertDiffAndInvoke` of a dictionary.  DictionaryCaster.h 184-188. -/
def dictDiff (cast : ν → ν') (d : List (Trans.DiffOp × κ × ν)) : List (Trans.DiffOp × κ × ν') := d.map fun e => (e.1, e.2.1, cast e.2.2)

/-- `ConvertDiffAndInvoke` of a set.  SetCaster.h 170-174. -/
def setDiff (cast : κ → κ') (d : List (Trans.DiffOp × κ)) : List (Trans.DiffOp × κ') := d.map fun e => (e.1, cast e.2)

/-- `DefaultBackCast` for shared pointers, as numbers of objects, `none` the null pointer, where every object is of the source class: it fails for null.  ListCaster.h 215-220, SetCaster.h 210-215. -/
def defaultBack (p : Option Nat) : Option (Option Nat) :=
  match p with
  | some x => some (some x)
  | none => none

end Verif.Coll.Cast
