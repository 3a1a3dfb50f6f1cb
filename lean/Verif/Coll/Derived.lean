import Verif.Coll.Observable
import Verif.Trans.Observer
/-
Views of one key, and of the keys, of observable and transactional dictionaries.
Simplifications: a value of a nullable type is a value like any other (for `shared_ptr` and the like, the library makes no difference between a key with the value null and a missing key);
the views are alive as long as their observers.
-/
namespace Verif.Coll.Obs
open Verif.Order
variable {κ ν : Type}

/-- `InvokeOnChanged` of the value of one key: what it tells its observers, if anything.  ObservableDictionaryKeyValue.h 66-70. -/
def valueReport (ceq : κ → κ → Bool) (key : κ) (e : Event κ ν) : Option (Option ν) :=
  if ceq key e.key then some (if e.op = .removed then none else some e.value) else none

/-- `InvokeOnChanged` of the membership of one element.  ObservableSetEntry.h 53-57. -/
def memberReport (ceq : κ → κ → Bool) (key : κ) (e : Event κ Unit) : Option Bool :=
  if ceq key e.key then some (decide (e.op = .added)) else none

/-- `InvokeOnChanged` of the set of keys.  DictionaryKeysSet.h 92-96. -/
def keysReport (e : Event κ ν) : Option (Event κ Unit) :=
  if e.op ≠ .updated then some ⟨e.op, e.key, ()⟩ else none

/-- The observer that a view connects to the dictionary: it only passes reports on.  ObservableDictionaryKeyValue.h 50, ObservableSetEntry.h 40, DictionaryKeysSet.h 82. -/
def passOn {S E O : Type} : E → S → List O := fun _ _ => []

/-- What the `i`-th observer of the dictionary has been told, without the population.  ObservableDictionaryKeyValue.h 50 (`connect(…, false)`). -/
def later {S E O : Type} (w : Observed S E O) (i : Nat) : List E :=
  match w.observers[i]? with
  | none => []
  | some ob => (ob.log.filter fun n => !n.pop).map Note.ev

/-- Everything an observer of the value of a key is told: the value when it connects, after `before`, and then the reports during `after`.  ObservableDictionaryKeyValue.h 53-73. -/
def valueLog (kind : Kind) (lt ceq : κ → κ → Bool) (n : Nat) (key : κ) (before after : List (Act (List (κ × ν)) (Event κ ν) (Dict.Op κ ν))) : List (Option ν) :=
  Dict.get kind lt (run (dict kind lt) n ⟨[], []⟩ before).1.contents key ::
    (later (run (dict kind lt) n ⟨[], []⟩ (before ++ .connect passOn :: after)).1 (run (dict kind lt) n ⟨[], []⟩ before).1.observers.length).filterMap (valueReport ceq key)

/-- The same for the membership of an element.  ObservableSetEntry.h 43-60. -/
def memberLog (kind : Kind) (lt ceq : κ → κ → Bool) (n : Nat) (key : κ) (before after : List (Act (List (κ × Unit)) (Event κ Unit) (Dict.Op κ Unit))) : List Bool :=
  Dict.contains kind lt (run (dict kind lt) n ⟨[], []⟩ before).1.contents key ::
    (later (run (dict kind lt) n ⟨[], []⟩ (before ++ .connect passOn :: after)).1 (run (dict kind lt) n ⟨[], []⟩ before).1.observers.length).filterMap (memberReport ceq key)

/-- Everything an observer of the set of keys is told: `Added` for the keys when it connects, and then the reports.  DictionaryKeysSet.h 92-99. -/
def keysLog (kind : Kind) (lt : κ → κ → Bool) (n : Nat) (before after : List (Act (List (κ × ν)) (Event κ ν) (Dict.Op κ ν))) : List (Event κ Unit) :=
  ((dict kind lt).populate (run (dict kind lt) n ⟨[], []⟩ before).1.contents).map (fun e => ⟨e.op, e.key, ()⟩) ++
    (later (run (dict kind lt) n ⟨[], []⟩ (before ++ .connect passOn :: after)).1 (run (dict kind lt) n ⟨[], []⟩ before).1.observers.length).filterMap keysReport

/-- `Set` of the value of a key, as a call on the dictionary.  ObservableDictionaryKeyValue.h 102-117. -/
def valueSet (key : κ) : Option ν → Dict.Op κ ν
  | some v => .set key v
  | none => .remove key

/-- `Set` of the membership of an element.  ObservableSetEntry.h 81-87. -/
def memberSet (key : κ) (b : Bool) : Dict.Op κ Unit := if b then .add key () else .remove key

end Verif.Coll.Obs

namespace Verif.Trans
variable {κ ν : Type}

/-- `FindNext()` with `_entry` and what is left of the source; `none`: the check on the sequence of operations fails.  (The diffs of transactional dictionaries have only two kinds of entries, so
    `CheckDiffEntry` succeeds.)  DictionaryKeysSet.h 153-181. -/
def findNext (ceq : κ → κ → Bool) : Option (DiffOp × κ × ν) → List (DiffOp × κ × ν) → Option (Option (DiffOp × κ × ν) × List (DiffOp × κ × ν))
  | entry, [] => some (entry, [])
  | none, x :: xs => findNext ceq (some x) xs
  | some e, x :: xs =>
    if !ceq e.2.1 x.2.1 then some (some e, x :: xs)
    else if e.1 = .removed ∧ x.1 = .added then findNext ceq none xs
    else none

/-- Going through the enumerator: `Get`, `Next` while `Valid`.  DictionaryKeysSet.h 131-150. -/
def keysDiffLoop (ceq : κ → κ → Bool) : Nat → List (DiffOp × κ × ν) → Option (List (DiffOp × κ))
  | 0, _ => some []
  | n + 1, src =>
    match findNext ceq none src with
    | none => none
    | some (none, _) => some []
    | some (some e, rest) => (keysDiffLoop ceq n rest).map fun d => (e.1, e.2.1) :: d

/-- The diff of the keys.  Each entry takes at least one entry of the source.  DictionaryKeysSet.h 207-209. -/
def keysDiff (ceq : κ → κ → Bool) (d : List (DiffOp × κ × ν)) : Option (List (DiffOp × κ)) := keysDiffLoop ceq d.length d

/-- What the observers of the keys are sent for a diff of the dictionary: an outer `none` is a failed check, an inner one nothing.  DictionaryKeysSet.h 207-213. -/
def keysSent (ceq : κ → κ → Bool) (d : List (DiffOp × κ × ν)) : Option (Option (List (DiffOp × κ))) :=
  (keysDiff ceq d).map fun r => if r.isEmpty then none else some r

/-- `InvokeOnChanged`: the last entry for the key, if any.  TransactionalDictionaryKeyValue.h 67-80. -/
def valueSent (ceq : κ → κ → Bool) (key : κ) (d : List (DiffOp × κ × ν)) : Option (Option ν) :=
  d.foldl (fun acc x => if ceq key x.2.1 then some (if x.1 = .removed then none else some x.2.2) else acc) none

/-- What an observer of the value of a key is told during a history, from the results of the calls.  TransactionalDictionaryKeyValue.h 51, 67-80. -/
def valueReports (ceq : κ → κ → Bool) (key : κ) (outs : List (Out (κ × ν) ν)) : List (Option ν) :=
  (outs.filterMap sent).filterMap (valueSent ceq key)

/-- What an observer of the keys is sent during a history; `none`: a check fails.  DictionaryKeysSet.h 194, 207-213. -/
def keysReports (ceq : κ → κ → Bool) : List (List (DiffOp × κ × ν)) → Option (List (List (DiffOp × κ)))
  | [] => some []
  | d :: ds => (keysSent ceq d).bind fun r => (keysReports ceq ds).map fun rs => r.toList ++ rs

/-- What the observer of the keys that connects is sent.  DictionaryKeysSet.h 204-205, TransactionalDictionary.h 220-224. -/
def keysPopulate (ceq : κ → κ → Bool) (items : List (κ × ν)) : Option (Option (List (DiffOp × κ))) :=
  if items.isEmpty then some none else keysSent ceq (items.map fun e => (.added, e))

end Verif.Trans
