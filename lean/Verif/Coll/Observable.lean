import Verif.Coll.Kinds
/-
Observable collections: ObservableDictionaryWrapper, ObservableSetWrapper, ObservableListWrapper, MultiMapObservableDictionary and
SortedObservableMultiSet.  A call changes the wrapped collection and reports each elementary change to the observers, all under one
recursive mutex, which also covers connecting (C48 is about the signal itself): calls and connections are one after another, and the
only calls in the middle of another one are those made by the observers themselves.

Simplifications:
* the sequence of elementary changes of one call is computed when it begins (the loops run over a snapshot, C95; the predicates are functions
  of the elements);
* observers do not call back while they are being populated.
-/
namespace Verif.Coll.Obs
open Verif.Order

/-- `CollectionOp`.  toolkit.h 333-341. -/
inductive Change where
  | added
  | updated
  | removed
deriving Repr, DecidableEq

/-- The arguments of OnChanged: key and value for dictionaries, index and value for lists, the element alone for sets.  IObservableDictionary.h 29, IObservableList.h 27, IObservableSet.h 27. -/
structure Event (κ ν : Type) where
  op : Change
  key : κ
  value : ν
deriving Repr, DecidableEq

/-- What a class does: the elementary changes (of the wrapped collection, and the event for it) and the result of a call, and what a new observer is told.
    ObservableDictionaryWrapper.h 124-188. -/
structure Machine (S E O R : Type) where
  plan : S → O → List ((S → S) × E) × R
  populate : S → List E

/-- One invocation of an observer: the event, what the collection contains at that moment, is it part of the population on connecting.  ObservableDictionaryWrapper.h 184-188. -/
structure Note (S E : Type) where
  ev : E
  seen : S
  pop : Bool
deriving Repr, DecidableEq

/-- An observer, the calls it makes in reaction to an event, and what it has been told.  ObservableDictionaryWrapper.h 177-178. -/
structure Observer (S E O : Type) where
  log : List (Note S E)
  react : E → S → List O
  connected : Bool

/-- The wrapped collection and the observers in the order in which they connected.  ObservableDictionaryWrapper.h 36-38. -/
structure Observed (S E O : Type) where
  contents : S
  observers : List (Observer S E O)

variable {S E O R : Type}

/-- The event reaches observer `i`, which makes its calls.  signals.h (operator(), C48); for ObservableDictionaryWrapper.h 130. -/
def deliver (call : Observed S E O → O → Observed S E O) (e : E) (w : Observed S E O) (i : Nat) : Observed S E O :=
  match w.observers[i]? with
  | none => w
  | some ob =>
    if ob.connected then
      (ob.react e w.contents).foldl call { w with observers := w.observers.set i { ob with log := ob.log ++ [⟨e, w.contents, false⟩] } }
    else w

/-- One elementary change and its notification: the wrapped collection first, then the observers one after another.  ObservableDictionaryWrapper.h 127-130, 138-139, 149-150, 160-161. -/
def change (call : Observed S E O → O → Observed S E O) (w : Observed S E O) (p : (S → S) × E) : Observed S E O :=
  (List.range w.observers.length).foldl (deliver call p.2) { w with contents := p.1 w.contents }

/-- A call with everything it brings about; `n` bounds the depth of calls from observers.  ObservableDictionaryWrapper.h 124-175. -/
def exec (m : Machine S E O R) : Nat → Observed S E O → O → Observed S E O
  | 0, w, _ => w
  | n + 1, w, o => (m.plan w.contents o).1.foldl (change (exec m n)) w

/-- What the program does.  ObservableDictionaryWrapper.h 124-178. -/
inductive Act (S E O : Type) where
  | call (o : O)
  | connect (react : E → S → List O)
  | disconnect (i : Nat)

/-- One step of the program, ObservableDictionaryWrapper.h 124-188. -/
def step (m : Machine S E O R) (n : Nat) (w : Observed S E O) : Act S E O → Observed S E O × Option R
  | .call o => (exec m n w o, some (m.plan w.contents o).2)
  | .connect react => ({ w with observers := w.observers ++ [⟨(m.populate w.contents).map fun e => ⟨e, w.contents, true⟩, react, true⟩] }, none)
  | .disconnect i =>
    match w.observers[i]? with
    | none => (w, none)
    | some ob => ({ w with observers := w.observers.set i { ob with connected := false } }, none)

/-- A program, ObservableDictionaryWrapper.h 124-188. -/
def run (m : Machine S E O R) (n : Nat) : Observed S E O → List (Act S E O) → Observed S E O × List (Option R)
  | w, [] => (w, [])
  | w, a :: as => ((run m n (step m n w a).1 as).1, (step m n w a).2 :: (run m n (step m n w a).1 as).2)

/-! The classes -/
variable {κ ν α : Type}

/-- `_wrapped.Remove(key)` and the report.  ObservableDictionaryWrapper.h 149-150, 160-161, 172-173, ObservableSetWrapper.h 136-137, 148-149. -/
def dictRemoval (kind : Kind) (lt : κ → κ → Bool) (e : κ × ν) : (List (κ × ν) → List (κ × ν)) × Event κ ν :=
  (fun xs => (Dict.remove kind lt xs e.1).getD xs, ⟨.removed, e.1, e.2⟩)

/-- ObservableDictionaryWrapper.h 124-175; for sets ObservableSetWrapper.h 110-151 (there is no `set`). -/
def dictPlan (kind : Kind) (lt : κ → κ → Bool) (xs : List (κ × ν)) : Dict.Op κ ν → List ((List (κ × ν) → List (κ × ν)) × Event κ ν) × Dict.Res
  | .add k v =>
    match Dict.add kind lt xs k v with
    | none => ([], .bool false)
    | some _ => ([(fun xs => (Dict.add kind lt xs k v).getD xs, ⟨.added, k, v⟩)], .bool true)
  | .set k v => ([(fun xs => Dict.set kind lt xs k v, ⟨if Dict.contains kind lt xs k then .updated else .added, k, v⟩)], .unit)
  | .remove k =>
    match Dict.get kind lt xs k with
    | none => ([], .bool false)
    | some v => ([dictRemoval kind lt (k, v)], .bool true)
  | .removeWhere p => ((xs.filter (fun e => p e.1 e.2)).map (dictRemoval kind lt), .num (xs.filter (fun e => p e.1 e.2)).length)
  | .clear => (xs.map (dictRemoval kind lt), .unit)

/-- ObservableDictionaryWrapper.h 124-188, ObservableSetWrapper.h 110-164. -/
def dict (kind : Kind) (lt : κ → κ → Bool) : Machine (List (κ × ν)) (Event κ ν) (Dict.Op κ ν) Dict.Res where
  plan := dictPlan kind lt
  populate := fun xs => xs.map fun e => ⟨.added, e.1, e.2⟩

/-- `_wrapped.RemoveFirst(key, value)` and the report.  MultiMapObservableDictionary.h 161-162, 175-176, 188-189, 200-201, SortedObservableMultiSet.h 130-133, 146-147, 159-160, 171-172. -/
def multiRemoval (lt : κ → κ → Bool) (veq : ν → ν → Bool) (e : κ × ν) : (List (κ × ν) → List (κ × ν)) × Event κ ν :=
  (fun xs => (Multi.removeFirst lt (Multi.accept veq (some e.2)) xs e.1).getD xs, ⟨.removed, e.1, e.2⟩)

/-- MultiMapObservableDictionary.h 137-203; for multi sets SortedObservableMultiSet.h 120-174. -/
def multiPlan (lt : κ → κ → Bool) (veq : ν → ν → Bool) (xs : List (κ × ν)) : Multi.Op κ ν → List ((List (κ × ν) → List (κ × ν)) × Event κ ν) × Dict.Res
  | .add k v => ([(fun xs => Multi.add lt xs k v, ⟨.added, k, v⟩)], .unit)
  | .removeFirst k v =>
    match (Multi.getAll lt xs k).find? (Multi.accept veq v) with
    | none => ([], .bool false)
    | some t => ([multiRemoval lt veq (k, t)], .bool true)
  | .removeAll k =>
    (((Multi.findFrom lt xs k).takeWhile (fun e => !(lt e.1 k || lt k e.1))).map (multiRemoval lt veq),
     .num ((Multi.findFrom lt xs k).takeWhile (fun e => !(lt e.1 k || lt k e.1))).length)
  | .removeWhere p => ((xs.filter (fun e => p e.1 e.2)).map (multiRemoval lt veq), .num (xs.filter (fun e => p e.1 e.2)).length)
  | .clear => (xs.map (multiRemoval lt veq), .unit)

/-- MultiMapObservableDictionary.h 137-216, SortedObservableMultiSet.h 120-187. -/
def multi (lt : κ → κ → Bool) (veq : ν → ν → Bool) : Machine (List (κ × ν)) (Event κ ν) (Multi.Op κ ν) Dict.Res where
  plan := multiPlan lt veq
  populate := fun xs => xs.map fun e => ⟨.added, e.1, e.2⟩

/-- Calls that change a list.  ObservableListWrapper.h 116-180. -/
inductive LOp (α : Type) where
  | add (v : α)
  | set (i : Nat) (v : α)
  | insert (i : Nat) (v : α)
  | removeAt (i : Nat)
  | remove (v : α)
  | removeAll (p : α → Bool)
  | clear

/-- Their results; `none`: IndexOutOfRangeException.  ObservableListWrapper.h 116-180. -/
abbrev LRes := Option Dict.Res

/-- `_wrapped.RemoveAt(index)` and the report.  ObservableListWrapper.h 141-142, 168-169. -/
def listRemoval (i : Nat) (v : α) : (List α → List α) × Event Nat α := (fun xs => (Lst.removeAt xs i).getD xs, ⟨.removed, i, v⟩)

/-- The loop of `RemoveAll`; `n` is `count - index`.  ObservableListWrapper.h 161-171. -/
def removePlan (p : α → Bool) : Nat → Nat → Nat → List α → List ((List α → List α) × Event Nat α)
  | 0, _, _, _ => []
  | n + 1, index, ret, xs =>
    match xs[index - ret]? with
    | none => []
    | some v =>
      if p v then listRemoval (index - ret) v :: removePlan p n (index + 1) (ret + 1) ((Lst.removeAt xs (index - ret)).getD xs)
      else removePlan p n (index + 1) ret xs

/-- ObservableListWrapper.h 116-180. -/
def listPlan [DecidableEq α] (xs : List α) : LOp α → List ((List α → List α) × Event Nat α) × LRes
  | .add v => ([(fun xs => Lst.add xs v, ⟨.added, xs.length, v⟩)], some .unit)
  | .set i v =>
    match Lst.set xs i v with
    | none => ([], none)
    | some _ => ([(fun xs => (Lst.set xs i v).getD xs, ⟨.updated, i, v⟩)], some .unit)
  | .insert i v =>
    match Lst.insert xs i v with
    | none => ([], none)
    | some _ => ([(fun xs => (Lst.insert xs i v).getD xs, ⟨.added, i, v⟩)], some .unit)
  | .removeAt i =>
    match Lst.get xs i with
    | none => ([], none)
    | some v => ([listRemoval i v], some .unit)
  | .remove v =>
    match Lst.indexOf xs v with
    | none => ([], some (.bool false))
    | some i =>
      match Lst.get xs i with
      | none => ([], none)
      | some u => ([listRemoval i u], some (.bool true))
  | .removeAll p => (removePlan p xs.length 0 0 xs, some (.num (removePlan p xs.length 0 0 xs).length))
  | .clear => (xs.map (listRemoval 0), some .unit)

/-- ObservableListWrapper.h 116-194. -/
def list [DecidableEq α] : Machine (List α) (Event Nat α) (LOp α) LRes where
  plan := listPlan
  populate := fun xs => xs.zipIdx.map fun e => ⟨.added, e.2, e.1⟩

end Verif.Coll.Obs
