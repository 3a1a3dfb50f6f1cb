import Verif.Order.Basic
/-
The methods of the collection classes as functions of the elements (in iteration order): GenericList over std::vector,
GenericSet and GenericDictionary over std::set/std::map/flat_set/flat_map (`Kind.sorted`) or ordered_set/ordered_map
(`Kind.insertion`), SortedMultiSet over std::multiset, MultiMapDictionary over std::multimap.  Coll/Cow.lean is about where the elements live.

A set is a dictionary whose values carry no information (`ν = Unit`); the entries of a dictionary are pairs.
Library contracts: `lower_bound`, `upper_bound`, `equal_range`, `find` and insertion of an absent key into a sorted container (with or
without hint); ordered_map appends new keys (C17).
-/
namespace Verif.Coll
open Verif.Order

/-! GenericList -/
namespace Lst
variable {α : Type}

/-- `Get(index)`; `none`: IndexOutOfRangeException.  GenericList.h 102-106. -/
def get (xs : List α) (i : Nat) : Option α := if i < xs.length then xs[i]? else none

/-- `TryGet(index, value)`.  GenericList.h 108-115. -/
def tryGet (xs : List α) (i : Nat) : Option α := if i ≥ xs.length then none else xs[i]?

/-- `IndexOf(value)`.  GenericList.h 96-100. -/
def indexOf [DecidableEq α] (xs : List α) (v : α) : Option Nat := xs.findIdx? (fun x => decide (x = v))

/-- `Contains(value)`.  GenericList.h 93-94. -/
def contains [DecidableEq α] (xs : List α) (v : α) : Bool := (xs.findIdx? (fun x => decide (x = v))).isSome

/-- `Add(value)`.  GenericList.h 117-121. -/
def add (xs : List α) (v : α) : List α := xs ++ [v]

/-- `Set(index, value)`; `none`: IndexOutOfRangeException, nothing changed.  GenericList.h 123-128. -/
def set (xs : List α) (i : Nat) (v : α) : Option (List α) := if i < xs.length then some (xs.set i v) else none

/-- `Insert(index, value)`.  GenericList.h 130-135. -/
def insert (xs : List α) (i : Nat) (v : α) : Option (List α) := if i ≤ xs.length then some (xs.take i ++ v :: xs.drop i) else none

/-- `RemoveAt(index)`.  GenericList.h 137-142. -/
def removeAt (xs : List α) (i : Nat) : Option (List α) := if i < xs.length then some (xs.eraseIdx i) else none

/-- `Remove(value)`: the elements afterwards, or `none` and false.  GenericList.h 144-155. -/
def remove [DecidableEq α] (xs : List α) (v : α) : Option (List α) :=
  match indexOf xs v with
  | none => none
  | some i => some (xs.eraseIdx i)

/-- The second loop of `std::remove_if`: the element at `i` is moved down to `res` unless the predicate holds; `gone` is what is left of an element that has been moved.  The predicate may throw
    (`none`): then the elements stay as they are at that moment.  In GenericList.h 160. -/
def removeIfLoop (pred : α → Option Bool) (gone : α → α) : Nat → Nat → Nat → List α → List α × Option Nat
  | 0, _, res, xs => (xs, some res)
  | n + 1, i, res, xs =>
    match xs[i]? with
    | none => (xs, some res)
    | some x =>
      match pred x with
      | none => (xs, none)
      | some true => removeIfLoop pred gone n (i + 1) res xs
      | some false => removeIfLoop pred gone n (i + 1) (res + 1) ((xs.set res x).set i (gone x))

/-- The first loop (`find_if`): nothing is moved before the first element to be removed.  In GenericList.h 160. -/
def removeIf (pred : α → Option Bool) (gone : α → α) : Nat → Nat → List α → List α × Option Nat
  | 0, i, xs => (xs, some i)
  | n + 1, i, xs =>
    match xs[i]? with
    | none => (xs, some i)
    | some x =>
      match pred x with
      | none => (xs, none)
      | some true => removeIfLoop pred gone n (i + 1) i xs
      | some false => removeIf pred gone n (i + 1) xs

/-- `RemoveAll(pred)`: the elements afterwards and the result, `none` if the predicate threw.  GenericList.h 157-164. -/
def removeAll (pred : α → Option Bool) (gone : α → α) (xs : List α) : List α × Option Nat :=
  match removeIf pred gone xs.length 0 xs with
  | (ys, none) => (ys, none)
  | (ys, some p) => (ys.take p, some (ys.length - p))

end Lst

/-! GenericSet, GenericDictionary -/

/-- The underlying container: kept in key order (std::set, std::map, flat_set, flat_map) or in order of insertion (ordered_set, ordered_map).  MapDictionary.h 23-24, FlatMapDictionary.h 22-23,
    OrderedDictionary.h 22-23, SortedSet.h 23-24, FlatSortedSet.h 22-23, OrderedSet.h 22-23. -/
inductive Kind where
  | sorted
  | insertion
deriving Repr, DecidableEq

namespace Dict
variable {κ ν : Type}

/-- `lower_bound(key)` followed by the test that the entry there is not after the key: GenericDictionary.h 190-191, 213-214, GenericSet.h 163-164; also what `find(key)` does in a sorted container. -/
def atLower (lt : κ → κ → Bool) (xs : List (κ × ν)) (k : κ) : Option Nat :=
  match xs[lowerBound lt Prod.fst xs k]? with
  | none => none
  | some e => if lt k e.1 then none else some (lowerBound lt Prod.fst xs k)

/-- `find(key)`.  GenericDictionary.h 103, 121, 128, 146, 224, GenericSet.h 98, 107, 119. -/
def find (kind : Kind) (lt : κ → κ → Bool) (xs : List (κ × ν)) (k : κ) : Option Nat :=
  match kind with
  | .sorted => atLower lt xs k
  | .insertion => xs.findIdx? (fun e => equiv lt e.1 k)

/-- `emplace`, `emplace_hint`, `insert` of a key that is not there.  GenericDictionary.h 195, 197, 206, 217, 228, GenericSet.h 168, 170, 179. -/
def put (kind : Kind) (lt : κ → κ → Bool) (xs : List (κ × ν)) (k : κ) (v : ν) : List (κ × ν) :=
  match kind with
  | .sorted => xs.take (lowerBound lt Prod.fst xs k) ++ (k, v) :: xs.drop (lowerBound lt Prod.fst xs k)
  | .insertion => xs ++ [(k, v)]

/-- `Contains`, `ContainsKey`.  GenericDictionary.h 98-99, GenericSet.h 93-94. -/
def contains (kind : Kind) (lt : κ → κ → Bool) (xs : List (κ × ν)) (k : κ) : Bool := (find kind lt xs k).isSome

/-- `Get` (throws if `none`), `TryGet`.  GenericDictionary.h 119-136. -/
def get (kind : Kind) (lt : κ → κ → Bool) (xs : List (κ × ν)) (k : κ) : Option ν :=
  match find kind lt xs k with
  | none => none
  | some i => (xs[i]?).map Prod.snd

/-- `Add`; `none`: returns false.  GenericDictionary.h 138-139, 187-207, GenericSet.h 114-115, 160-180. -/
def add (kind : Kind) (lt : κ → κ → Bool) (xs : List (κ × ν)) (k : κ) (v : ν) : Option (List (κ × ν)) :=
  match find kind lt xs k with
  | none => some (put kind lt xs k v)
  | some _ => none

/-- `Set`: the key of an existing entry stays as it is.  GenericDictionary.h 141-142, 209-229. -/
def set (kind : Kind) (lt : κ → κ → Bool) (xs : List (κ × ν)) (k : κ) (v : ν) : List (κ × ν) :=
  match find kind lt xs k with
  | none => put kind lt xs k v
  | some i => xs.modify i (fun e => (e.1, v))

/-- `Remove`; `none`: returns false.  GenericDictionary.h 144-156, GenericSet.h 117-129. -/
def remove (kind : Kind) (lt : κ → κ → Bool) (xs : List (κ × ν)) (k : κ) : Option (List (κ × ν)) :=
  match find kind lt xs k with
  | none => none
  | some i => some (xs.eraseIdx i)

/-- What `Find(key)` enumerates.  GenericDictionary.h 101-108, GenericSet.h 96-103. -/
def findFrom (kind : Kind) (lt : κ → κ → Bool) (xs : List (κ × ν)) (k : κ) : List (κ × ν) :=
  match find kind lt xs k with
  | none => []
  | some i => xs.drop i

/-- What `ReverseFind(key)` enumerates: from the reverse iterator made of the position after the entry.  GenericDictionary.h 110-117, GenericSet.h 105-112. -/
def reverseFindFrom (kind : Kind) (lt : κ → κ → Bool) (xs : List (κ × ν)) (k : κ) : List (κ × ν) :=
  match find kind lt xs k with
  | none => []
  | some i => (xs.take (i + 1)).reverse

/-- Calls that change a set or dictionary.  GenericDictionary.h 138-184, GenericSet.h 114-157. -/
inductive Op (κ ν : Type) where
  | add (k : κ) (v : ν)
  | set (k : κ) (v : ν)
  | remove (k : κ)
  | removeWhere (p : κ → ν → Bool)
  | clear

/-- What the call returns.  GenericDictionary.h 138-184, GenericSet.h 114-157. -/
inductive Res where
  | unit
  | bool (b : Bool)
  | num (n : Nat)
deriving Repr, DecidableEq

/-- One call, GenericDictionary.h 138-184 and GenericSet.h 114-157.  The loop of RemoveWhere is in Coll/Cow.lean; here its effect (removeWhere_partial). -/
def step (kind : Kind) (lt : κ → κ → Bool) (xs : List (κ × ν)) : Op κ ν → List (κ × ν) × Res
  | .add k v =>
    match add kind lt xs k v with
    | none => (xs, .bool false)
    | some ys => (ys, .bool true)
  | .set k v => (set kind lt xs k v, .unit)
  | .remove k =>
    match remove kind lt xs k with
    | none => (xs, .bool false)
    | some ys => (ys, .bool true)
  | .removeWhere p => (xs.filter (fun e => !p e.1 e.2), .num (xs.filter (fun e => p e.1 e.2)).length)
  | .clear => ([], .unit)

/-- A history of calls, GenericDictionary.h 138-184. -/
def run (kind : Kind) (lt : κ → κ → Bool) : List (κ × ν) → List (Op κ ν) → List (κ × ν) × List Res
  | xs, [] => (xs, [])
  | xs, op :: ops => ((run kind lt (step kind lt xs op).1 ops).1, (step kind lt xs op).2 :: (run kind lt (step kind lt xs op).1 ops).2)

end Dict

/-! SortedMultiSet, MultiMapDictionary -/
namespace Multi
variable {κ ν : Type}

/-- `upper_bound(key)` (library contract): the first position whose entry is after the key.  SortedMultiSet.h 114, MultiMapDictionary.h 124. -/
def upperBound (lt : κ → κ → Bool) (xs : List (κ × ν)) (k : κ) : Nat := (xs.takeWhile (fun e => !lt k e.1)).length

/-- The entries of `equal_range(key)`.  SortedMultiSet.h 143, MultiMapDictionary.h 150, 165, 186. -/
def range (lt : κ → κ → Bool) (xs : List (κ × ν)) (k : κ) : List (κ × ν) :=
  (xs.take (upperBound lt xs k)).drop (lowerBound lt Prod.fst xs k)

/-- `Count`, `CountKey`.  SortedMultiSet.h 98-99, MultiMapDictionary.h 108-109. -/
def count (lt : κ → κ → Bool) (xs : List (κ × ν)) (k : κ) : Nat := (range lt xs k).length

/-- `Contains`, `ContainsKey`.  SortedMultiSet.h 95-96, MultiMapDictionary.h 105-106. -/
def contains (lt : κ → κ → Bool) (xs : List (κ × ν)) (k : κ) : Bool := (Dict.atLower lt xs k).isSome

/-- `GetFirst` (throws if `none`), `TryGetFirst`.  MultiMapDictionary.h 131-146. -/
def getFirst (lt : κ → κ → Bool) (xs : List (κ × ν)) (k : κ) : Option ν :=
  match Dict.atLower lt xs k with
  | none => none
  | some i => (xs[i]?).map Prod.snd

/-- `GetAll`.  MultiMapDictionary.h 148-155. -/
def getAll (lt : κ → κ → Bool) (xs : List (κ × ν)) (k : κ) : List ν := (range lt xs k).map Prod.snd

/-- What `Find` enumerates.  SortedMultiSet.h 101-108, MultiMapDictionary.h 111-118. -/
def findFrom (lt : κ → κ → Bool) (xs : List (κ × ν)) (k : κ) : List (κ × ν) :=
  match Dict.atLower lt xs k with
  | none => []
  | some i => xs.drop i

/-- What `ReverseFind` enumerates; `none`: a position before the first entry is read (undefined behaviour).  SortedMultiSet.h 110-119, MultiMapDictionary.h 120-129. -/
def reverseFindFrom (lt : κ → κ → Bool) (xs : List (κ × ν)) (k : κ) : Option (List (κ × ν)) :=
  if upperBound lt xs k = xs.length then some []
  else
    match upperBound lt xs k with
    | 0 => none
    | i + 1 =>
      match xs[i]? with
      | none => none
      | some e => if lt e.1 k then some [] else some (xs.take (i + 1)).reverse

/-- `Add`: at the upper bound of the keys equal to it (`insert`, `emplace` of a multi container).  SortedMultiSet.h 121-125, MultiMapDictionary.h 157-161. -/
def add (lt : κ → κ → Bool) (xs : List (κ × ν)) (k : κ) (v : ν) : List (κ × ν) :=
  xs.take (upperBound lt xs k) ++ (k, v) :: xs.drop (upperBound lt xs k)

/-- The loop of `RemoveFirst`: offset of the first entry of the range that will do.  MultiMapDictionary.h 167-181; without a condition SortedMultiSet.h 129-131. -/
def firstIn (ok : ν → Bool) : List (κ × ν) → Nat → Option Nat
  | [], _ => none
  | e :: es, offset => if ok e.2 then some offset else firstIn ok es (offset + 1)

/-- `RemoveFirst`; `none`: returns false.  SortedMultiSet.h 127-139, MultiMapDictionary.h 163-182.  `ok`: the value given, if any, is equal. -/
def removeFirst (lt : κ → κ → Bool) (ok : ν → Bool) (xs : List (κ × ν)) (k : κ) : Option (List (κ × ν)) :=
  match firstIn ok (range lt xs k) 0 with
  | none => none
  | some offset => some (xs.eraseIdx (lowerBound lt Prod.fst xs k + offset))

/-- `RemoveAll(key)`: the entries and the result.  SortedMultiSet.h 141-158, MultiMapDictionary.h 184-201. -/
def removeAll (lt : κ → κ → Bool) (xs : List (κ × ν)) (k : κ) : List (κ × ν) × Nat :=
  (xs.take (lowerBound lt Prod.fst xs k) ++ xs.drop (upperBound lt xs k), (range lt xs k).length)

/-- Calls that change a multi set or multi dictionary.  SortedMultiSet.h 121-186, MultiMapDictionary.h 157-229. -/
inductive Op (κ ν : Type) where
  | add (k : κ) (v : ν)
  | removeFirst (k : κ) (v : Option ν)
  | removeAll (k : κ)
  | removeWhere (p : κ → ν → Bool)
  | clear

/-- `!value || ValueCompareType()(*value, it->second)`.  MultiMapDictionary.h 170. -/
def accept (veq : ν → ν → Bool) (v : Option ν) (w : ν) : Bool :=
  match v with
  | none => true
  | some v => veq v w

/-- One call, SortedMultiSet.h 121-186 and MultiMapDictionary.h 157-229. -/
def step (lt : κ → κ → Bool) (veq : ν → ν → Bool) (xs : List (κ × ν)) : Op κ ν → List (κ × ν) × Dict.Res
  | .add k v => (add lt xs k v, .unit)
  | .removeFirst k v =>
    match removeFirst lt (accept veq v) xs k with
    | none => (xs, .bool false)
    | some ys => (ys, .bool true)
  | .removeAll k => ((removeAll lt xs k).1, .num (removeAll lt xs k).2)
  | .removeWhere p => (xs.filter (fun e => !p e.1 e.2), .num (xs.filter (fun e => p e.1 e.2)).length)
  | .clear => ([], .unit)

/-- A history of calls, SortedMultiSet.h 121-186 and MultiMapDictionary.h 157-229. -/
def run (lt : κ → κ → Bool) (veq : ν → ν → Bool) : List (κ × ν) → List (Op κ ν) → List (κ × ν) × List Dict.Res
  | xs, [] => (xs, [])
  | xs, op :: ops => ((run lt veq (step lt veq xs op).1 ops).1, (step lt veq xs op).2 :: (run lt veq (step lt veq xs op).1 ops).2)

end Multi
end Verif.Coll
