import Verif.Meta.TypeList
/-
Model of tuples, Tuple.h 22-363.  A tuple is the list of its items with their types.  Where C++ would not compile (no such item, item of another type than declared) the result is `none`.
Simplified: references to items are the items; copying or moving an item gives this item.
-/
namespace Verif.Meta.Tup

open Verif.Meta.TypeList

/-- `Tuple`: Tuple.h 77-92: types and values. -/
abbrev Tuple (τ ν : Type) := List (τ × ν)

/-- `Tuple::Types`: Tuple.h 84. -/
def types {τ ν : Type} (t : Tuple τ ν) : List τ := transform (fun e => e.1) t

variable {τ ν : Type}

/-- `TupleItemGetter`, `Tuple::Get<Index>`: Tuple.h 25-49, 137-147. -/
def get : Tuple τ ν → Nat → Option (τ × ν)
  | [], _ => none
  | e :: _, 0 => some e
  | _ :: t, n + 1 => get t n

/-- `Tuple::Get<Type, Index>`, `Tuple::Get<Type>` with index 0: Tuple.h 149-171. -/
def getType [DecidableEq τ] (t : Tuple τ ν) (ty : τ) (k : Nat) : Option (τ × ν) :=
  match indexOf (types t) ty k with
  | none => none
  | some i => get t i

/-- The constructors with `TupleConstructorTag`, `CreateFromTupleLikeObject`: Tuple.h 115-127, 188-198: declared types, `Get` of the tuple-like object, offset. -/
def create [DecidableEq τ] (g : Nat → Option (τ × ν)) : List τ → Nat → Option (Tuple τ ν)
  | [], _ => some []
  | ty :: tys, i =>
    match g i, create g tys (i + 1) with
    | some e, some t => if e.1 = ty then some (e :: t) else none
    | _, _ => none

/-- `GetHeadSize`, `TupleOfTuplesIndexes`: Tuple.h 215-237. -/
def indexes : List (Tuple τ ν) → Nat → Option (Nat × Nat)
  | [], _ => none
  | t :: ts, i =>
    if length t ≤ i then
      match indexes ts (i - length t) with
      | none => none
      | some (a, b) => some (a + 1, b)
    else some (0, i)

/-- `TupleConcater::Get`: Tuple.h 259-267. -/
def concatGet (ts : List (Tuple τ ν)) (i : Nat) : Option (τ × ν) :=
  match indexes ts i with
  | none => none
  | some (a, b) =>
    match item ts a with
    | none => none
    | some t => get t b

/-- `ConcatTuples`: Tuple.h 243-247, 273-278. -/
def concat [DecidableEq τ] (ts : List (Tuple τ ν)) : Option (Tuple τ ν) :=
  create (concatGet ts) (merge (transform types ts) []) 0

/-- `TupleReverser::Get`: Tuple.h 297-303. -/
def reverseGet (t : Tuple τ ν) (i : Nat) : Option (τ × ν) :=
  get t (length (types t) - (i + 1))

/-- `ReverseTuple`: Tuple.h 309-311. -/
def reverseTuple [DecidableEq τ] (t : Tuple τ ν) : Option (Tuple τ ν) :=
  create (reverseGet t) (TypeList.reverse (types t)) 0

/-- `ToMyType`, `ToTypeWithIndex`: Tuple.h 322-326. -/
def toMyType (n : Nat) (ty : τ) (result : List (τ × Nat)) : List (τ × Nat) :=
  merge [[(ty, n - length result - 1)], result] []

/-- `MyTypesWithIndexes`: Tuple.h 337-338. -/
def typesWithIndexes (p : τ → Bool) (tys : List τ) : List (τ × Nat) :=
  copyIf (fun e => p e.1) (accumulate (toMyType (length tys)) [] tys)

/-- `TupleFilter::Get`: Tuple.h 349-355. -/
def filterGet (p : τ → Bool) (t : Tuple τ ν) (i : Nat) : Option (τ × ν) :=
  match item (typesWithIndexes p (types t)) i with
  | none => none
  | some e => get t e.2

/-- `FilterTuple`: Tuple.h 361-363. -/
def filterTuple [DecidableEq τ] (p : τ → Bool) (t : Tuple τ ν) : Option (Tuple τ ν) :=
  create (filterGet p t) (copyIf p (types t)) 0

end Verif.Meta.Tup
