/-
Model of the comparers: compare/comparers.h, compare/CollectionComparer.h, compare/MemberListComparer.h, compare/Comparable.h, optional.h 449-455.
A `Cmp` comparer returns a number below, equal to or above 0.  Simplification: the shortcut for the same object (`&lhs == &rhs`) is not modelled; it returns what a comparer that is an order returns anyway
(theorem `shortcut`).
-/
namespace Verif.Util

/-- A `Cmp` comparer, comparers.h 44. -/
abbrev Cmp (α : Type) := α → α → Int

/-- `LessToCmp`, comparers.h 422-424; `Cmp` for types with `operator <`, comparers.h 209-218. -/
def lessToCmp {α : Type} (less : α → α → Bool) : Cmp α := fun a b => if less a b then -1 else if less b a then 1 else 0

/-- `LessToEquals`, comparers.h 401-403. -/
def lessToEquals {α : Type} (less : α → α → Bool) (a b : α) : Bool := !less a b && !less b a

/-- `CmpToLess`, comparers.h 338-340. -/
def cmpToLess {α : Type} (c : Cmp α) (a b : α) : Bool := decide (c a b < 0)

/-- `CmpToGreater`, comparers.h 359-361. -/
def cmpToGreater {α : Type} (c : Cmp α) (a b : α) : Bool := decide (c a b > 0)

/-- `CmpToEquals`, comparers.h 380-382. -/
def cmpToEquals {α : Type} (c : Cmp α) (a b : α) : Bool := decide (c a b = 0)

/-- `CmpComparerBase::Compare` of two shared pointers, comparers.h 140-142. -/
def ptrCmp {α : Type} (c : Cmp α) : Cmp (Option α)
  | some a, some b => c a b
  | some _, none => 1
  | none, some _ => -1
  | none, none => 0

/-- `LessComparerBase::Compare` of two shared pointers, comparers.h 157-159. -/
def ptrLess {α : Type} (less : α → α → Bool) : Option α → Option α → Bool
  | some a, some b => less a b
  | a, b => a.isNone && b.isSome

/-- `EqualsComparerBase::Compare` of two shared pointers, comparers.h 174-176. -/
def ptrEquals {α : Type} (eq : α → α → Bool) : Option α → Option α → Bool
  | some a, some b => eq a b
  | a, b => a.isNone && b.isNone

/-- `GreaterComparerBase::Compare` of two shared pointers, comparers.h 191-193. -/
def ptrGreater {α : Type} (greater : α → α → Bool) : Option α → Option α → Bool
  | some a, some b => greater a b
  | a, b => a.isSome && b.isNone

/-- `CollectionComparer::DoCompareRanges`, CollectionComparer.h 36-49. -/
def collectionCmp {α : Type} (c : Cmp α) : Cmp (List α)
  | [], b => if b.isEmpty then 0 else -1
  | _ :: _, [] => 1
  | x :: xs, y :: ys => if c x y ≠ 0 then c x y else collectionCmp c xs ys

/-- `MemberListComparerImpl::Do`, MemberListComparer.h 37-45, 52-54; a member is given by its comparer on the whole objects. -/
def memberCmp {α : Type} : List (Cmp α) → Cmp α
  | [], _, _ => 0
  | c :: cs, a, b => if c a b ≠ 0 then c a b else memberCmp cs a b

/-- `operator <` of two optionals, optional.h 454-456. -/
def optionalLess {α : Type} (less : α → α → Bool) (a b : Option α) : Bool :=
  match b with
  | none => false
  | some y =>
    match a with
    | none => true
    | some x => less x y

/-- `Comparable::Compare`, Comparable.h 29-48: objects of different types are ordered by `type_info::before`. -/
def comparable {α τ : Type} [DecidableEq τ] (type : α → τ) (before : τ → τ → Bool) (same : Cmp α) : Cmp α := fun a b =>
  if type a ≠ type b then (if before (type a) (type b) then -1 else 1) else same a b

end Verif.Util
