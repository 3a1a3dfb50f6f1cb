/-
Model of `FuzzyEquatable` and the comparer `FuzzyEquals` (compare/IFuzzyEquatable.h) with the treatment of shared pointers by `EqualsComparerBase` (compare/comparers.h 168-181).
Classes are numbers.  An object is a place in memory with its virtual base IFuzzyEquatable; where its FuzzyEquatable<T> is, relative to that, is decided by the class of the whole object,
which differs from what typeid says while a base of it is being constructed or destroyed.  What `DoFuzzyEquals` says is left open.
-/
namespace Verif.Util.Fuzzy

/-- An object: what typeid gives for it, the class of the whole object, the address of its IFuzzyEquatable.  For IFuzzyEquatable.h 29-40. -/
structure Obj where
  dyn : Nat
  whole : Nat
  addr : Int
deriving DecidableEq, Repr

/-- The classes: the distance from IFuzzyEquatable to FuzzyEquatable<T> in whole objects, and `DoFuzzyEquals` of the objects in memory, by their numbers.  For IFuzzyEquatable.h 38, 46. -/
structure World where
  delta : Nat → Int
  objs : List Obj
  doEquals : Nat → Nat → Bool

/-- A result: a bool, or undefined because no object is where the pointer points.  For IFuzzyEquatable.h 40-42. -/
inductive Res where
  | ok (b : Bool)
  | undef
deriving DecidableEq, Repr

/-- The address of the FuzzyEquatable<T> of an object (`this` in its methods), IFuzzyEquatable.h 36. -/
def fuzzyAddr (w : World) (o : Obj) : Int := o.addr + w.delta o.whole

/-- The object whose FuzzyEquatable<T> is at an address, IFuzzyEquatable.h 39-40: counted from `i`. -/
def objectAt (w : World) (a : Int) (i : Nat) : List Obj → Option Nat
  | [] => none
  | o :: os => if fuzzyAddr w o = a then some i else objectAt w a (i + 1) os

/-- `FuzzyEquals` of object `i` with the IFuzzyEquatable of object `j`, IFuzzyEquatable.h 27-43. -/
def fuzzyEquals (w : World) (i j : Nat) : Res :=
  match w.objs[i]?, w.objs[j]? with
  | some this, some other =>
    if this.dyn ≠ other.dyn then .ok false
    else
      (match objectAt w (other.addr + (fuzzyAddr w this - this.addr)) 0 w.objs with
      | some k => .ok (w.doEquals i k)
      | none => .undef)
  | _, _ => .undef

/-- What is compared: an object, or a shared pointer, to an object or again to a pointer.  For comparers.h 174-176. -/
inductive Val where
  | obj (i : Nat)
  | null
  | ptr (v : Val)
deriving DecidableEq, Repr

/-- `FuzzyEquals` the comparer: pointers by comparers.h 174-176, objects by IFuzzyEquatable.h 52-60.  Arguments of different types do not compile. -/
def compare (w : World) : Val → Val → Res
  | .ptr a, .ptr b => compare w a b
  | .ptr _, .null => .ok false
  | .null, .ptr _ => .ok false
  | .null, .null => .ok true
  | .obj i, .obj j => if i = j then .ok true else fuzzyEquals w i j
  | _, _ => .undef

end Verif.Util.Fuzzy
