import Verif.Util.Compare
import Verif.Str.Parse

/-
Model of Version (Version.h, Version.cpp).
-/
namespace Verif.Util

open Verif.Str

/-- `Version`, Version.h 16-31; the numbers are values of `unsigned`. -/
structure Version where
  major : Int
  minor : Int
  build : Option Int
  deriving DecidableEq, Repr

/-- Comparison of numbers by `<`, comparers.h 209-218. -/
def intLess (a b : Int) : Bool := decide (a < b)

/-- `operator <`, Version.cpp 16-17. -/
def Version.less (a b : Version) : Bool :=
  cmpToLess (memberCmp [fun x y => lessToCmp intLess x.major y.major, fun x y => lessToCmp intLess x.minor y.minor, fun x y => lessToCmp (optionalLess intLess) x.build y.build]) a b

/-- `operator ==` generated from `operator <`, Version.h 34. -/
def Version.equal (a b : Version) : Bool := lessToEquals Version.less a b

/-- `ToString`, Version.cpp 20-27. -/
def Version.toText (v : Version) : Option (List Char) :=
  match Str.toText u32 v.major, Str.toText u32 v.minor, v.build with
  | some a, some b, none => some (a ++ '.' :: b)
  | some a, some b, some n =>
    match Str.toText u32 n with
    | some c => some (a ++ '.' :: b ++ '.' :: c)
    | none => none
  | _, _, _ => none

/-- Reading of an argument of `unsigned` or `optional<unsigned>`, StringParse.h 46-53, 74-82. -/
def readsUnsigned (_ : Nat) (text : List Char) : Bool :=
  match fromText u32 text with
  | .ok _ => true
  | _ => false

/-- The value of the argument `i` after a successful parse, StringParse.h 50: the last one assigned. -/
def argValue (i : Nat) (asg : List (Nat × List Char)) : Int :=
  match asg.reverse.find? (fun x => decide (x.1 = i)) with
  | some (_, text) =>
    match fromText u32 text with
    | .ok v => v
    | _ => 0
  | none => 0

/-- `FromString`, Version.cpp 30-37; the exception is `none`. -/
def Version.fromText (s : List Char) : Option Version :=
  match stringParse 3 readsUnsigned s "%1%.%2%.%3%".toList with
  | .yes asg => some ⟨argValue 0 asg, argValue 1 asg, some (argValue 2 asg)⟩
  | .threw => none
  | .no _ =>
    match stringParse 2 readsUnsigned s "%1%.%2%".toList with
    | .yes asg => some ⟨argValue 0 asg, argValue 1 asg, none⟩
    | _ => none

end Verif.Util
