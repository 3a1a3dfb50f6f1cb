/-! Model of the case insensitive comparers, string/Comparers.h. -/

namespace Verif.Str.CaseCompare

/-- `std::tolower` of the classic locale, called with a `char`: Comparers.h 31.  Its argument must be `EOF` or have the value of an `unsigned char`; `none` for the undefined
behaviour otherwise. -/
def tolower (c : Int) : Option Int :=
  if c = -1 ∨ (0 ≤ c ∧ c ≤ 255) then some (if 65 ≤ c ∧ c ≤ 90 then c + 32 else c) else none

/-- `CaseInsensitiveCompare<Comparer>::operator ()`: Comparers.h 30-31. -/
def charCompare (comparer : Int → Int → Bool) (first second : Int) : Option Bool :=
  match tolower first, tolower second with
  | some a, some b => some (comparer a b)
  | _, _ => none

/-- `comparers::Less` of two `int`: Comparers.h 40. -/
def less (a b : Int) : Bool := decide (a < b)

/-- `comparers::Equals` of two `int`: Comparers.h 50. -/
def equals (a b : Int) : Bool := decide (a = b)

/-- `std::lexicographical_compare`, as used in Comparers.h 40, 43. -/
def lexicographicalCompare (comp : Int → Int → Option Bool) : List Int → List Int → Option Bool
  | _, [] => some false
  | [], _ :: _ => some true
  | a :: as, b :: bs =>
    match comp a b with
    | none => none
    | some true => some true
    | some false =>
      match comp b a with
      | none => none
      | some true => some false
      | some false => lexicographicalCompare comp as bs

/-- `std::equal` of two sequences, the second at least as long as the first, as used in Comparers.h 50, 53; `none` when the second is shorter. -/
def equalSeq (comp : Int → Int → Option Bool) : List Int → List Int → Option Bool
  | [], _ => some true
  | _ :: _, [] => none
  | a :: as, b :: bs =>
    match comp a b with
    | none => none
    | some false => some false
    | some true => equalSeq comp as bs

/-- `CaseInsensitiveLess`: Comparers.h 37-44. -/
def caseInsensitiveLess (first second : List Int) : Option Bool := lexicographicalCompare (charCompare less) first second

/-- `CaseInsensitiveEquals`: Comparers.h 47-54. -/
def caseInsensitiveEquals (first second : List Int) : Option Bool :=
  if first.length = second.length then equalSeq (charCompare equals) first second else some false

end Verif.Str.CaseCompare
