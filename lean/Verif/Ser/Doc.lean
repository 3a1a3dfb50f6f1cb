/-!
# Documents and output events of the serialization

`serialization/SettingsValue.h`, `serialization/Serialization.cpp` and the virtual interface
`IObjectOStreamPrivate` of `serialization/Serialization.h`.  The classes that turn the events into
text (JSON and the like) are not part of the library; a document is what such a class stores and a
reader gets back, see `Verif/Ser/Spec.lean` for the assumption made about them.
-/

namespace Verif.Ser

/-- `std::string`, as a list of characters (Serialization.h 175-178) -/
abbrev Str := List Char

/-- `SettingsValue`: SettingsValue.h 25-39.  A `FloatString` is represented by the number its text
denotes, which the model takes to be a whole one (simplification).  The map is kept as the list of its entries;
`std::map` sorts them, which no reader of a single property can see. -/
inductive Doc where
  | null
  | bool (b : Bool)
  | int (i : Int)
  | float (n : Int)
  | str (s : Str)
  | bytes (b : List Nat)
  | list (ds : List Doc)
  | map (ms : List (Str × Doc))

/-- Calls of `IObjectOStreamPrivate`: Serialization.h 171-184 -/
inductive Ev where
  | null
  | bool (b : Bool)
  | int (i : Int)
  | float (n : Int)
  | str (s : Str)
  | bytes (b : List Nat)
  | name (n : Str)
  | beginList
  | endList
  | beginObj
  | endObj
deriving DecidableEq

/-- `ObjectIStream::Get`: Serialization.cpp 14-19 on the entries of the root's map -/
def find (n : Str) : List (Str × Doc) → Option Doc
  | [] => none
  | (k, d) :: ms => if k = n then some d else find n ms

/-- The map of the root, `none` when `get` throws: Serialization.cpp 16-16, 32-32 -/
def mapOf : Doc → Option (List (Str × Doc))
  | .map ms => some ms
  | _ => none

/-- The list of the root, `none` when `get` throws: Serialization.cpp 23-23 -/
def listOf : Doc → Option (List Doc)
  | .list ds => some ds
  | _ => none

/-- `is_null`: Serialization.cpp 41-42 -/
def isNull : Doc → Bool
  | .null => true
  | _ => false

/-- `GetInt`: Serialization.cpp 39-39 -/
def getInt : Doc → Option Int
  | .int i => some i
  | _ => none

/-- `xdigit`: Serialization.cpp 73-80, for characters of code at most 255; `c |= 0x20` -/
def xdigit (c : Char) : Option Nat :=
  if 48 ≤ c.toNat ∧ c.toNat ≤ 57 then some (c.toNat - 48)
  else if 97 ≤ c.toNat ||| 32 ∧ c.toNat ||| 32 ≤ 102 then some ((c.toNat ||| 32) - 97 + 10)
  else none

/-- The loop of `UnpackBinaryEncoding`: Serialization.cpp 89-95 -/
def unhex : Str → Option (List Nat)
  | [] => some []
  | [_] => none
  | h :: l :: r =>
    (xdigit h).bind fun a => (xdigit l).bind fun b => (unhex r).map fun bs => (b ||| (a <<< 4) % 256) :: bs

/-- `UnpackBinaryEncoding`: Serialization.cpp 82-96 -/
def unpack (s : Str) : Option (List Nat) :=
  if s.length < 4 ∨ s.take 4 ≠ ['h', 'e', 'x', '='] then none else unhex (s.drop 4)

mutual
/-- `InjectionSerializer::Visitor`: InjectionSerializer.h 29-57 -/
def inject : Doc → List Ev
  | .null => [.null]
  | .bool b => [.bool b]
  | .int i => [.int i]
  | .float n => [.float n]
  | .str s => [.str s]
  | .bytes b => [.bytes b]
  | .list ds => .beginList :: injectList ds ++ [.endList]
  | .map ms => .beginObj :: injectMap ms ++ [.endObj]
/-- The loop over a list: InjectionSerializer.h 40-41 -/
def injectList : List Doc → List Ev
  | [] => []
  | d :: ds => inject d ++ injectList ds
/-- The loop over a map: InjectionSerializer.h 50-54 -/
def injectMap : List (Str × Doc) → List Ev
  | [] => []
  | (n, d) :: ms => .name n :: inject d ++ injectMap ms
end

end Verif.Ser
