import Verif.Str.Hex

/-
Model of UUID (UUID.h, UUID.cpp).  Bytes are numbers below 256; texts are lists of characters.
-/
namespace Verif.Util

open Verif.Str

/-- `Format`, UUID.cpp 21-23; `GetRepresentation`, UUID.cpp 106-107. -/
def uuidFormat : List Char := "XXXXXXXX-XXXX-XXXX-XXXX-XXXXXXXXXXXX".toList

/-- The loop of `FromString`, UUID.cpp 70-81: two characters of the text for two of the format, or one that must be the same.  An exception, also of `FromHex`, is `none`. -/
def uuidScan : List Char → List Char → Option (List Nat)
  | [], _ => some []
  | f :: fs, cs =>
    if f = 'X' then
      match fs, cs with
      | _ :: fs, a :: b :: cs =>
        match fromHex 255 [a, b] with
        | .ok v => (uuidScan fs cs).map (v.toNat :: ·)
        | _ => none
      | _, _ => none
    else
      match cs with
      | c :: cs => if c = f then uuidScan fs cs else none
      | [] => none

/-- `FromString`, UUID.cpp 64-84. -/
def uuidFromText (s : List Char) : Option (List Nat) :=
  if s.length = uuidFormat.length then uuidScan uuidFormat s else none

/-- The loop of `ToString`, UUID.cpp 92-100. -/
def uuidPrint : List Char → List Nat → List Char
  | [], _ => []
  | f :: fs, data =>
    if f = 'X' then
      match fs, data with
      | _ :: fs, b :: data => toHex 1 b 2 false ++ uuidPrint fs data
      | _, _ => []
    else f :: uuidPrint fs data

/-- `ToString`, UUID.cpp 87-103. -/
def uuidToText (data : List Nat) : List Char := uuidPrint uuidFormat data

/-- `SetVersionAndVariant`, UUID.cpp 33-40. -/
def setVersionAndVariant (data : List Nat) : List Nat :=
  (data.modify 6 (fun b => (b &&& 0x0f) ||| 0x40)).modify 8 (fun b => (b &&& 0x3f) ||| 0x80)

/-- Constructor from data, UUID.cpp 45-52. -/
def uuidMake (data : List Nat) (set : Bool) : Option (List Nat) :=
  if data.length = 16 then some (if set then setVersionAndVariant data else data) else none

/-- `operator <`, UUID.h 30-31 (`std::lexicographical_compare`). -/
def uuidLess : List Nat → List Nat → Bool
  | _, [] => false
  | [], _ :: _ => true
  | x :: xs, y :: ys => if x < y then true else if y < x then false else uuidLess xs ys

end Verif.Util
