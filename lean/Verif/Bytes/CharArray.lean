import Verif.Common
/-
Model of CharArrayProxy.h: assignment of strings to arrays of characters of fixed size (20-54) and `StringToCharArrayHelper` (57-71), with `strncpy` and `strlen`.
-/
namespace Verif.Bytes.CharArray

/-- The terminator, for CharArrayProxy.h 37-67. -/
def nul : Char := Char.ofNat 0

/-- `strncpy(dst, src, n)`: what it writes to the first `n` characters of `dst`; `none` if it reads past the end of the array `src`.  For CharArrayProxy.h 37, 44, 51, 67. -/
def strncpy : Nat → List Char → Option (List Char)
  | 0, _ => some []
  | _ + 1, [] => none
  | n + 1, c :: src =>
    if c = nul then some (List.replicate (n + 1) nul)
    else
      match strncpy n src with
      | none => none
      | some r => some (c :: r)

/-- `strlen`: `none` if it reads past the end of the array.  For CharArrayProxy.h 50. -/
def strlen : List Char → Option Nat
  | [] => none
  | c :: src =>
    if c = nul then some 0
    else
      match strlen src with
      | none => none
      | some n => some (n + 1)

/-- What an assignment does to the array: its new contents, an exception that leaves it as it was, or undefined behaviour.  For CharArrayProxy.h 33-53. -/
inductive Assigned where
  | contents (cells : List Char)
  | threw
  | ub
deriving DecidableEq, Repr

/-- The result of a `strncpy` of the whole size.  For CharArrayProxy.h 37, 44, 51, 67. -/
def copied : Option (List Char) → Assigned
  | some cells => .contents cells
  | none => .ub

/-- Assignment of another array of characters, CharArrayProxy.h 32-39; the sizes are as the `static_assert` of 36 wants them. -/
def assignArray (size : Nat) (other : List Char) : Assigned := copied (strncpy size other)

/-- Assignment of a `std::string`, CharArrayProxy.h 41-46; `c_str()` is the characters and a terminator. -/
def assignString (size : Nat) (str : List Char) : Assigned :=
  if str.length < size then copied (strncpy size (str ++ [nul])) else .threw

/-- Assignment of a `const char*` into an array, CharArrayProxy.h 48-53. -/
def assignCStr (size : Nat) (cells : List Char) : Assigned :=
  match strlen cells with
  | none => .ub
  | some n => if n < size then copied (strncpy size cells) else .threw

/-- The constructor of `StringToCharArrayHelper`, CharArrayProxy.h 64-68. -/
def helper (size : Nat) (str : List Char) : Assigned :=
  if str.length < size then copied (strncpy size (str ++ [nul])) else .threw

end Verif.Bytes.CharArray
