/-
Model of `LangCode`: locale/LangCode.h 21-51 and locale/LangCode.cpp 15-107.  Characters are bytes (numbers below 256), `char` is signed.
-/
namespace Verif.Locale

/-- Outcome of a call that may throw.  For LangCode.cpp 51-107. -/
inductive Res (α : Type) where
  | ok (a : α)
  | threw
deriving DecidableEq, Repr

/-- `DoToUpper`, LangCode.cpp 18-19; bytes from 128 on are negative and stay. -/
def upper (c : Nat) : Nat := if 97 ≤ c ∧ c ≤ 122 then c - 97 + 65 else c

/-- `DoToLower`, LangCode.cpp 22-23. -/
def lower (c : Nat) : Nat := if 65 ≤ c ∧ c ≤ 90 then c - 65 + 97 else c

/-- A byte as a `char`.  For LangCode.cpp 31-39. -/
def schar (b : Nat) : Int := if b < 128 then b else (b : Int) - 256

/-- `(code >> 8 * i) & 0xff`, LangCode.cpp 32-34, 77, 84. -/
def byteAt (code i : Nat) : Nat := code / 256 ^ i % 256

/-- `ToUpper(u32)`, LangCode.cpp 26-40: the characters are added with their signs.  (A negative number shifted to the left is undefined
before C++20; its usual value is taken.) -/
def upperCode (code : Nat) : Nat :=
  if code = 0 then code
  else ((schar (upper (byteAt code 2)) * 65536 + schar (upper (byteAt code 1)) * 256 + schar (upper (byteAt code 0))) % 4294967296).toNat

/-- `LangCode(u32)`, LangCode.cpp 51-55. -/
def ofCode (code : Nat) : Res Nat := if code ≥ 16777216 then .threw else .ok (upperCode code)

/-- `LangCode(const std::string&)` and `From3Letter`, LangCode.cpp 58-69 and 106-107. -/
def ofText (s : List Nat) : Res Nat :=
  match s with
  | [a, b, c] => .ok (upper a * 65536 + upper b * 256 + upper c)
  | _ => .threw

/-- A `std::string` made of a C string, LangCode.cpp 77-78 and 84-85. -/
def cText (s : List Nat) : List Nat := s.takeWhile (· ≠ 0)

/-- `ToString`, LangCode.cpp 72-79. -/
def toText (code : Nat) : List Nat :=
  if code = 0 then [] else cText [byteAt code 2, byteAt code 1, byteAt code 0]

/-- `To2LetterString`, LangCode.cpp 82-86. -/
def to2Letter (code : Nat) : List Nat := cText [lower (byteAt code 2), lower (byteAt code 1)]

/-- `From2Letter`, LangCode.cpp 89-103: "RU", "EN", and `LangCode("rus")`, `LangCode("eng")`. -/
def from2Letter (s : List Nat) : Res Nat :=
  if s.length < 2 then .threw
  else if (s.take 2).map upper = [82, 85] then ofText [114, 117, 115]
  else if (s.take 2).map upper = [69, 78] then ofText [101, 110, 103]
  else .ok 0

/-- `FromString`, LangCode.h 46-47. -/
def fromText (s : List Nat) : Res Nat := if s.length = 2 then from2Letter s else ofText s

/-- `operator <`, LangCode.h 39-40. -/
def less (a b : Nat) : Bool := a < b

end Verif.Locale
