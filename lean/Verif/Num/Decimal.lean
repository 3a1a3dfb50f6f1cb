import Verif.Str.Ints
/-
Model of decimal numbers: Decimal.cpp, Decimal.h.
The library computes powers of ten with `std::pow`, in double precision; the model computes with doubles too.  Simplification: `std::pow(10, n)` is taken to return the double nearest to the
power (as the C library does for all exact results).  `none`: undefined behaviour (a double out of the range of `s64` is converted, or an integer operation overflows).
-/
namespace Verif.Num
open Verif.Str

/-- The double nearest to a natural number (52 bits after the leading one, ties to even); what Decimal.cpp 38 and 64 compute with. -/
def roundNat (n : Nat) : Nat :=
  if n < 2 ^ 53 then n
  else
    if 2 * (n % 2 ^ (n.log2 - 52)) > 2 ^ (n.log2 - 52) ∨ (2 * (n % 2 ^ (n.log2 - 52)) = 2 ^ (n.log2 - 52) ∧ (n / 2 ^ (n.log2 - 52)) % 2 = 1)
    then (n / 2 ^ (n.log2 - 52) + 1) * 2 ^ (n.log2 - 52)
    else (n / 2 ^ (n.log2 - 52)) * 2 ^ (n.log2 - 52)

/-- The same with a sign, Decimal.cpp 38. -/
def roundInt (x : Int) : Int := if x < 0 then -(roundNat x.natAbs : Int) else roundNat x.natAbs

/-- Is a number in the range of `s64`?  Decimal.h 20. -/
def inS64 (x : Int) : Bool := decide (-9223372036854775808 ≤ x) && decide (x ≤ 9223372036854775807)

/-- `value * std::pow(10, n)` assigned to an `s64`: both factors and the product are rounded; an infinite power makes the result infinite or not a number.  Decimal.cpp 38, 64. -/
def scale (value : Int) (n : Nat) : Option Int :=
  if 308 < n then none
  else if inS64 (roundInt (roundInt value * roundInt (10 ^ n))) then some (roundInt (roundInt value * roundInt (10 ^ n))) else none

/-- A decimal number, Decimal.h 20-21. -/
structure Decimal where
  mantissa : Int
  exponent : Nat
deriving DecidableEq, Repr

/-- `PowToExponent`, Decimal.cpp 37-38. -/
def Decimal.powTo (d : Decimal) (e : Nat) : Option Int := scale d.mantissa (e - d.exponent)

/-- `operator ==`, Decimal.cpp 94-98. -/
def Decimal.eq (a b : Decimal) : Option Bool :=
  (a.powTo (max a.exponent b.exponent)).bind fun x => (b.powTo (max a.exponent b.exponent)).map fun y => decide (x = y)

/-- `operator <`, Decimal.cpp 101-105. -/
def Decimal.less (a b : Decimal) : Option Bool :=
  (a.powTo (max a.exponent b.exponent)).bind fun x => (b.powTo (max a.exponent b.exponent)).map fun y => decide (x < y)

/-- `operator +=`, Decimal.cpp 108-114. -/
def Decimal.add (a b : Decimal) : Option Decimal :=
  (a.powTo (max a.exponent b.exponent)).bind fun x => (b.powTo (max a.exponent b.exponent)).bind fun y =>
    if inS64 (x + y) then some ⟨x + y, max a.exponent b.exponent⟩ else none

/-- Unary `operator -`, Decimal.h 51-52. -/
def Decimal.neg (a : Decimal) : Option Decimal := if inS64 (-a.mantissa) then some ⟨-a.mantissa, a.exponent⟩ else none

/-- `operator -=`, Decimal.h 54-55. -/
def Decimal.sub (a b : Decimal) : Option Decimal := b.neg.bind fun c => a.add c

/-- `operator *=`, Decimal.cpp 117-123; the exponent is a `u16`. -/
def Decimal.mul (a b : Decimal) : Option Decimal :=
  (a.powTo (max a.exponent b.exponent)).bind fun x => (b.powTo (max a.exponent b.exponent)).bind fun y =>
    if inS64 (x * y) then some ⟨x * y, (max a.exponent b.exponent + max a.exponent b.exponent) % 65536⟩ else none

/-- `RemoveUnsignificantZeros`, Decimal.cpp 22-28. -/
def cropZeros (s : List Char) : List Char := (s.reverse.dropWhile (fun c => decide (c = '0'))).reverse

/-- `AddSignificantZeros`, Decimal.cpp 30-35. -/
def padZeros (s : List Char) (e : Nat) : List Char := if s.length < e then List.replicate (e - s.length) '0' ++ s else s

/-- What reading a decimal number can end with, Decimal.cpp 42-70. -/
inductive Read where
  | ok (d : Decimal)
  | refused (p : Parsed)
  | undefined
deriving DecidableEq, Repr

/-- `rawIntegralPart.empty() ? 0 : FromString<s64>(rawIntegralPart)`, Decimal.cpp 58, 61. -/
def partOf (s : List Char) : Parsed := if s.isEmpty then .ok 0 else fromText s64 s

/-- The arithmetic at the end of the constructor, Decimal.cpp 63-69. -/
def assemble (rawIntegral : List Char) (integral fractional : Int) (e : Nat) : Read :=
  match scale integral e with
  | none => .undefined
  | some m =>
    if inS64 (m + (if integral ≥ 0 then fractional else -fractional)) then
      .ok ⟨(m + (if integral ≥ 0 then fractional else -fractional)) * (if rawIntegral.head? = some '-' ∧ integral = 0 then -1 else 1), e⟩
    else .undefined

/-- `Decimal(string_view)`, Decimal.cpp 42-70. -/
def Decimal.fromText (s : List Char) : Read :=
  if s.isEmpty then .refused .argumentError
  else if s.contains '.' then
    if (s.takeWhile (fun c => decide (c ≠ '.'))).isEmpty ∧ ((s.dropWhile (fun c => decide (c ≠ '.'))).drop 1).isEmpty then .refused .argumentError
    else
      match partOf (s.takeWhile (fun c => decide (c ≠ '.'))) with
      | .ok i =>
        match partOf (cropZeros ((s.dropWhile (fun c => decide (c ≠ '.'))).drop 1)) with
        | .ok f => assemble (s.takeWhile (fun c => decide (c ≠ '.'))) i f ((cropZeros ((s.dropWhile (fun c => decide (c ≠ '.'))).drop 1)).length % 65536)
        | p => .refused p
      | p => .refused p
  else
    match Str.fromText s64 s with
    | .ok m => .ok ⟨m, 0⟩
    | p => .refused p

/-- `if (integralPart.empty() || integralPart == "-") integralPart.append("0")`, Decimal.cpp 82-83. -/
def integralOf (s : List Char) : List Char := if s = [] ∨ s = ['-'] then s ++ ['0'] else s

/-- From `value` on, Decimal.cpp 77-90; `ExtractPrefix` and `RemovePrefix` of StringUtils.h 80-92. -/
def layout (value : List Char) (e : Nat) : List Char :=
  if (cropZeros (value.drop (value.length - e))).isEmpty then integralOf (value.take (value.length - e))
  else integralOf (value.take (value.length - e)) ++ '.' :: cropZeros (value.drop (value.length - e))

/-- `ToString`, Decimal.cpp 73-91. -/
def Decimal.toText (d : Decimal) : Option (List Char) :=
  (Str.toText s64 d.mantissa).map fun s => layout (padZeros s d.exponent) d.exponent

end Verif.Num
