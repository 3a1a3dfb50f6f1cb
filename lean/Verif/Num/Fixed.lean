import Verif.Str.Ints
import Verif.Str.Split
import Verif.Num.Decimal
/-
Model of numbers with a fixed number of binary places: fixed_point.h, for the default value type `int` (32 bits; the wide type has 64).
`none`: undefined behaviour, an operation on `int` overflows.  Simplification: shifting a negative number to the left multiplies it (as all compilers do; C++14 leaves it undefined);
narrowing to `int` keeps the low 32 bits.
-/
namespace Verif.Num
open Verif.Str

/-- Is a number in the range of `int`?  fixed_point.h 26. -/
def inS32 (x : Int) : Bool := decide (-2147483648 ≤ x) && decide (x ≤ 2147483647)

/-- Narrowing to `int`, fixed_point.h 59-60. -/
def wrap32 (x : Int) : Int := (x + 2147483648) % 4294967296 - 2147483648

/-- An operation on `int`, fixed_point.h 57-72. -/
def int32 (x : Int) : Option Int := if inS32 x then some x else none

/-- The constructor from an integer, fixed_point.h 31; a number is its `_value`. -/
def Fixed.ofInt (N : Nat) (v : Int) : Option Int := int32 (v * 2 ^ N)

/-- `operator+=`, fixed_point.h 57. -/
def Fixed.add (a b : Int) : Option Int := int32 (a + b)

/-- `operator-=`, fixed_point.h 58. -/
def Fixed.sub (a b : Int) : Option Int := int32 (a - b)

/-- `operator*=`, fixed_point.h 59. -/
def Fixed.mul (N : Nat) (a b : Int) : Option Int := some (wrap32 ((a * b) / 2 ^ N))

/-- `operator/=`, fixed_point.h 60; `none` for a division by zero. -/
def Fixed.div (N : Nat) (a b : Int) : Option Int := if b = 0 then none else some (wrap32 ((a * 2 ^ N).tdiv b))

/-- `operator*=` with an integer, fixed_point.h 63-65. -/
def Fixed.mulInt (a k : Int) : Option Int := int32 (a * k)

/-- `operator/=` with an integer, fixed_point.h 67-69. -/
def Fixed.divInt (a k : Int) : Option Int := if k = 0 then none else int32 (a.tdiv k)

/-- `to_int`, fixed_point.h 81. -/
def Fixed.toInt (N : Nat) (a : Int) : Int := a / 2 ^ N

/-- `assign` from a number with another count of places (and `int` as its value type), fixed_point.h 84-93. -/
def Fixed.assign (N M : Nat) (a : Int) : Option Int := if N ≤ M then some (a / 2 ^ (M - N)) else int32 (a * 2 ^ (N - M))

/-- The loop of `sqrt`: `k` rounds are left; fixed_point.h 99-108. -/
def Fixed.sqrtLoop : Nat → Int → Int → Option Int
  | 0, r, _ => some r
  | k + 1, r, sq =>
    (int32 (r + r)).bind fun r2 => (int32 ((2 * r2 + 1) * 2 ^ (2 * k))).bind fun inc =>
      if sq + inc < 0 then Fixed.sqrtLoop k (r2 + 1) (sq + inc) else Fixed.sqrtLoop k r2 sq

/-- `sqrt`, fixed_point.h 95-110; `none` as well if the shift leaves 64 bits. -/
def Fixed.sqrt (N : Nat) (value : Int) : Option Int :=
  if inS64 (value * 2 ^ (2 * N)) then Fixed.sqrtLoop 16 0 (-(value * 2 ^ (2 * N)) - 1) else none

/-- `ToString`, fixed_point.h 112-116. -/
def Fixed.toText (N : Nat) (a : Int) : Option (List Char) :=
  (Fixed.mulInt a 1000).bind fun x => (Str.toText s32 ((Fixed.toInt N x).tdiv 1000)).bind fun i => (Str.toText s32 ((Fixed.toInt N x).tmod 1000)).map fun f => i ++ '.' :: f

/-- What reading a number can end with, fixed_point.h 121-140. -/
inductive FixedRead where
  | ok (v : Int)
  | refused
  | undefined
deriving DecidableEq, Repr

/-- `for (...) fractional_part /= 10`, fixed_point.h 133-134. -/
def Fixed.tenths : Nat → Int → Int
  | 0, f => f
  | n + 1, f => Fixed.tenths n (f.tdiv 10)

/-- The integral and the fractional part, fixed_point.h 131-135. -/
def Fixed.combine (N : Nat) (p q : List Char) : FixedRead :=
  match Str.fromText s32 p with
  | .ok i =>
    match Fixed.ofInt N i with
    | none => .undefined
    | some iv =>
      match Str.fromText s32 q with
      | .ok f =>
        match Fixed.ofInt N f with
        | none => .undefined
        | some fv =>
          match Fixed.add iv (Fixed.tenths q.length fv) with
          | none => .undefined
          | some r => .ok r
      | _ => .refused
  | _ => .refused

/-- `FromString`, fixed_point.h 121-140. -/
def Fixed.fromText (N : Nat) (s : List Char) : FixedRead :=
  match split (s.length + 2) s ['.'] 2 with
  | some [p] =>
    match Str.fromText s32 p with
    | .ok i =>
      match Fixed.ofInt N i with
      | none => .undefined
      | some v => .ok v
    | _ => .refused
  | some [p, q] => Fixed.combine N p q
  | _ => .refused

end Verif.Num
