/-
Model of `IntegerBuilder` (stingraykit/IntegerBuilder.h 23-55), for an unsigned integer type of `W` bits
(8, 16, 32 or 64) that holds the result and fields of any fixed width integer type.

Operands narrower than 32 bits are promoted to `int` before a shift.  Undefined behaviour (a shift by
the width or more, an unrepresentable result) is the outcome `none`.  Simplification: a signed result type is not modelled.
-/
namespace Verif.Builder

/-- The width of an operand of `w` bits after integral promotion (IntegerBuilder.h 39 and 54). -/
def promoted (w : Nat) : Nat := if w < 32 then 32 else w

/-- `_result <<= fieldSize` (IntegerBuilder.h 39): the promoted value is shifted, then truncated. -/
def shiftResult (W r k : Nat) : Option Nat :=
  if k < promoted W ∧ (W < 32 → r * 2 ^ k < 2 ^ 32) then some ((r <<< k) % 2 ^ W) else none

/-- `static_cast<U>(~0) >> count` (IntegerBuilder.h 54), for a field type of `w` bits: all ones
shifted right; for a signed type the value is `-1` and stays `-1`. -/
def mask (w : Nat) (signed : Bool) (count : Nat) : Option Int :=
  if count < promoted w then
    if signed then some (-1) else some (((2 ^ w - 1) >>> count : Nat) : Int)
  else none

/-- `ResetMostSignificantBits` (IntegerBuilder.h 52-54); the value of the field is negative only if
its type is signed, and then the mask is `-1`. -/
def resetMsb (w : Nat) (signed : Bool) (field : Int) (count : Nat) : Option Int :=
  match mask w signed count with
  | none => none
  | some m => if m = -1 then some field else some ((field.toNat &&& m.toNat : Nat) : Int)

/-- `Append(field, fieldSize)` (IntegerBuilder.h 34-43); with `fieldSize` greater than the width of the
field's type the unsigned difference wraps around to a huge count. -/
def append (W r w : Nat) (signed : Bool) (field : Int) (k : Nat) : Option Nat :=
  match shiftResult W r k with
  | none => none
  | some s =>
    match resetMsb w signed field (if k ≤ w then w - k else 2 ^ 64 + w - k) with
    | none => none
    | some f => some ((s ||| (f % (2 ^ W : Nat)).toNat) % 2 ^ W)

/-- `Append(bool)` (IntegerBuilder.h 45-46). -/
def appendBit (W r : Nat) (b : Bool) : Option Nat := append W r 8 false (if b then 1 else 0) 1

/-- A field given to the builder: width and signedness of its type, value, size (IntegerBuilder.h 35). -/
structure Field where
  width : Nat
  signed : Bool
  value : Int
  size : Nat
deriving DecidableEq, Repr

/-- A chain of `Append` calls on a builder (IntegerBuilder.h 34-43). -/
def appendAll (W : Nat) : Nat → List Field → Option Nat
  | r, [] => some r
  | r, f :: fs =>
    match append W r f.width f.signed f.value f.size with
    | none => none
    | some r' => appendAll W r' fs

/-- `IntegerBuilder<T>().Append(..)...GetResult()` (IntegerBuilder.h 30-31 and 48-49). -/
def build (W : Nat) (fs : List Field) : Option Nat := appendAll W 0 fs

end Verif.Builder
