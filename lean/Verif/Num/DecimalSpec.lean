import Verif.Num.Decimal
import Verif.Str.IntsProps
/-
What decimal numbers are: `mantissa / 10 ^ exponent`.  Equations between such fractions are written without division.
-/
namespace Verif.Num.Spec
open Verif.Str

/-- `a.mantissa / 10 ^ a.exponent = b.mantissa / 10 ^ b.exponent`. -/
def Same (a b : Decimal) : Prop := a.mantissa * 10 ^ b.exponent = b.mantissa * 10 ^ a.exponent

/-- `a.mantissa / 10 ^ a.exponent < b.mantissa / 10 ^ b.exponent`. -/
def Less (a b : Decimal) : Prop := a.mantissa * 10 ^ b.exponent < b.mantissa * 10 ^ a.exponent

/-- `c` is the sum of `a` and `b`. -/
def IsSum (a b c : Decimal) : Prop := Same c ⟨a.mantissa * 10 ^ b.exponent + b.mantissa * 10 ^ a.exponent, a.exponent + b.exponent⟩

/-- `c` is the product of `a` and `b`. -/
def IsProduct (a b c : Decimal) : Prop := Same c ⟨a.mantissa * b.mantissa, a.exponent + b.exponent⟩

/-- The usual notation: an optional sign, digits, and possibly a point and further digits. -/
def Reads (cs : List Char) (d : Decimal) : Prop :=
  ∃ sign ds fs : List Char, (sign = [] ∨ sign = ['-'] ∨ sign = ['+']) ∧ ds.all isDigit = true ∧ fs.all isDigit = true ∧ ds ++ fs ≠ [] ∧
    (cs = sign ++ ds ∧ fs = [] ∨ cs = sign ++ ds ++ '.' :: fs) ∧
    d.exponent = fs.length ∧ d.mantissa = (if sign = ['-'] then -1 else 1) * decimal (ds ++ fs)

end Verif.Num.Spec
