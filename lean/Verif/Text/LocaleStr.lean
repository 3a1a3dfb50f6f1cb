import Verif.Text.Model

/-
Model of the operators of `LocaleString`: locale/LocaleString.cpp 38-65.
-/
namespace Verif.Text

/-- `LocaleString::operator <`, LocaleString.cpp 38-39 and 62-63; `none` is an endless comparison, which does not occur (C50). -/
def localeLess (ea : Enc) (a : List Nat) (eb : Enc) (b : List Nat) : Option Bool := (compare ea a eb b).map (· < 0)

/-- `LocaleString::operator ==`, LocaleString.cpp 42-51. -/
def localeEq (ea : Enc) (a : List Nat) (eb : Enc) (b : List Nat) : Option Bool :=
  if ea = eb then some (a = b)
  else if a.length ≠ b.length then some false
  else (compare ea a eb b).map (· = 0)

/-- `LocaleString::operator !=`, LocaleString.h 35. -/
def localeNe (ea : Enc) (a : List Nat) (eb : Enc) (b : List Nat) : Option Bool := (localeEq ea a eb b).map (!·)

end Verif.Text
