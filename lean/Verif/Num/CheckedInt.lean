/-
Model of the checks on integers of exception.h: `STINGRAYKIT_CHECK_INTEGER_OVERFLOW`, `Detail::CheckIntegerOverflow` (311-330, 361), and `STINGRAYKIT_CHECK_RANGE`
(134-141), with the conversions of C++ for the operators `-`, `<`, `>=`: narrow types are promoted to `int`, then both operands get the common type.
-/
namespace Verif.Num.Checked

/-- An integer type of C++: its width and whether it is signed.  For exception.h 311-330. -/
structure Ty where
  bits : Nat
  signed : Bool
deriving DecidableEq, Repr

/-- `s8` … `u64`, exception.h 311. -/
def types : List Ty := [⟨8, true⟩, ⟨8, false⟩, ⟨16, true⟩, ⟨16, false⟩, ⟨32, true⟩, ⟨32, false⟩, ⟨64, true⟩, ⟨64, false⟩]

/-- `std::numeric_limits<T>::min()`, exception.h 328. -/
def Ty.lo (t : Ty) : Int := if t.signed then -(2 ^ (t.bits - 1)) else 0
/-- `std::numeric_limits<T>::max()`, exception.h 314-315, 325. -/
def Ty.hi (t : Ty) : Int := if t.signed then 2 ^ (t.bits - 1) - 1 else 2 ^ t.bits - 1

/-- The promotion to `int`: for the operands of exception.h 135, 138, 323-328. -/
def promote (t : Ty) : Ty := if t.bits < 32 then ⟨32, true⟩ else t

/-- The common type of two operands: for exception.h 135, 138, 323-328. -/
def common (a b : Ty) : Ty :=
  if (promote a).signed = (promote b).signed then ⟨max (promote a).bits (promote b).bits, (promote a).signed⟩
  else if (promote a).signed then
    if (promote b).bits < (promote a).bits then promote a else ⟨(promote b).bits, false⟩
  else
    if (promote a).bits < (promote b).bits then promote b else ⟨(promote a).bits, false⟩

/-- The conversion to a type; to a signed type it is only made of values that fit.  For exception.h 135, 138, 323-328. -/
def convert (t : Ty) (v : Int) : Int := if t.signed then v else v % 2 ^ t.bits

/-- `a - b`, with the type of the result; `none` is the overflow of a signed type.  For exception.h 325, 328. -/
def sub (a : Ty) (x : Int) (b : Ty) (y : Int) : Option (Ty × Int) :=
  if (common a b).signed then
    if (common a b).lo ≤ convert (common a b) x - convert (common a b) y ∧ convert (common a b) x - convert (common a b) y ≤ (common a b).hi then
      some (common a b, convert (common a b) x - convert (common a b) y)
    else none
  else some (common a b, (convert (common a b) x - convert (common a b) y) % 2 ^ (common a b).bits)

/-- `a < b`: for exception.h 135, 138, 323-328. -/
def less (a : Ty) (x : Int) (b : Ty) (y : Int) : Bool := decide (convert (common a b) x < convert (common a b) y)

/-- `int`, the type of the literal 0.  For exception.h 323, 328. -/
def int : Ty := ⟨32, true⟩

/-- The `static_assert`, exception.h 317-321, with `valueMax` and `incrementMax`, 314-315. -/
def allowed (t u : Ty) : Bool :=
  t == u || (!t.signed && decide (u.bits ≤ t.bits)) || (t.signed && !u.signed && decide (u.bits < t.bits)) || (t.signed && u.signed && decide (u.bits ≤ t.bits))

/-- The check throws, passes, or its own computation is undefined.  For exception.h 311-330. -/
inductive Checked where
  | passed
  | threw
  | ub
deriving DecidableEq, Repr

/-- `CheckIntegerOverflow`, exception.h 323-329. -/
def checkOverflow (t : Ty) (value : Int) (u : Ty) (increment : Int) : Checked :=
  if less int 0 u increment then
    match sub t t.hi u increment with
    | none => .ub
    | some (c, limit) => if less c limit t value then .threw else .passed
  else if less u increment int 0 then
    match sub t t.lo u increment with
    | none => .ub
    | some (c, limit) => if less t value c limit then .threw else .passed
  else .passed

/-- `DETAIL_STINGRAYKIT_CHECK_RANGE_2`, exception.h 134-135: whether it passes. -/
def checkRange2 (t : Ty) (index : Int) (u : Ty) (size : Int) : Bool := less t index u size

/-- `DETAIL_STINGRAYKIT_CHECK_RANGE_3`, exception.h 137-138: whether it passes. -/
def checkRange3 (t : Ty) (index : Int) (u : Ty) (first : Int) (w : Ty) (last : Int) : Bool := !less t index u first && less t index w last

end Verif.Num.Checked
