/-
Model of the conversion between integers and text: string/string_stream.cpp 22-58 (`ToString`) and
string/ToString.h 30-111 (`FromString`).  Bytes are represented as `Char`.
-/
namespace Verif.Str

/-- An integer type: its numeric limits.  For string_stream.cpp 22-58 and ToString.h 30-111. -/
structure IntTy where
  lo : Int
  hi : Int
  signed : Bool
deriving DecidableEq, Repr

/-- The limits are those of a signed or unsigned type (`char` sized or wider).  For string_stream.cpp 22-58 and ToString.h 30-111. -/
structure IntTy.Ok (t : IntTy) : Prop where
  hi : 10 ≤ t.hi
  lo : if t.signed then t.lo = -t.hi - 1 else t.lo = 0

/-- `s8` … `u64`.  Of string_stream.cpp 22-58 and ToString.h 30-111. -/
def s8 : IntTy := ⟨-128, 127, true⟩
/-- See `s8`.  Of string_stream.cpp 22-58 and ToString.h 30-111. -/
def u8 : IntTy := ⟨0, 255, false⟩
/-- See `s8`.  Of string_stream.cpp 22-58 and ToString.h 30-111. -/
def s16 : IntTy := ⟨-32768, 32767, true⟩
/-- See `s8`.  Of string_stream.cpp 22-58 and ToString.h 30-111. -/
def u16 : IntTy := ⟨0, 65535, false⟩
/-- See `s8`.  Of string_stream.cpp 22-58 and ToString.h 30-111. -/
def s32 : IntTy := ⟨-2147483648, 2147483647, true⟩
/-- See `s8`.  Of string_stream.cpp 22-58 and ToString.h 30-111. -/
def u32 : IntTy := ⟨0, 4294967295, false⟩
/-- See `s8`.  Of string_stream.cpp 22-58 and ToString.h 30-111. -/
def s64 : IntTy := ⟨-9223372036854775808, 9223372036854775807, true⟩
/-- See `s8`.  Of string_stream.cpp 22-58 and ToString.h 30-111. -/
def u64 : IntTy := ⟨0, 18446744073709551615, false⟩

/-- `digit + '0'` for a digit.  Of string_stream.cpp 22-58 and ToString.h 30-111. -/
def digitChar (d : Nat) : Char := Char.ofNat (d + 48)

/-- The loop of `InsertIntegral`, string_stream.cpp 26-35: `buf` is what has been written (to the
right of `pos`), `room` is `pos`; writing before the buffer is `none`. -/
def insertIntegral : Nat → Nat → List Char → Option (List Char)
  | 0, _, _ => none
  | room + 1, value, buf =>
    if value ≥ 10 then insertIntegral room (value / 10) (digitChar (value % 10) :: buf)
    else some (digitChar value :: buf)

/-- `Insert` of an integer, string_stream.cpp 38-58; the magnitude of a negative number is computed
as `-(unsigned)value`, i.e. modulo the number of values of the type. -/
def toText (t : IntTy) (v : Int) : Option (List Char) :=
  if v < 0 then
    (insertIntegral 32 ((-(v % (t.hi - t.lo + 1))) % (t.hi - t.lo + 1)).toNat []).map ('-' :: ·)
  else insertIntegral 32 v.toNat []

/-- How `FromString` can end.  For string_stream.cpp 22-58 and ToString.h 30-111. -/
inductive Parsed where
  | ok (v : Int)
  | argumentError
  | formatError
  | rangeError
deriving DecidableEq, Repr

/-- `ch >= '0' && ch <= '9'`.  Of string_stream.cpp 22-58 and ToString.h 30-111. -/
def isDigit (c : Char) : Bool := 48 ≤ c.toNat && c.toNat ≤ 57

/-- `str[index] - '0'`.  Of string_stream.cpp 22-58 and ToString.h 30-111. -/
def digitVal (c : Char) : Int := (c.toNat : Int) - 48

/-- `SafeEvaluator::Do` for signed types, ToString.h 47-56, and unsigned types, 71-78. -/
def safeStep (t : IntTy) (negative : Bool) (value increment : Int) : Option Int :=
  if t.signed then
    if negative then
      if value > t.lo.tdiv 10 || (value = t.lo.tdiv 10 && increment ≤ t.lo.tmod 10 * -1) then some (value * 10 + -increment)
      else none
    else
      if value < t.hi.tdiv 10 || (value = t.hi.tdiv 10 && increment ≤ t.hi.tmod 10) then some (value * 10 + increment)
      else none
  else if negative then none
  else
    if value < t.hi.tdiv 10 || (value = t.hi.tdiv 10 && increment ≤ t.hi.tmod 10) then some (value * 10 + increment)
    else none

/-- The accumulating loop, ToString.h 107-110. -/
def accumulate (t : IntTy) (negative : Bool) : List Char → Int → Parsed
  | [], value => .ok value
  | c :: cs, value =>
    match safeStep t negative value (digitVal c) with
    | none => .rangeError
    | some v => accumulate t negative cs v

/-- `ParseIntegralType`, ToString.h 86-111. -/
def fromText (t : IntTy) (str : List Char) : Parsed :=
  match str with
  | [] => .argumentError
  | c :: cs =>
    if c = '-' || c = '+' then
      if cs.all isDigit then accumulate t (c = '-') cs 0 else .formatError
    else
      if (c :: cs).all isDigit then accumulate t false (c :: cs) 0 else .formatError

end Verif.Str
