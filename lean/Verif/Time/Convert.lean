import Verif.Time.Calendar

/-
Model of the numeric conversions of time/Time.cpp, time/Time.h and time/NtpTimestamp.cpp.
A `Time` is its number of milliseconds, a `TimeDuration` its number of microseconds.  Conversions to
fixed-width integers are explicit; signed 64-bit overflow is excluded by the hypotheses of the theorems.
-/
namespace Verif.Time

/-- Conversion to `u64`.  Of Time.cpp 42-620. -/
def toU64 (x : Int) : Int := x % 18446744073709551616
/-- Conversion to `s64` (two's complement).  Of Time.cpp 42-620. -/
def toS64 (x : Int) : Int := (x + 9223372036854775808) % 18446744073709551616 - 9223372036854775808
/-- Conversion to `u32`.  Of Time.cpp 42-620. -/
def toU32 (x : Int) : Int := x % 4294967296
/-- Conversion to `s32`.  Of Time.cpp 42-620. -/
def toS32 (x : Int) : Int := (x + 2147483648) % 4294967296 - 2147483648

/-- `BcdValue`, Time.cpp 42-43. -/
def bcdValue (byte : Nat) : Nat := ((byte / 16) % 16) * 10 + byte % 16

/-- `BcdEncode`, Time.cpp 45-46 (the result is a `u8`). -/
def bcdEncode (value : Nat) : Nat := ((value / 10) * 16 + value % 10) % 256

/-- `TimeDuration::FromBcdDuration`, Time.cpp 243-249, in milliseconds. -/
def fromBcdDuration (bcd : Nat) : Int :=
  1000 * (3600 * (bcdValue ((bcd / 65536) % 256) : Int) + 60 * bcdValue ((bcd / 256) % 256) + bcdValue (bcd % 256))

/-- `Time::MjdToEpoch`, Time.cpp 459-460. -/
def mjdToEpoch (mjd : Int) (bcd : Nat) : Int := (mjd - 40587) * 86400 * 1000 + fromBcdDuration bcd

/-- `Time::GetMjd`, Time.cpp 463-464. -/
def getMjd (t : Int) : Int := toS32 (40587 + t.tdiv 86400000)

/-- `Time::GetBcdTime`, Time.cpp 467-471. -/
def getBcdTime (offset t : Int) : Res Int :=
  (breakDown offset t).bind fun b =>
    .ok ((bcdEncode (b.hour % 256).toNat * 65536 + bcdEncode (b.min % 256).toNat * 256 + bcdEncode (b.sec % 256).toNat : Nat))

/-- `Time::ToNtpTimestamp`, Time.cpp 447-448. -/
def toNtp (t : Int) : Int := toU64 (t.tdiv 1000 + 2208988800)

/-- `Time::FromNtpTimestamp`, Time.cpp 451-452: unsigned arithmetic, then the conversion to `s64`. -/
def fromNtp (ts : Int) : Int := toS64 (toU64 (toU64 (ts - 2208988800) * 1000))

/-- `Time::FromWindowsFileTime`, Time.cpp 455-456. -/
def fromWindows (ticks : Int) : Int :=
  toS64 (toU64 (toU64 (toU64 (ticks / 10000000 - 11644473600) * 1000) + ticks % 10000000))

/-- `NtpTimestamp::ToTime`, NtpTimestamp.cpp 13-22 (`ts` is the 64-bit fixed point timestamp). -/
def ntpToTime (ts : Int) : Int :=
  toS64 (toU64 (toU64 (toU64 (toU32 (ts / 4294967296) - 2208988800) * 1000)
    + toU32 (ts - toU32 (ts / 4294967296)) / 4294967296))

/-- `NtpTimestamp::FromTime`, NtpTimestamp.cpp 25-33 (the operands of `|` have no common bits, so it
is the sum). -/
def ntpFromTime (t : Int) : Int :=
  toU32 (t.tdiv 1000 + 2208988800) * 4294967296 + toU32 (toU64 (toU64 (t.tdiv 1000) * 4294967296))

/-- `Time::ToTimeT`, Time.h 140-141. -/
def toTimeT (t : Int) : Int := toU32 (t.tdiv 1000)
/-- `Time::FromTimeT`, Time.h 137-138. -/
def fromTimeT (t : Int) : Int := t * 1000

/-- `TimeDuration::GetMilliseconds`, Time.h 41. -/
def durMs (us : Int) : Int := us.tdiv 1000
/-- `TimeDuration::GetSeconds`, Time.h 42. -/
def durSeconds (us : Int) : Int := (durMs us).tdiv 1000
/-- `TimeDuration::GetMinutes`, Time.h 43. -/
def durMinutes (us : Int) : Int := (durSeconds us).tdiv 60
/-- `TimeDuration::GetHours`, Time.h 44. -/
def durHours (us : Int) : Int := (durMinutes us).tdiv 60
/-- `TimeDuration::GetDays`, Time.h 45. -/
def durDays (us : Int) : Int := (durHours us).tdiv 24

/-- `Abs`, math.h.  For Time.cpp 42-620. -/
def absI (x : Int) : Int := if x < 0 then -x else x

/-- `TimeDuration::RoundToMilliseconds`, Time.cpp 61-62 (in microseconds). -/
def roundToMs (us : Int) : Int :=
  (durMs us + (if absI (us.tmod 1000) < 500 then 0 else if us < 0 then -1 else 1)) * 1000

/-- `TimeDuration::Absolute`, Time.cpp 54-58. -/
def durAbsolute (us : Int) : Res Int :=
  if us > -9223372036854775808 then .ok (absI us) else .threw

/-- `Time::operator-(Time)`, Time.h 143-144 (microseconds). -/
def timeDiff (a b : Int) : Int := 1000 * (a - b)
/-- `Time::operator+(TimeDuration)`, Time.h 152-156 and 164-168. -/
def timeAdd (t d : Int) : Int := t + durMs d
/-- `Time::operator-(TimeDuration)`, Time.h 146-150 and 158-162. -/
def timeSub (t d : Int) : Int := t - durMs d

/-- `TimeCmp::operator()`, Time.cpp 613-620 (`jitter` in microseconds). -/
def timeCmp (jitter lhs rhs : Int) : Int :=
  if (if lhs > rhs then timeDiff lhs rhs else timeDiff rhs lhs) ≤ jitter then 0
  else if lhs < rhs then -1 else if rhs < lhs then 1 else 0

end Verif.Time
