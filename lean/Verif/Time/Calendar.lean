/-
Model of the calendar conversion of time/posix/TimeEngine.cpp (branch STINGRAYKIT_32_BIT_TIME_T,
lines 21-177), and of the two functions of TimeEngine built on it (lines 237-268).

Integers are mathematical integers; C++ `/` and `%` are `Int.tdiv` and `Int.tmod`.  A conversion to
`int` that does not fit, and an array access outside the table, are the outcome `none` (undefined
behaviour).  `s64` does not overflow for the arguments of the theorems.  In the other branch (64-bit
`time_t`) the same two functions come from the C library and are not modelled.
-/
namespace Verif.Time

/-- The fields of `struct tm` the code uses (`tm_year` counts from 1900, `tm_mon` from 0).  Of TimeEngine.cpp 26-268. -/
structure Tm where
  sec : Int
  min : Int
  hour : Int
  mday : Int
  mon : Int
  year : Int
  wday : Int
  yday : Int
deriving DecidableEq, Repr

/-- The value fits into a C `int`.  For TimeEngine.cpp 26-268. -/
def fitsInt (x : Int) : Bool := -2147483648 ≤ x && x ≤ 2147483647

/-- `LEAP_CHECK(n)`, TimeEngine.cpp 26. -/
def leapCheck (n : Int) : Bool :=
  (n + 1900).tmod 400 = 0 || ((n + 1900).tmod 4 = 0 && (n + 1900).tmod 100 != 0)

/-- `days_in_months[0]` and `[1]`, TimeEngine.cpp 34-35 (the thirteenth entry is 0). -/
def daysInMonth (leap : Bool) (mon : Nat) : Option Int :=
  (if leap then [31, 29, 31, 30, 31, 30, 31, 31, 30, 31, 30, 31, 0]
   else [31, 28, 31, 30, 31, 30, 31, 31, 30, 31, 30, 31, 0])[mon]?

/-- `days_in_months[2]` and `[3]`, TimeEngine.cpp 36-37. -/
def daysBeforeMonth (leap : Bool) (mon : Nat) : Option Int :=
  (if leap then [0, 31, 60, 91, 121, 152, 182, 213, 244, 274, 305, 335, 366]
   else [0, 31, 59, 90, 120, 151, 181, 212, 243, 273, 304, 334, 365])[mon]?

/-- `days_in_months[leap + 2][12]`.  Of TimeEngine.cpp 26-268. -/
def yearLength (leap : Bool) : Int := if leap then 366 else 365

/-- `days_in_gregorian_cycle`, TimeEngine.cpp 40. -/
def daysInCycle : Int := 365 * 400 + 100 - 4 + 1

/-- `WRAP(a,b,m)`, TimeEngine.cpp 27: the new values of `a` and `b`. -/
def wrap (a b m : Int) : Int × Int := if a < 0 then (a + m, b - 1) else (a, b)

/-- Seconds, minutes, hours and day number of `gmtime64_r`, TimeEngine.cpp 53-63. -/
def splitTime (t : Int) : Int × Int × Int × Int :=
  match wrap (t.tmod 60) ((t.tdiv 60).tmod 60) 60 with
  | (sec, min) =>
    match wrap min (((t.tdiv 60).tdiv 60).tmod 24) 60 with
    | (min, hour) =>
      match wrap hour (((t.tdiv 60).tdiv 60).tdiv 24) 24 with
      | (hour, tday) => (sec, min, hour, tday)

/-- `v_tm_wday`, TimeEngine.cpp 65-67. -/
def weekDay (tday : Int) : Int :=
  if (tday + 4).tmod 7 < 0 then (tday + 4).tmod 7 + 7 else (tday + 4).tmod 7

/-- The year loop for non-negative day numbers, TimeEngine.cpp 76-82. -/
def yearUp : Nat → Int → Int → Option (Int × Int)
  | 0, _, _ => none
  | fuel + 1, m, year =>
    if m ≥ yearLength (leapCheck year) then yearUp fuel (m - yearLength (leapCheck year)) (year + 1)
    else some (m, year)

/-- The month loop for non-negative day numbers, TimeEngine.cpp 84-89. -/
def monthUp : Nat → Bool → Int → Nat → Option (Int × Nat)
  | 0, _, _, _ => none
  | fuel + 1, leap, m, mon =>
    match daysInMonth leap mon with
    | none => none
    | some d => if m ≥ d then monthUp fuel leap (m - d) (mon + 1) else some (m, mon)

/-- The year loop for negative day numbers, TimeEngine.cpp 99-105. -/
def yearDown : Nat → Int → Int → Option (Int × Int)
  | 0, _, _ => none
  | fuel + 1, m, year =>
    if m < -yearLength (leapCheck year) then yearDown fuel (m + yearLength (leapCheck year)) (year - 1)
    else some (m, year)

/-- The month loop for negative day numbers and the final addition, TimeEngine.cpp 107-113
(`mon` is `v_tm_mon`; going below 0 is out of the array). -/
def monthDown : Nat → Bool → Int → Nat → Option (Int × Nat)
  | 0, _, _, _ => none
  | fuel + 1, leap, m, mon =>
    match daysInMonth leap mon with
    | none => none
    | some d =>
      if m < -d then
        match mon with
        | 0 => none
        | mon + 1 => monthDown fuel leap (m + d) mon
      else some (m + d, mon)

/-- Line 116-118 for the year, month and day found.  Of TimeEngine.cpp 26-268. -/
def dateFields (year : Int) (r : Option (Int × Nat)) : Option (Int × Nat × Int × Int) :=
  match r with
  | none => none
  | some (m, mon) =>
    match daysBeforeMonth (leapCheck year) mon with
    | none => none
    | some b => some (year, mon, m + 1, b + m)

/-- Year, month, day of month and day of year of a day number, TimeEngine.cpp 68-118. -/
def dateOf (tday : Int) : Option (Int × Nat × Int × Int) :=
  if tday ≥ 0 then
    if fitsInt (tday.tdiv daysInCycle) && fitsInt (tday.tdiv daysInCycle * 400)
        && fitsInt (70 + tday.tdiv daysInCycle * 400) then
      match yearUp 401 (tday - tday.tdiv daysInCycle * daysInCycle) (70 + tday.tdiv daysInCycle * 400) with
      | none => none
      | some (m, year) => dateFields year (monthUp 13 (leapCheck year) m 0)
    else none
  else
    if fitsInt (tday.tdiv daysInCycle + 1) && fitsInt ((tday.tdiv daysInCycle + 1) * 400)
        && fitsInt (69 + (tday.tdiv daysInCycle + 1) * 400) then
      match yearDown 801 (tday - (tday.tdiv daysInCycle + 1) * daysInCycle)
          (69 + (tday.tdiv daysInCycle + 1) * 400) with
      | none => none
      | some (m, year) => dateFields year (monthDown 13 (leapCheck year) m 11)
    else none

/-- `gmtime64_r`, TimeEngine.cpp 43-125. -/
def gmtime64 (t : Int) : Option Tm :=
  match splitTime t with
  | (sec, min, hour, tday) =>
    match dateOf tday with
    | none => none
    | some (year, mon, mday, yday) =>
      some { sec := sec, min := min, hour := hour, mday := mday, mon := mon, year := year,
             wday := weekDay tday, yday := yday }

/-- The loop of `timegm64` for years after 1970, TimeEngine.cpp 150-155. -/
def addYears : Nat → Int → Int → Int → Option Int
  | 0, _, _, _ => none
  | fuel + 1, year, orig, days =>
    if year < orig then addYears fuel (year + 1) orig (days + yearLength (leapCheck year))
    else some days

/-- The do-while loop of `timegm64` for years before 1970, TimeEngine.cpp 159-164. -/
def subYears : Nat → Int → Int → Int → Option Int
  | 0, _, _, _ => none
  | fuel + 1, year, orig, days =>
    if year - 1 ≥ orig then subYears fuel (year - 1) orig (days - yearLength (leapCheck year))
    else some (days - yearLength (leapCheck year))

/-- The number of 400-year cycles taken off the year, TimeEngine.cpp 135-146. -/
def cyclesOf (orig : Int) : Int :=
  if orig > 100 then (orig - 100).tdiv 400
  else if orig < -300 then (orig - 100).tdiv 400
  else 0

/-- Days from 1970 to the first day of the reduced year, TimeEngine.cpp 148-165. -/
def daysOfYear (orig days : Int) : Option Int :=
  if orig > 70 then addYears 500 70 orig days
  else if orig < 70 then subYears 500 69 orig days
  else some days

/-- Lines 166-172.  Of TimeEngine.cpp 26-268. -/
def finishTimegm (d : Tm) (orig : Int) (days : Option Int) : Option Int :=
  match days with
  | none => none
  | some days =>
    if d.mon.tmod 12 < 0 then none
    else
      match daysBeforeMonth (leapCheck orig) (d.mon.tmod 12).toNat with
      | none => none
      | some b =>
        some ((days + b + (d.mday - 1)) * 60 * 60 * 24 + d.hour * 60 * 60 + d.min * 60 + d.sec)

/-- `timegm64`, TimeEngine.cpp 128-173.  A negative `tm_mon` indexes before the table: `none`. -/
def timegm64 (d : Tm) : Option Int :=
  finishTimegm d
    (d.year + d.mon.tdiv 12 - cyclesOf (d.year + d.mon.tdiv 12) * 400)
    (daysOfYear (d.year + d.mon.tdiv 12 - cyclesOf (d.year + d.mon.tdiv 12) * 400)
      (cyclesOf (d.year + d.mon.tdiv 12) * daysInCycle))

/-- Conversion to `s16` (the fields of `BrokenDownTime`).  Of TimeEngine.cpp 26-268. -/
def toS16 (x : Int) : Int := (x + 32768) % 65536 - 32768

/-- `BrokenDownTime`, BrokenDownTime.h 21-57. -/
structure Bdt where
  ms : Int
  sec : Int
  min : Int
  hour : Int
  wday : Int
  mday : Int
  month : Int
  yday : Int
  year : Int
deriving DecidableEq, Repr

/-- The constructor of `BrokenDownTime` with its `s16` parameters, BrokenDownTime.h 44-46. -/
def mkBdt (ms sec min hour wday mday month yday year : Int) : Bdt :=
  { ms := toS16 ms, sec := toS16 sec, min := toS16 min, hour := toS16 hour, wday := toS16 wday,
    mday := toS16 mday, month := toS16 month, yday := toS16 yday, year := toS16 year }

/-- Outcome of a call that may throw.  For TimeEngine.cpp 26-268. -/
inductive Res (α : Type) where
  | ok (a : α)
  | threw
  | undefined
deriving DecidableEq, Repr

/-- An exception ends the computation.  For TimeEngine.cpp 26-268. -/
def Res.bind {α β : Type} (r : Res α) (f : α → Res β) : Res β :=
  match r with
  | .ok a => f a
  | .threw => .threw
  | .undefined => .undefined

/-- `TimeEngine::BrokenDownFromMilliseconds`, TimeEngine.cpp 257-268. -/
def brokenDownFromMilliseconds (ms : Int) : Res Bdt :=
  match gmtime64 (ms.tdiv 1000) with
  | none => .undefined
  | some b => .ok (mkBdt (ms.tmod 1000) b.sec b.min b.hour b.wday b.mday (b.mon + 1) b.yday (b.year + 1900))

/-- The `struct tm` filled in by `MillisecondsFromBrokenDown`, TimeEngine.cpp 239-245. -/
def tmOfBdt (b : Bdt) : Tm :=
  { sec := b.sec, min := b.min, hour := b.hour, mday := b.mday, mon := b.month - 1,
    year := b.year - 1900, wday := 0, yday := 0 }

/-- TimeEngine.cpp 248 and 253: the value `-1` counts as an error of `timegm64`. -/
def checkTimegm (r : Option Int) (ms : Int) : Res Int :=
  match r with
  | none => .undefined
  | some r => if r = -1 then .threw else .ok (r * 1000 + ms)

/-- `TimeEngine::MillisecondsFromBrokenDown`, TimeEngine.cpp 237-254. -/
def millisecondsFromBrokenDown (b : Bdt) : Res Int := checkTimegm (timegm64 (tmOfBdt b)) b.ms

/-- `Time::BreakDown`, Time.cpp 306-310; `offset` is the local offset in minutes for
`TimeKind::Local` and 0 for `TimeKind::Utc`. -/
def breakDown (offset : Int) (t : Int) : Res Bdt := brokenDownFromMilliseconds (t + 60000 * offset)

/-- `Time::FromBrokenDownTime`, Time.cpp 313-317. -/
def fromBrokenDown (offset : Int) (b : Bdt) : Res Int :=
  (millisecondsFromBrokenDown b).bind fun ms => .ok (ms - 60000 * offset)

/-- The members of a `BrokenDownTime` in the order in which `Compare` looks at them,
BrokenDownTime.cpp 106-118. -/
def Bdt.members (b : Bdt) : List Int :=
  [b.ms, b.sec, b.min, b.hour, b.wday, b.mday, b.month, b.yday, b.year]

/-- `CompareMembersCmp` (compare/MemberListComparer.h): the first difference decides.  For TimeEngine.cpp 26-268. -/
def membersCmp : List Int → List Int → Int
  | a :: as, b :: bs => if a < b then -1 else if b < a then 1 else membersCmp as bs
  | _, _ => 0

/-- `BrokenDownTime::Compare`, BrokenDownTime.cpp 106-118. -/
def bdtCompare (a b : Bdt) : Int := membersCmp a.members b.members

/-- `BrokenDownTime::GetDayStart`, BrokenDownTime.cpp 82-83. -/
def Bdt.dayStart (b : Bdt) : Bdt := mkBdt 0 0 0 0 b.wday b.mday b.month b.yday b.year

/-- `Time::DaysTo(const BrokenDownTime&)`, Time.cpp 478-479 (durations are in microseconds, the
quotient is truncated and converted to `int`). -/
def daysToBdt (offset t : Int) (e : Bdt) : Res Int :=
  (fromBrokenDown offset e.dayStart).bind fun en =>
    (breakDown offset t).bind fun b =>
      (fromBrokenDown offset b.dayStart).bind fun st =>
        .ok (((en - st) * 1000).tdiv 86400000000)

/-- `Time::DaysTo(Time)`, Time.cpp 474-475. -/
def daysTo (offset t endTime : Int) : Res Int :=
  (breakDown offset endTime).bind fun e => daysToBdt offset t e

end Verif.Time
