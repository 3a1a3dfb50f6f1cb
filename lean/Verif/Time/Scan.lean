import Verif.Time.Text

/-
Model of `Time::FromString` and `TimeDuration::FromString`: time/Time.cpp 216-240 and 324-444, with the part of `sscanf` they use.
Characters stand for bytes.
-/
namespace Verif.Time

open Verif.Str (isDigit digitVal)

/-! ### sscanf -/

/-- The directives in the formats of Time.cpp 220, 349, 360, 371 and 380: `%d` or `%hd`, a literal character, a blank, `%c`. -/
inductive Dir where
  | num
  | lit (c : Char)
  | space
  | chr
deriving DecidableEq, Repr

/-- A value assigned by `%d`, `%hd` or `%c`.  Of Time.cpp 220-380. -/
inductive ScanVal where
  | num (v : Int)
  | chr (c : Char)
deriving DecidableEq, Repr

/-- `isspace` of the "C" locale.  For `sscanf` in Time.cpp 220-380. -/
def isBlank (c : Char) : Bool := c = ' ' || (9 ≤ c.toNat && c.toNat ≤ 13)

/-- The digits a conversion reads, and what follows.  For `sscanf` in Time.cpp 220-380. -/
def scanDigits (sign : Int) (s : List Char) : Option (Int × List Char) :=
  if s.takeWhile isDigit = [] then none
  else some (sign * (s.takeWhile isDigit).foldl (fun a c => a * 10 + digitVal c) 0, s.dropWhile isDigit)

/-- The conversion `%d` of `sscanf` in Time.cpp 220-380: blanks, an optional sign, at least one digit. -/
def scanNum (s : List Char) : Option (Int × List Char) :=
  match s.dropWhile isBlank with
  | '-' :: r => scanDigits (-1) r
  | '+' :: r => scanDigits 1 r
  | r => scanDigits 1 r

/-- `sscanf` as used in Time.cpp 220-380: the values assigned before the first directive that fails; their number is what it returns (or
-1 for an empty text, treated alike).  A number outside the type of its variable is undefined behaviour. -/
def scan (lo hi : Int) : List Dir → List Char → Res (List ScanVal)
  | [], _ => .ok []
  | .num :: ds, s =>
    match scanNum s with
    | none => .ok []
    | some (v, r) => if v < lo ∨ hi < v then .undefined else (scan lo hi ds r).bind fun vals => .ok (.num v :: vals)
  | .lit c :: ds, s =>
    match s with
    | [] => .ok []
    | x :: r => if x = c then scan lo hi ds r else .ok []
  | .space :: ds, s => scan lo hi ds (s.dropWhile isBlank)
  | .chr :: ds, s =>
    match s with
    | [] => .ok []
    | x :: r => (scan lo hi ds r).bind fun vals => .ok (.chr x :: vals)

/-- `str.c_str()` as a C string, Time.cpp 220, 349: it ends at the first zero byte. -/
def cString (s : List Char) : List Char := s.takeWhile (· ≠ Char.ofNat 0)

/-- The variable of the `i`-th conversion; 0 before.  For Time.cpp 218 and 332-340. -/
def numAt (vals : List ScanVal) (i : Nat) : Int :=
  match vals[i]? with
  | some (.num v) => v
  | _ => 0

/-- The character of the `i`-th conversion.  For Time.cpp 219 and 338. -/
def chrAt (vals : List ScanVal) (i : Nat) : Char :=
  match vals[i]? with
  | some (.chr c) => c
  | _ => Char.ofNat 0

/-! ### TimeDuration::FromString -/

/-- The switch over the units, Time.cpp 226-239; microseconds. -/
def durOfUnit (value : Int) (unit : Char) : Res Int :=
  if unit = 'H' ∨ unit = 'h' then .ok (value * 3600000000)
  else if unit = 'M' ∨ unit = 'm' then .ok (value * 60000000)
  else if unit = 'S' ∨ unit = 's' then .ok (value * 1000000)
  else .threw

/-- `TimeDuration::FromString`, Time.cpp 216-240, in microseconds. -/
def durFromString (s : List Char) : Res Int :=
  (scan (-2147483648) 2147483647 [.num, .chr] (cString s)).bind fun vals =>
    match vals.length with
    | 0 => .threw
    | 1 => .ok (numAt vals 0 * 1000)
    | _ => durOfUnit (numAt vals 0) (chrAt vals 1)

/-! ### Time::FromString -/

/-- What the scans of Time.cpp 332-396 leave: the `have…` flags are the `some`s.  The date is year, month, day. -/
structure Scanned where
  date : Option (Int × Int × Int)
  time : Option (Int × Int)
  sec : Option Int
  sign : Option Char
  zoneHour : Option Int
  zoneMin : Option Int
deriving DecidableEq, Repr

/-- The value of a variable if at least `n` components were read.  For Time.cpp 350-393. -/
def given {α : Type} (vals : List ScanVal) (n : Nat) (x : α) : Option α := if n ≤ vals.length then some x else none

/-- The format of Time.cpp 349 and 360. -/
def dayFirstFormat (sep : Char) : List Dir :=
  [.num, .lit sep, .num, .lit sep, .num, .space, .num, .lit ':', .num, .lit ':', .num]

/-- Time.cpp 349-357 and 360-368; `none` if fewer than three components were read. -/
def scanDayFirst (sep : Char) (s : List Char) : Res (Option Scanned) :=
  (scan (-32768) 32767 (dayFirstFormat sep) s).bind fun vals =>
    .ok (given vals 3
      { date := some (numAt vals 2, numAt vals 1, numAt vals 0), time := given vals 5 (numAt vals 3, numAt vals 4),
        sec := given vals 6 (numAt vals 5), sign := none, zoneHour := none, zoneMin := none })

/-- Time.cpp 371-377. -/
def scanTime (s : List Char) : Res (Option Scanned) :=
  (scan (-32768) 32767 [.num, .lit ':', .num, .lit ':', .num] s).bind fun vals =>
    .ok (given vals 2
      { date := none, time := some (numAt vals 0, numAt vals 1), sec := given vals 3 (numAt vals 2), sign := none, zoneHour := none,
        zoneMin := none })

/-- The format of Time.cpp 380. -/
def isoFormat : List Dir :=
  [.num, .lit '-', .num, .lit '-', .num, .lit 'T', .num, .lit ':', .num, .lit ':', .num, .chr, .num, .lit ':', .num]

/-- Time.cpp 380-393. -/
def scanIso (s : List Char) : Res (Option Scanned) :=
  (scan (-32768) 32767 isoFormat s).bind fun vals =>
    .ok (given vals 3
      { date := some (numAt vals 0, numAt vals 1, numAt vals 2), time := given vals 5 (numAt vals 3, numAt vals 4),
        sec := given vals 6 (numAt vals 5), sign := given vals 7 (chrAt vals 6), zoneHour := given vals 8 (numAt vals 7),
        zoneMin := given vals 9 (numAt vals 8) })

/-- The next scan if one found too few components.  Of Time.cpp 350-381. -/
def orScan (r : Res (Option Scanned)) (next : Res (Option Scanned)) : Res (Option Scanned) :=
  r.bind fun x =>
    match x with
    | some y => .ok (some y)
    | none => next

/-- The four scans, Time.cpp 349-396.  The flags are set only by the scan that succeeds; the variables it does not assign keep what an
earlier scan wrote, but are not looked at then. -/
def scanAll (s : List Char) : Res (Option Scanned) :=
  orScan (scanDayFirst '.' s) (orScan (scanDayFirst '/' s) (orScan (scanTime s) (scanIso s)))

/-- The check of Time.cpp 400-404. -/
def signOk (x : Scanned) : Bool :=
  match x.sign with
  | none => true
  | some c => (c = 'Z' && x.zoneHour.isNone && x.zoneMin.isNone) || ((c = '+' || c = '-') && x.zoneHour.isSome)

/-- Time.cpp 411. -/
def fullYear (year : Int) : Int := if year > 100 then year else if year > 30 then 1900 + year else 2000 + year

/-- The date part, Time.cpp 406-418; `today` is the local time now, broken down. -/
def dateBdt (today : Res Bdt) : Option (Int × Int × Int) → Res Bdt
  | some (y, mo, d) => .ok { ms := 0, sec := 0, min := 0, hour := 0, wday := 0, mday := d, month := mo, yday := 1, year := toS16 (fullYear y) }
  | none => today.bind fun b => .ok { b with sec := 0, ms := 0 }

/-- Time.cpp 420-427. -/
def withTime (x : Scanned) (b : Bdt) : Bdt :=
  { b with
    hour := (x.time.map (·.1)).getD b.hour
    min := (x.time.map (·.2)).getD b.min
    sec := x.sec.getD b.sec }

/-- The minutes after Time.cpp 429-441; conversions to `s16` wrap around. -/
def withZone (x : Scanned) (b : Bdt) : Bdt :=
  if x.sign = some '-' then { b with min := toS16 (b.min + toS16 (x.zoneHour.getD 0 * 60 + x.zoneMin.getD 0)) }
  else if x.sign = some '+' then { b with min := toS16 (b.min - toS16 (x.zoneHour.getD 0 * 60 + x.zoneMin.getD 0)) }
  else b

/-- Time.cpp 397-443.  `local_` is the offset of the local time zone in minutes, `kind` that of the kind asked for. -/
def timeOfScan (now local_ kind : Int) (x : Scanned) : Res Int :=
  if x.date.isNone && x.time.isNone then .threw
  else if !signOk x then .threw
  else (dateBdt (breakDown local_ now) x.date).bind fun b =>
    fromBrokenDown (if x.sign.isSome then 0 else kind) (withZone x (withTime x b))

/-- `Time::FromString`, Time.cpp 324-444, in milliseconds since the epoch.  `now` is the time, `local_` the offset of the local time zone
in minutes and `kind` the offset of the `TimeKind` passed: `local_` or 0. -/
def timeFromString (now local_ kind : Int) (s : List Char) : Res Int :=
  if s = "now".toList then .ok now
  else if "now+".toList.isPrefixOf s then (durFromString (s.drop 4)).bind fun d => .ok (timeAdd now d)
  else (scanAll (cString s)).bind fun x =>
    match x with
    | none => .threw
    | some y => timeOfScan now local_ kind y

end Verif.Time
