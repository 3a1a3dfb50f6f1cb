import Verif.Time.Convert
import Verif.Str.Parse
import Verif.Str.Aho
import Verif.Math.Model

/-
Model of the texts of times, time zones and durations: time/BrokenDownTime.cpp 20-143, time/Time.cpp 83-213, 252-291,
491-868.  Characters stand for bytes.
-/
namespace Verif.Time

open Verif.Str (toText fromText stringParse ParseRes)

/-- `stingray::ToString` of an integer (string/ToString.h); the buffer always suffices for the types used.  For Time.cpp 83-868. -/
def digits (t : Str.IntTy) (v : Int) : List Char := (toText t v).getD []

/-- `RightJustify(str, width, '0')`, StringUtils.h 369-404. -/
def padZero (width : Nat) (s : List Char) : List Char := List.replicate (width - s.length) '0' ++ s

/-! ### BrokenDownTime::ToString -/

/-- The patterns of `FormatMatcher`, BrokenDownTime.cpp 62-69. -/
def bdtPatterns : List (List Char) :=
  ["dd".toList, "MM".toList, "YYYY".toList, "yyyy".toList, "hh".toList, "mm".toList, "ss".toList, "lll".toList]

/-- The automaton of `FormatMatcher`, BrokenDownTime.cpp 60-71; `alphabet` lists the values of a character. -/
def formatMatcher (alphabet : List Char) : Option (Str.Trie Char) :=
  (bdtPatterns.foldl Str.Trie.add Str.Trie.empty).build alphabet

/-- The switch of `ReplaceContext`, BrokenDownTime.cpp 35-45. -/
def fieldText (b : Bdt) : Nat → List Char
  | 0 => padZero 2 (digits Str.s16 b.mday)
  | 1 => padZero 2 (digits Str.s16 b.month)
  | 2 => padZero 4 (digits Str.s16 b.year)
  | 3 => padZero 4 (digits Str.s16 b.year)
  | 4 => padZero 2 (digits Str.s16 b.hour)
  | 5 => padZero 2 (digits Str.s16 b.min)
  | 6 => padZero 2 (digits Str.s16 b.sec)
  | 7 => padZero 3 (digits Str.s16 b.ms)
  | _ => []

/-- The calls of `ReplaceContext` for the hits and the text after the last one, BrokenDownTime.cpp 31-48 and 140; `last` is
`LastPosition`, `out` the stream.  With `offset < LastPosition` the size of the view wraps around and the bytes after the format are
read. -/
def replaceHits (b : Bdt) (format : List Char) : List (Nat × Nat) → Nat → List Char → Res (List Char)
  | [], last, out => .ok (out ++ format.drop last)
  | (k, offset) :: hits, last, out =>
    if offset < last then .undefined
    else replaceHits b format hits (offset + (bdtPatterns.getD k []).length)
      (out ++ (format.drop last).take (offset - last) ++ fieldText b k)

/-- `BrokenDownTime::ToString()` without a format, BrokenDownTime.cpp 123-134. -/
def bdtDefaultText (b : Bdt) : List Char :=
  padZero 2 (digits Str.s16 b.mday) ++ '/' :: (padZero 2 (digits Str.s16 b.month) ++ '/' :: (padZero 4 (digits Str.s16 b.year) ++ ' ' ::
    (padZero 2 (digits Str.s16 b.hour) ++ ':' :: (padZero 2 (digits Str.s16 b.min) ++ ':' :: (padZero 2 (digits Str.s16 b.sec) ++ '.' ::
      padZero 3 (digits Str.s16 b.ms))))))

/-- `BrokenDownTime::ToString(format)`, BrokenDownTime.cpp 121-143. -/
def bdtToString (matcher : Str.Trie Char) (b : Bdt) (format : List Char) : Res (List Char) :=
  if format = [] then .ok (bdtDefaultText b)
  else
    match matcher.search format with
    | none => .undefined
    | some hits => replaceHits b format hits 0 []

/-- `TimeUtility::ToIso8601`, Time.cpp 623-624. -/
def toIso8601 (matcher : Str.Trie Char) (t : Int) : Res (List Char) :=
  (breakDown 0 t).bind fun b => bdtToString matcher b "YYYY-MM-ddThh:mm:ss.lllZ".toList

/-! ### TimeUtility::FromIso8601 -/

/-- `::toupper` of the characters in the "C" locale, for `ToUpper` of StringUtils.h 348-349. -/
def upper (c : Char) : Char := if 97 ≤ c.toNat ∧ c.toNat ≤ 122 then Char.ofNat (c.toNat - 32) else c

/-- What was assigned last to the `i`-th argument of a `StringParse`.  For Time.cpp 533-868. -/
def lastArg (asg : List (Nat × List Char)) (i : Nat) : Option (List Char) := ((asg.filter (·.1 = i)).getLast?).map (·.2)

/-- Whether `FromString` of an integer type accepts the text, StringParse.h 43-49. -/
def readsInt (t : Str.IntTy) (text : List Char) : Bool :=
  match fromText t text with
  | .ok _ => true
  | _ => false

/-- The value of an integer argument; it was 0 before.  For Time.cpp 493-506. -/
def intArg (t : Str.IntTy) (asg : List (Nat × List Char)) (i : Nat) : Int :=
  match lastArg asg i with
  | none => 0
  | some text =>
    match fromText t text with
    | .ok v => v
    | _ => 0

/-- The fraction of the seconds in microseconds, Time.cpp 599-606; `none` is an exception. -/
def parseFractionText (text : List Char) : Option Int :=
  match fromText Str.u64 text with
  | .ok f =>
    match Math.parseFraction text.length (some f.toNat) 6 with
    | .ok x => some ((x.fraction : Int) + if x.overflow then 1000000 else 0)
    | .error _ => none
  | _ => none

/-- `ParseSeconds`, Time.cpp 587-609, in microseconds; `none` is an exception.  `FromSeconds` takes an `int`. -/
def parseSeconds (text : List Char) : Option Int :=
  match stringParse 2 (fun i s => i = 1 || readsInt Str.u64 s) text "%1%.%2%".toList with
  | .yes asg =>
    (parseFractionText ((lastArg asg 1).getD [])).map (toS32 (intArg Str.u64 asg 0) * 1000000 + ·)
  | .threw => none
  | .no _ =>
    match stringParse 1 (fun _ s => readsInt Str.u64 s) text "%1%".toList with
    | .yes asg => some (toS32 (intArg Str.u64 asg 0) * 1000000)
    | _ => none

/-- The conversions of the arguments of `StringParse` in `TimeUtility::FromIso8601Impl`, Time.cpp 533-583: the sixth is the proxy for the
seconds. -/
def isoReads (i : Nat) (s : List Char) : Bool := if i = 5 then (parseSeconds s).isSome else readsInt Str.s16 s

/-- `TimeUtility::FromIso8601Impl::ParseResult`, Time.cpp 493-506; durations in microseconds. -/
structure IsoParts where
  year : Int
  month : Int
  day : Int
  hours : Int
  minutes : Int
  seconds : Int
  offset : Int
deriving DecidableEq, Repr

/-- The parts assigned by a `StringParse`, Time.cpp 533-583. -/
def isoParts (asg : List (Nat × List Char)) (offset : Int) : IsoParts :=
  { year := intArg Str.s16 asg 0, month := intArg Str.s16 asg 1, day := intArg Str.s16 asg 2, hours := intArg Str.s16 asg 3,
    minutes := intArg Str.s16 asg 4, seconds := ((lastArg asg 5).bind parseSeconds).getD 0, offset := offset }

/-- `TryFromDateTime`, Time.cpp 530-541.  The second `StringParse`, if it succeeds, assigns all that the first may have assigned. -/
def tryDateTime (str : List Char) : Option IsoParts :=
  match stringParse 6 isoReads str "%1%-%2%-%3%T%4%:%5%:%6%Z".toList with
  | .yes asg => some (isoParts asg 0)
  | .no asg0 =>
    match stringParse 6 isoReads str "%1%-%2%-%3%T%4%:%5%:%6%".toList with
    | .yes asg => some (isoParts (asg0 ++ asg) 0)
    | _ => none
  | .threw => none

/-- `TryFromDateTimeWithOffset`, Time.cpp 543-577. -/
def tryDateTimeOffset (str : List Char) : Option IsoParts :=
  if str.length ≤ 5 then none
  else
    match str[str.length - 1 - 5]? with
    | none => none
    | some sign =>
      if (if sign = '+' then 1 else if sign = '-' then -1 else 0) = (0 : Int) then none
      else
        match stringParse 8 isoReads str ("%1%-%2%-%3%T%4%:%5%:%6%".toList ++ sign :: "%7%:%8%".toList) with
        | .yes asg => some (isoParts asg ((intArg Str.s16 asg 6 * 3600000000 + intArg Str.s16 asg 7 * 60000000) * (if sign = '+' then 1 else if sign = '-' then -1 else 0)))
        | _ => none

/-- `TryFromDate`, Time.cpp 578-585. -/
def tryDate (str : List Char) : Option IsoParts :=
  match stringParse 3 isoReads str "%1%-%2%-%3%".toList with
  | .yes asg => some (isoParts asg 0)
  | _ => none

/-- The time of the parts, Time.cpp 523-527. -/
def isoTime (p : IsoParts) : Res Int :=
  (fromBrokenDown 0 (mkBdt (durMs ((roundToMs p.seconds).tmod 1000000)) (durSeconds (roundToMs p.seconds)) p.minutes p.hours 0 p.day p.month 0 p.year)).bind
    fun t => .ok (timeSub t p.offset)

/-- `TimeUtility::FromIso8601`, Time.cpp 509-528 and 627-628. -/
def fromIso8601 (str : List Char) : Res Int :=
  match (tryDateTime (str.map upper)).or ((tryDateTimeOffset (str.map upper)).or (tryDate (str.map upper))) with
  | none => .threw
  | some p => isoTime p

/-! ### TimeZone -/

/-- The constructor of `TimeZone`, Time.cpp 252-254: the argument is converted to `s16`. -/
def mkZone (minutes : Int) : Res Int :=
  if toS16 minutes ≥ -720 ∧ toS16 minutes ≤ 840 then .ok (toS16 minutes) else .threw

/-- `TimeZone::ToString`, Time.cpp 261-265. -/
def zoneToString (z : Int) : List Char :=
  (if z > 0 then ['+'] else if z < 0 then ['-'] else []) ++ digits Str.s32 ((absI z).tdiv 60) ++ ':' :: digits Str.s32 ((absI z).tmod 60)

/-- The value of the text without its sign, Time.cpp 277-289; `none` is an exception. -/
def zoneValue (hasColon : Bool) (body : List Char) : Option Int :=
  if hasColon then
    match stringParse 2 (fun _ s => readsInt Str.s32 s) body "%1%:%2%".toList with
    | .yes asg => some (intArg Str.s32 asg 0 * 60 + intArg Str.s32 asg 1)
    | _ => none
  else if body.length = 2 ∨ body.length = 4 then
    match fromText Str.s32 (body.take 2) with
    | .ok h =>
      if body.length > 2 then
        match fromText Str.s32 ((body.drop 2).take 2) with
        | .ok m => some (h * 60 + m)
        | _ => none
      else some (h * 60)
    | _ => none
  else none

/-- `TimeZone::FromString`, Time.cpp 268-291.  (`hours * 60 + minutes` may overflow an `int`: `.undefined`.) -/
def zoneFromString (str : List Char) : Res Int :=
  match str with
  | [] => .threw
  | c :: rest =>
    match zoneValue (str.contains ':') (if c = '+' ∨ c = '-' then rest else str) with
    | none => .threw
    | some v =>
      if fitsInt v = false then .undefined
      else mkZone (if c = '-' then -v else v)

/-! ### TimeDuration::ToString -/

/-- `TimeDuration::ToString()` without a format, Time.cpp 87-105. -/
def durDefaultText (us : Int) : List Char :=
  (if durMs us < 0 then ['-'] else []) ++ padZero 2 (digits Str.s64 ((absI (durMs us)).tdiv 3600000)) ++ ':' ::
    (padZero 2 (digits Str.s64 (((absI (durMs us)).tmod 3600000).tdiv 60000)) ++ ':' ::
      (padZero 2 (digits Str.s64 (((absI (durMs us)).tmod 60000).tdiv 1000)) ++ '.' ::
        padZero 3 (digits Str.s64 ((absI (durMs us)).tmod 1000))))

/-- What the first loop over the format finds out, Time.cpp 109-132. -/
structure FormatScan where
  hasHours : Bool
  hasMinutes : Bool
  hasSeconds : Bool
  maxPrecision : Nat
deriving DecidableEq, Repr

/-- The first loop over the format, Time.cpp 114-132. -/
def scanFormat : Nat → List Char → FormatScan → FormatScan
  | 0, _, s => s
  | _ + 1, [], s => s
  | fuel + 1, c :: rest, s =>
    if c = 'h' then scanFormat fuel rest { s with hasHours := true }
    else if c = 'm' then scanFormat fuel rest { s with hasMinutes := true }
    else if c = 's' then scanFormat fuel rest { s with hasSeconds := true }
    else if c = 'l' then
      scanFormat fuel (rest.dropWhile (· = 'l')) { s with maxPrecision := max s.maxPrecision (1 + (rest.takeWhile (· = 'l')).length) }
    else scanFormat fuel rest s

/-- `MicrosecondsDivisors`, Time.cpp 35. -/
def usDivisor (i : Nat) : Int := [1000000, 100000, 10000, 1000, 100, 10, 1].getD i 1

/-- The numbers that the second loop prints, Time.cpp 134-139. -/
structure DurParts where
  negative : Bool
  hours : Int
  minutes : Int
  seconds : Int
  microseconds : Int
deriving DecidableEq, Repr

/-- Time.cpp 134-139. -/
def durParts (us : Int) (s : FormatScan) : DurParts :=
  { negative := us.tdiv (usDivisor (min s.maxPrecision 6)) < 0
    hours := if s.hasHours then absI (us.tdiv 3600000000) else 0
    minutes := (absI (if us < 0 then us + (if s.hasHours then absI (us.tdiv 3600000000) else 0) * 3600000000
      else us - (if s.hasHours then absI (us.tdiv 3600000000) else 0) * 3600000000)).tdiv 60000000
    seconds := (absI (us.tmod 60000000)).tdiv 1000000
    microseconds := absI (us.tmod 1000000) }

/-- The sign in front of a number, Time.cpp 154, 167, 180 and 194. -/
def signText (b : Bool) : List Char := if b then ['-'] else []

/-- The second loop over the format, Time.cpp 141-210; `none` is the exception of line 148. -/
def printFormat (s : FormatScan) (p : DurParts) : Nat → List Char → List Char → Option (List Char)
  | 0, _, out => some out
  | _ + 1, [], out => some out
  | fuel + 1, c :: rest, out =>
    if c = '\\' then
      match rest with
      | [] => none
      | d :: rest' => printFormat s p fuel rest' (out ++ [d])
    else if c = 'h' then
      if rest.head? = some 'h' then printFormat s p fuel rest.tail (out ++ signText p.negative ++ padZero 2 (digits Str.s64 p.hours))
      else printFormat s p fuel rest (out ++ signText p.negative ++ digits Str.s64 p.hours)
    else if c = 'm' then
      if rest.head? = some 'm' then printFormat s p fuel rest.tail (out ++ signText (!s.hasHours && p.negative) ++ padZero 2 (digits Str.s64 p.minutes))
      else printFormat s p fuel rest (out ++ signText (!s.hasHours && p.negative) ++ digits Str.s64 p.minutes)
    else if c = 's' then
      if rest.head? = some 's' then
        printFormat s p fuel rest.tail (out ++ signText (!s.hasHours && !s.hasMinutes && p.negative) ++ padZero 2 (digits Str.s64 p.seconds))
      else printFormat s p fuel rest (out ++ signText (!s.hasHours && !s.hasMinutes && p.negative) ++ digits Str.s64 p.seconds)
    else if c = 'l' then
      printFormat s p fuel (rest.dropWhile (· = 'l'))
        (out ++ signText (!s.hasHours && !s.hasMinutes && !s.hasSeconds && p.negative) ++
          padZero (min (1 + (rest.takeWhile (· = 'l')).length) 6)
            (digits Str.s64 (p.microseconds.tdiv (usDivisor (min (1 + (rest.takeWhile (· = 'l')).length) 6)))))
    else printFormat s p fuel rest (out ++ [c])

/-- `TimeDuration::ToString(format)`, Time.cpp 83-213; `none` is an exception. -/
def durToString (us : Int) (format : List Char) : Option (List Char) :=
  if format = [] then some (durDefaultText us)
  else printFormat (scanFormat format.length format ⟨false, false, false, 0⟩)
    (durParts us (scanFormat format.length format ⟨false, false, false, 0⟩)) format.length format []

/-! ### TimeDurationUtility -/

/-- `GetMaxDaysInYear`, Time.cpp 48-49. -/
def maxDaysInYear (year : Int) : Int :=
  if year.tmod 4 = 0 ∧ (year.tmod 100 ≠ 0 ∨ year.tmod 400 = 0) then 366 else 365

/-- `BrokenDownTime::GetMaxDaysInMonth`, BrokenDownTime.cpp 86-94; `none` is an index outside of the array (`ArrayGet` is checked). -/
def maxDaysInMonth (year month : Int) : Option Int :=
  if month = 2 ∧ year.tmod 4 = 0 ∧ (year.tmod 100 ≠ 0 ∨ year.tmod 400 = 0) then some 29
  else if month - 1 < 0 then none else ([31, 28, 31, 30, 31, 30, 31, 31, 30, 31, 30, 31] : List Int)[(month - 1).toNat]?

/-- The components of an ISO 8601 duration, Time.cpp 634-648 and 773-778. -/
structure IsoDur where
  years : Int
  months : Int
  weeks : Int
  days : Int
  hours : Int
  minutes : Int
  seconds : Int
deriving DecidableEq, Repr

/-- The loop over the years, Time.cpp 804-809: years and days that are left. -/
def yearLoop : Nat → Int → Int → Int → Int × Int
  | 0, _, years, days => (years, days)
  | fuel + 1, year, years, days =>
    if maxDaysInYear year ≤ days then yearLoop fuel (toS16 (year + 1)) (toS16 (years + 1)) (toS16 (days - maxDaysInYear year)) else (years, days)

/-- The loop over the months, Time.cpp 814-826: months and days that are left. -/
def monthLoop : Nat → Int → Int → Int → Int → Option (Int × Int)
  | 0, _, _, months, days => some (months, days)
  | fuel + 1, year, month, months, days =>
    match maxDaysInMonth year month with
    | none => none
    | some size =>
      if size ≤ days then
        if month + 1 > 12 then monthLoop fuel (toS16 (year + 1)) 1 (toS16 (months + 1)) (toS16 (days - size))
        else monthLoop fuel year (month + 1) (toS16 (months + 1)) (toS16 (days - size))
      else some (months, days)

/-- The test of Time.cpp 801 and 811. -/
def afterLeapDay (b : Bdt) : Bool := b.month > 2 || (b.month = 2 && b.mday = 29)

/-- The components without a base, Time.cpp 782-787. -/
def isoSplitPlain (us : Int) : IsoDur :=
  { years := 0, months := 0, weeks := 0, days := 0, hours := toS16 (durHours us), minutes := toS16 ((durMinutes us).tmod 60),
    seconds := toS16 ((durSeconds us).tmod 60) }

/-- The year after the loop, Time.cpp 801-812. -/
def isoYear (b : Bdt) (years : Int) : Int :=
  if afterLeapDay b then toS16 (toS16 (toS16 (b.year + 1) + years) - 1) else toS16 (b.year + years)

/-- The components with a base, Time.cpp 791-826; each round of the loops takes at least 28 days. -/
def isoSplitBased (us : Int) (b : Bdt) : Option IsoDur :=
  (monthLoop 32768 (isoYear b (yearLoop 32768 (if afterLeapDay b then toS16 (b.year + 1) else b.year) 0 (toS16 (durDays us))).1) b.month 0
      (yearLoop 32768 (if afterLeapDay b then toS16 (b.year + 1) else b.year) 0 (toS16 (durDays us))).2).map fun r =>
    { years := (yearLoop 32768 (if afterLeapDay b then toS16 (b.year + 1) else b.year) 0 (toS16 (durDays us))).1, months := r.1, weeks := 0, days := r.2,
      hours := toS16 ((durHours us).tmod 24), minutes := toS16 ((durMinutes us).tmod 60), seconds := toS16 ((durSeconds us).tmod 60) }

/-- A number with its letter.  For Time.cpp 840-860. -/
def unitText (v : Int) (c : Char) : List Char := digits Str.s16 v ++ [c]

/-- The date part of the text, Time.cpp 838-848. -/
def isoDateText (d : IsoDur) : List Char :=
  (if d.years ≠ 0 then unitText d.years 'Y' else []) ++
  (if d.months ≠ 0 ∨ (d.years ≠ 0 ∧ d.days ≠ 0) then unitText d.months 'M' else []) ++
  (if d.days ≠ 0 then unitText d.days 'D' else [])

/-- The time part of the text, Time.cpp 850-861. -/
def isoTimeText (d : IsoDur) : List Char :=
  'T' :: ((if d.hours ≠ 0 then unitText d.hours 'H' else []) ++
  (if d.minutes ≠ 0 ∨ (d.hours ≠ 0 ∧ d.seconds ≠ 0) then unitText d.minutes 'M' else []) ++
  (if d.seconds ≠ 0 then unitText d.seconds 'S' else []))

/-- The text of the components, Time.cpp 829-863. -/
def isoDurText (d : IsoDur) : List Char :=
  if ¬ (d.years ≠ 0 ∨ d.months ≠ 0 ∨ d.days ≠ 0) ∧ ¬ (d.hours ≠ 0 ∨ d.minutes ≠ 0 ∨ d.seconds ≠ 0) then "PT0S".toList
  else 'P' :: ((if d.years ≠ 0 ∨ d.months ≠ 0 ∨ d.days ≠ 0 then isoDateText d else []) ++
    (if d.hours ≠ 0 ∨ d.minutes ≠ 0 ∨ d.seconds ≠ 0 then isoTimeText d else []))

/-- `TimeDurationUtility::ToIso8601`, Time.cpp 769-864. -/
def durToIso (us : Int) (base : Option Int) : Res (List Char) :=
  if us < 0 then .threw
  else
    match base with
    | none => .ok (isoDurText (isoSplitPlain us))
    | some t => (breakDown 0 t).bind fun b =>
      match isoSplitBased us b with
      | none => .threw
      | some d => .ok (isoDurText d)

/-- `StringParse(str, "%1%c", number)`, Time.cpp 698, 708, 720, 729, 740, 752 and 761: success and what was assigned. -/
def parseUnit (str : List Char) (c : Char) : Bool × Option Int :=
  match stringParse 1 (fun _ s => readsInt Str.s16 s) str ("%1%".toList ++ [c]) with
  | .yes asg => (true, some (intArg Str.s16 asg 0))
  | .no asg => (false, if asg = [] then none else some (intArg Str.s16 asg 0))
  | .threw => (false, none)

/-- `StringParse(str, "%1%c%2%", number, remaining)`, Time.cpp 710, 722, 742 and 754. -/
def parseUnitRest (str : List Char) (c : Char) : Bool × Option Int × List Char :=
  match stringParse 2 (fun i s => i = 1 || readsInt Str.s16 s) str ("%1%".toList ++ c :: "%2%".toList) with
  | .yes asg => (true, (lastArg asg 0).map fun _ => intArg Str.s16 asg 0, (lastArg asg 1).getD [])
  | .no asg => (false, (lastArg asg 0).map fun _ => intArg Str.s16 asg 0, (lastArg asg 1).getD [])
  | .threw => (false, none, [])

/-- Two optional larger units and the smallest one: the common shape of `TryFromTime`, Time.cpp 700-730, and `TryFromDate`, Time.cpp
732-762.  The result is the success and the three numbers as far as they were assigned. -/
def parseThird (str : List Char) (a b : Option Int) (c3 : Char) : Bool × Option Int × Option Int × Option Int :=
  ((parseUnit str c3).1, a, b, (parseUnit str c3).2)

/-- The second unit, Time.cpp 717-729 and 749-761. -/
def parseSecond (str : List Char) (a : Option Int) (c2 c3 : Char) : Bool × Option Int × Option Int × Option Int :=
  if str.contains c2 then
    if str.getLast? = some c2 then ((parseUnit str c2).1, a, (parseUnit str c2).2, none)
    else if (parseUnitRest str c2).1 then parseThird (parseUnitRest str c2).2.2 a (parseUnitRest str c2).2.1 c3
    else (false, a, (parseUnitRest str c2).2.1, none)
  else parseThird str a none c3

/-- The first unit, Time.cpp 705-715 and 737-747. -/
def parseUnits (str : List Char) (c1 c2 c3 : Char) : Bool × Option Int × Option Int × Option Int :=
  if str.contains c1 then
    if str.getLast? = some c1 then ((parseUnit str c1).1, (parseUnit str c1).2, none, none)
    else if (parseUnitRest str c1).1 then parseSecond (parseUnitRest str c1).2.2 (parseUnitRest str c1).2.1 c2 c3
    else (false, (parseUnitRest str c1).2.1, none, none)
  else parseSecond str none c2 c3

/-- `TryFromTime`, Time.cpp 700-730: the members of `result` that were assigned keep their values also after a failure. -/
def tryTime (str : List Char) (r : IsoDur) : Bool × IsoDur :=
  match parseUnits str 'H' 'M' 'S' with
  | (ok, h, m, s) => (ok, { r with hours := h.getD r.hours, minutes := m.getD r.minutes, seconds := s.getD r.seconds })

/-- `TryFromDate`, Time.cpp 732-762. -/
def tryDurDate (str : List Char) (r : IsoDur) : Bool × IsoDur :=
  match parseUnits str 'Y' 'M' 'D' with
  | (ok, y, m, d) => (ok, { r with years := y.getD r.years, months := m.getD r.months, days := d.getD r.days })

/-- `DateTimeRegex` `(.*)T(.*)`, Time.cpp 766: the first group is greedy, so the last `T` separates (no line ends pass `FormatRegex`). -/
def splitLastT (str : List Char) : Option (List Char × List Char) :=
  if str.contains 'T' then
    some (((str.reverse.dropWhile (· ≠ 'T')).drop 1).reverse, (str.reverse.takeWhile (· ≠ 'T')).reverse)
  else none

/-- `TryFromDateTime`, Time.cpp 686-695. -/
def tryDurDateTime (str : List Char) (r : IsoDur) : Bool × IsoDur :=
  match splitLastT str with
  | none => tryDurDate str r
  | some (date, time) =>
    if time = [] then (false, r)
    else if (tryTime time r).1 = false then tryTime time r
    else if date = [] then tryTime time r
    else tryDurDate date (tryTime time r).2

/-- `FormatRegex` `P([WYMDTHS\d]{2,})`, Time.cpp 765: the group. -/
def formatRegex (str : List Char) : Option (List Char) :=
  match str with
  | 'P' :: body => if body.length ≥ 2 ∧ body.all (fun c => "WYMDTHS".toList.contains c || Str.isDigit c) then some body else none
  | _ => none

/-- The components of a text, Time.cpp 674-680; `none` is an exception. -/
def isoDurParse (str : List Char) : Option IsoDur :=
  match formatRegex (str.map upper) with
  | none => none
  | some body =>
    if (tryDurDateTime body ⟨0, 0, 0, 0, 0, 0, 0⟩).1 then some (tryDurDateTime body ⟨0, 0, 0, 0, 0, 0, 0⟩).2
    else if (parseUnit body 'W').1 then
      some { (tryDurDateTime body ⟨0, 0, 0, 0, 0, 0, 0⟩).2 with weeks := (parseUnit body 'W').2.getD 0 }
    else none

/-- `ToTimeDuration`, Time.cpp 650-668, in microseconds. -/
def isoDurValue (d : IsoDur) (base : Int) : Res Int :=
  if d.years = 0 ∧ d.months = 0 then
    .ok ((d.weeks * 7 + d.days) * 86400000000 + d.hours * 3600000000 + d.minutes * 60000000 + d.seconds * 1000000)
  else
    (breakDown 0 base).bind fun b =>
      (fromBrokenDown 0 (mkBdt b.ms (b.sec + d.seconds) (b.min + d.minutes) (b.hour + d.hours) b.wday (b.mday + d.weeks * 7 + d.days)
        (b.month + d.months) b.yday (b.year + d.years))).bind fun t => .ok (timeDiff t base)

/-- `TimeDurationUtility::FromIso8601`, Time.cpp 671-683 and 867-868. -/
def durFromIso (str : List Char) (base : Int) : Res Int :=
  match isoDurParse str with
  | none => .threw
  | some d => isoDurValue d base

end Verif.Time
