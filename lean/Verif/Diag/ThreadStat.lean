import Verif.Str.Ints
/-
Model of thread/posix/PosixThreadStats.h: reading `/proc/…/stat` whole in pieces (124-146), taking it apart with `sscanf` (148-208), and the choice of the file (95-121).
-/
namespace Verif.Diag.ThreadStat

/-- `IncrementSize`, PosixThreadStats.h 126. -/
def increment : Nat := 1024

/-- The loop of `ConsumeFile`, PosixThreadStats.h 129-142.  `env i` is what call number `i` of `read` does: `none` fails, `some k` gives at most `k + 1` bytes, never more
than there is room for or than the file still has; it gives none only at the end of the file.  `got` is the part of the buffer that is filled, `size` the size of the
buffer.  The fuel is the number of calls. -/
def consumeLoop (env : Nat → Option Nat) : Nat → Nat → List Char → List Char → Nat → Option (Option (List Char))
  | 0, _, _, _, _ => none
  | fuel + 1, i, file, got, size =>
    match env i with
    | none => some none
    | some k =>
      if min (k + 1) (min (size - got.length) file.length) = 0 then some (some got)
      else
        consumeLoop env fuel (i + 1) (file.drop (min (k + 1) (min (size - got.length) file.length)))
          (got ++ file.take (min (k + 1) (min (size - got.length) file.length)))
          (if got.length + min (k + 1) (min (size - got.length) file.length) = size then size + increment else size)

/-- `ConsumeFile`, PosixThreadStats.h 124-146: the bytes, or `null` after a failed `read`.  The outer `none` is lack of fuel. -/
def consumeFile (env : Nat → Option Nat) (fuel : Nat) (file : List Char) : Option (Option (List Char)) := consumeLoop env fuel 0 file [] increment

/-- A directive of the format, PosixThreadStats.h 154. -/
inductive Dir where
  /-- `%lld` -/
  | lld
  /-- `%llu` -/
  | llu
  /-- white space -/
  | blank
  /-- an ordinary character -/
  | lit (c : Char)
  /-- `%<max>[^<stop>]` -/
  | upTo (max : Nat) (stop : Char)
  /-- `%c` -/
  | chr
deriving DecidableEq, Repr

/-- A value stored through one of the pointers of PosixThreadStats.h 156-204. -/
inductive Val where
  | num (v : Int)
  | text (s : List Char)
  | chr (c : Char)
deriving DecidableEq, Repr

/-- What `sscanf` does: it returns, having stored these values; a conversion gives a value that its type does not hold, which is undefined; or it writes past the end of
`tcomm`.  For PosixThreadStats.h 154. -/
inductive Scan where
  | done (vals : List Val)
  | undefined
  | overrun
deriving DecidableEq, Repr

/-- `isspace`, for PosixThreadStats.h 154. -/
def isSpace (c : Char) : Bool := c == ' ' || c == '\n' || c == '\t' || c == '\r' || c.toNat == 11 || c.toNat == 12

/-- The size of `tcomm`, PosixThreadStats.h 30. -/
def commSize : Nat := 1024

/-- The sign of a number: whether it is negative, and the rest.  For PosixThreadStats.h 154. -/
def splitSign : List Char → Bool × List Char
  | '-' :: r => (true, r)
  | '+' :: r => (false, r)
  | r => (false, r)

/-- The number of a string of digits.  For PosixThreadStats.h 154. -/
def magnitude (ds : List Char) : Int := ds.foldl (fun a c => a * 10 + Str.digitVal c) 0

/-- The number `%lld` gives of these digits; `none` if it has no such value.  For PosixThreadStats.h 154. -/
def signedValue (negative : Bool) (ds : List Char) : Option Int :=
  if negative then (if magnitude ds ≤ 9223372036854775808 then some (-magnitude ds) else none)
  else (if magnitude ds ≤ 9223372036854775807 then some (magnitude ds) else none)

/-- The number `%llu` gives of these digits, stored in the `s64` of PosixThreadStats.h 182; `none` if it has no such value. -/
def unsignedValue (negative : Bool) (ds : List Char) : Option Int :=
  if magnitude ds ≤ 18446744073709551615 then
    some (((if negative then -magnitude ds else magnitude ds) + 9223372036854775808) % 18446744073709551616 - 9223372036854775808)
  else none

/-- `sscanf`, for PosixThreadStats.h 154: the directives in turn, until one does not match. -/
def scan : List Dir → List Char → List Val → Scan
  | [], _, vals => .done vals
  | .lld :: ds, input, vals =>
    if ((splitSign (input.dropWhile isSpace)).2.takeWhile Str.isDigit).isEmpty then .done vals
    else
      match signedValue (splitSign (input.dropWhile isSpace)).1 ((splitSign (input.dropWhile isSpace)).2.takeWhile Str.isDigit) with
      | none => .undefined
      | some v => scan ds ((splitSign (input.dropWhile isSpace)).2.dropWhile Str.isDigit) (vals ++ [.num v])
  | .llu :: ds, input, vals =>
    if ((splitSign (input.dropWhile isSpace)).2.takeWhile Str.isDigit).isEmpty then .done vals
    else
      match unsignedValue (splitSign (input.dropWhile isSpace)).1 ((splitSign (input.dropWhile isSpace)).2.takeWhile Str.isDigit) with
      | none => .undefined
      | some v => scan ds ((splitSign (input.dropWhile isSpace)).2.dropWhile Str.isDigit) (vals ++ [.num v])
  | .blank :: ds, input, vals => scan ds (input.dropWhile isSpace) vals
  | .lit c :: ds, input, vals => if input.head? = some c then scan ds input.tail vals else .done vals
  | .upTo max stop :: ds, input, vals =>
    if ((input.takeWhile (· != stop)).take max).isEmpty then .done vals
    else if commSize < ((input.takeWhile (· != stop)).take max).length + 1 then .overrun
    else scan ds (input.drop ((input.takeWhile (· != stop)).take max).length) (vals ++ [.text ((input.takeWhile (· != stop)).take max)])
  | .chr :: ds, input, vals =>
    match input with
    | [] => .done vals
    | c :: r => scan ds r (vals ++ [.chr c])

/-- The format, PosixThreadStats.h 154. -/
def format : List Dir :=
  [.lld, .blank, .lit '(', .upTo 1024 ')', .lit ')', .blank, .chr] ++
  (List.replicate 19 [Dir.blank, .lld]).flatten ++ [.blank, .llu] ++ (List.replicate 18 [Dir.blank, .lld]).flatten

/-- What `ReadCpuTimeFromStat` does: it fails, having stored some fields; it succeeds with these fields; or its behaviour is undefined.  For PosixThreadStats.h 148-208. -/
inductive Outcome where
  | failed
  | fields (vals : List Val)
  | ub
deriving DecidableEq, Repr

/-- `ArgsCount`, PosixThreadStats.h 206. -/
def argsCount : Nat := 41

/-- `c_str()`: the text up to the first NUL, PosixThreadStats.h 154. -/
def cStr (s : List Char) : List Char := s.takeWhile (·.toNat != 0)

/-- `sscanf` and the check of its result, PosixThreadStats.h 154-207. -/
def parse (text : List Char) : Outcome :=
  match scan format (cStr text) [] with
  | .done vals => if vals.length = argsCount then .fields vals else .failed
  | .undefined => .ub
  | .overrun => .ub

/-- `ReadCpuTimeFromStat`, PosixThreadStats.h 148-208. -/
def readStat (env : Nat → Option Nat) (fuel : Nat) (file : List Char) : Option Outcome :=
  match consumeFile env fuel file with
  | none => none
  | some none => some .failed
  | some (some text) => some (parse text)

/-- `GetThreadStats`, PosixThreadStats.h 95-121 (without `PLATFORM_STAPI`): `task` and `proc` are the files `/proc/gid/task/id/stat` and `/proc/id/stat`, `none` if `open`
fails. -/
def getThreadStats (env : Nat → Option Nat) (fuel : Nat) (task proc : Option (List Char)) : Option Outcome :=
  match task with
  | some file => readStat env fuel file
  | none =>
    match proc with
    | some file => readStat env fuel file
    | none => some .failed

end Verif.Diag.ThreadStat
