/-
Model of `Utf8IteratorRange` (stingraykit/string/Utf8IteratorRange.h), `Utf8Strlen`, `Utf8Validate`, `Utf8Substring` (stingraykit/string/Utf8StringUtils.h),
the ICU-less `Utf8ToLower` (stingraykit/string/Unicode.cpp) and `StringCodec` (stingraykit/locale/StringCodec.cpp).
Strings are lists of bytes (numbers below 256), iterators are positions.
-/
namespace Verif.Text

/-- The ways in which the code of Utf8IteratorRange.h 38-169 and StringCodec.cpp 38-669 can fail. -/
inductive Err where
  | logic      -- a failed `STINGRAYKIT_CHECK` with a message
  | malformed  -- `MalformedUtf8Exception`
  deriving DecidableEq, Repr

/-- `(c & 0xc0) == 0x80`: Utf8IteratorRange.h:47, 54. -/
def isCont (c : Nat) : Bool := (c &&& 0xc0) == 0x80

/-- The checks of the lead byte: Utf8IteratorRange.h:47-50, 106-109. -/
def badLead (c0 : Nat) : Bool := isCont c0 || c0 == 0xc0 || c0 == 0xc1 || !decide (c0 < 0xf5)

/-- `Get`: Utf8IteratorRange.h:38-76. -/
def get (s : List Nat) (p : Nat) : Except Err Nat :=
  match s[p]? with
  | none => .error .logic
  | some c0 =>
    if c0 ≤ 0x7f then .ok c0
    else if badLead c0 then .error .malformed
    else match s[p + 1]? with
      | none => .error .malformed
      | some c1 =>
        if !isCont c1 then .error .malformed
        else if c0 ≥ 0xc2 ∧ c0 ≤ 0xdf then .ok (((c0 &&& 0x1f) <<< 6) ||| (c1 &&& 0x3f))
        else match s[p + 2]? with
          | none => .error .malformed
          | some c2 =>
            if !isCont c2 then .error .malformed
            else if c0 ≥ 0xe0 ∧ c0 ≤ 0xef then .ok (((c0 &&& 0x0f) <<< 12) ||| ((c1 &&& 0x3f) <<< 6) ||| (c2 &&& 0x3f))
            else match s[p + 3]? with
              | none => .error .malformed
              | some c3 =>
                if !isCont c3 then .error .malformed
                else if c0 ≥ 0xf0 ∧ c0 ≤ 0xf4 then
                  .ok (((c0 &&& 0x07) <<< 18) ||| ((c1 &&& 0x3f) <<< 12) ||| ((c2 &&& 0x3f) <<< 6) ||| (c3 &&& 0x3f))
                else .error .malformed

/-- `Next`: Utf8IteratorRange.h:98-135. The position is advanced before a check throws, so it is returned in both cases. -/
def next (s : List Nat) (p : Nat) : Nat × Option Err :=
  match s[p]? with
  | none => (p, some .logic)
  | some c0 =>
    if c0 ≤ 0x7f then (p + 1, none)
    else if badLead c0 then (p + 1, some .malformed)
    else match s[p + 1]? with
      | none => (p + 1, some .malformed)
      | some c1 =>
        if !isCont c1 then (p + 2, some .malformed)
        else if c0 ≥ 0xc2 ∧ c0 ≤ 0xdf then (p + 2, none)
        else match s[p + 2]? with
          | none => (p + 2, some .malformed)
          | some c2 =>
            if !isCont c2 then (p + 3, some .malformed)
            else if c0 ≥ 0xe0 ∧ c0 ≤ 0xef then (p + 3, none)
            else match s[p + 3]? with
              | none => (p + 3, some .malformed)
              | some c3 =>
                if !isCont c3 then (p + 4, some .malformed)
                else if c0 ≥ 0xf0 ∧ c0 ≤ 0xf4 then (p + 4, none)
                else (p + 4, some .malformed)

/-- The `switch (count)` of `Prev`: Utf8IteratorRange.h:152-159. -/
def leadFits (c0 : Nat) : Nat → Bool
  | 0 => decide (c0 ≤ 0x7f)
  | 1 => decide (c0 ≥ 0xc2 ∧ c0 ≤ 0xdf)
  | 2 => decide (c0 ≥ 0xe0 ∧ c0 ≤ 0xef)
  | 3 => decide (c0 ≥ 0xf0 ∧ c0 ≤ 0xf4)
  | _ => false

/-- The loop of `Prev`: Utf8IteratorRange.h:142-168; `n` rounds left, `count = 4 - n`. -/
def prevLoop (s : List Nat) : Nat → Nat → Nat → Nat × Option Err
  | 0, _, p => (p, some .malformed)
  | n + 1, count, p =>
    if !isCont (s.getD p 0) then
      (p, if s.getD p 0 == 0xc0 || s.getD p 0 == 0xc1 || !decide (s.getD p 0 < 0xf5) then some .malformed
        else if leadFits (s.getD p 0) count then none else some .malformed)
    else if p = 0 then (p, some .malformed)
    else prevLoop s n (count + 1) (p - 1)

/-- `Prev`: Utf8IteratorRange.h:137-169. -/
def prev (s : List Nat) (p : Nat) : Nat × Option Err :=
  if p = 0 then (p, some .logic) else prevLoop s 4 0 (p - 1)

/-- `Last`: Utf8IteratorRange.h:90-96. -/
def last (s : List Nat) : Nat × Option Err := if s.length ≠ 0 then prev s s.length else (s.length, none)

/-- The calls, Utf8IteratorRange.h 38-169 and StringCodec.cpp 38-669. -/
inductive Op where
  | get | next | prev | first | last | valid
  deriving DecidableEq, Repr

/-- What a call returns, Utf8IteratorRange.h 38-169 and StringCodec.cpp 38-669. -/
inductive Out where
  | unit | value (v : Nat) | bool (b : Bool) | throws (e : Err)
  deriving DecidableEq, Repr

/-- What a call returns, Utf8IteratorRange.h 38-169 and StringCodec.cpp 38-669. -/
def outOf : Option Err → Out
  | none => .unit
  | some e => .throws e

/-- The operations of a range over `s`: Utf8IteratorRange.h:38-169. -/
def step (s : List Nat) (p : Nat) : Op → Nat × Out
  | .get => (p, match get s p with
    | .ok v => .value v
    | .error e => .throws e)
  | .next => ((next s p).1, outOf (next s p).2)
  | .prev => ((prev s p).1, outOf (prev s p).2)
  | .first => (0, .unit)
  | .last => ((last s).1, outOf (last s).2)
  | .valid => (p, .bool (decide (p ≠ s.length)))

/-- One step after another, for histories of Utf8IteratorRange.h 38-169 and StringCodec.cpp 38-669. -/
def run (s : List Nat) : Nat → List Op → List Out
  | _, [] => []
  | p, op :: ops => (step s p op).2 :: run s (step s p op).1 ops

/-- `Range::Count` over a UTF-8 range: collection/Range.h:1348-1354. `none`: not finished in `n` rounds. -/
def count (s : List Nat) : Nat → Nat → Nat → Option (Except Err Nat)
  | 0, _, _ => none
  | n + 1, p, result =>
    if p = s.length then some (.ok result)
    else match (next s p).2 with
      | some e => some (.error e)
      | none => count s n (next s p).1 (result + 1)

/-- `Utf8Strlen`: Utf8StringUtils.h:17-18. -/
def utf8Strlen (s : List Nat) : Option (Except Err Nat) := count s (s.length + 1) 0 0

/-- `Utf8Validate`: Utf8StringUtils.h:21-29. `none`: does not terminate. -/
def utf8Validate (s : List Nat) : Option Bool := (utf8Strlen s).map (fun
  | .ok _ => true
  | .error _ => false)

/-- The first loop of `Utf8Substring`: Utf8StringUtils.h:41-46 (`start` is the beginning of the string). -/
def skipLoop (bySymbols : Bool) (s : List Nat) (pos : Nat) : Nat → Nat → Nat → Option (Except Err Nat)
  | 0, _, _ => none
  | n + 1, index, p =>
    if (if bySymbols then index else p) < pos then
      match (next s p).2 with
      | some e => some (.error e)
      | none => skipLoop bySymbols s pos n (index + 1) (next s p).1
    else some (.ok p)

/-- The second loop of `Utf8Substring`: Utf8StringUtils.h:54-63; `e` is `end`. -/
def takeLoop (bySymbols : Bool) (s : List Nat) (start cnt : Nat) : Nat → Nat → Nat → Nat → Option (Except Err Nat)
  | 0, _, _, _ => none
  | n + 1, index, p, e =>
    if p ≠ s.length then
      match (next s p).2 with
      | some er => some (.error er)
      | none =>
        if (if bySymbols then index + 1 else (next s p).1 - start) > cnt then some (.ok e)
        else takeLoop bySymbols s start cnt n (index + 1) (next s p).1 (next s p).1
    else some (.ok e)

/-- `Utf8Substring<bySymbols>(s, pos, cnt)`: Utf8StringUtils.h:32-66; `cnt = none` is `npos`. -/
def utf8Substring (bySymbols : Bool) (s : List Nat) (pos : Nat) (cnt : Option Nat) : Option (Except Err (List Nat)) :=
  match skipLoop bySymbols s pos (pos + 1) 0 0 with
  | none => none
  | some (.error e) => some (.error e)
  | some (.ok st) => match cnt with
    | none => some (.ok (s.drop st))
    | some n => match takeLoop bySymbols s st n (s.length + 1) 0 st st with
      | none => none
      | some (.error e) => some (.error e)
      | some (.ok e) => some (.ok ((s.drop st).take (e - st)))

/-- The Cyrillic case of `Utf8ToLower`: Unicode.cpp:97-101. -/
def lowerCyrillic (c : Nat) : Nat :=
  if c ≥ 0x410 ∧ c ≤ 0x42f then c + 0x20 else if c ≥ 0x401 ∧ c ≤ 0x40f then c + 0x50 else c

/-- `Utf8ToLower` without ICU: Unicode.cpp:85-109. Left: the failed check. Bytes below 0x80 are the non-negative characters, so the signed comparison with
'A' and 'Z' is the unsigned one. -/
def utf8ToLower : List Nat → Except Err (List Nat)
  | [] => .ok []
  | b :: rest =>
    if b ≥ 0x41 ∧ b ≤ 0x5a then (utf8ToLower rest).map (fun r => (b + 0x61 - 0x41) :: r)
    else if b = 0xd0 then
      match rest with
      | [] => .error .logic
      | b1 :: rest1 => (utf8ToLower rest1).map (fun r =>
          ((0xd0 ||| (lowerCyrillic (((b &&& 0x1f) <<< 6) ||| (b1 &&& 0x3f)) >>> 6)) % 256) ::
            (((lowerCyrillic (((b &&& 0x1f) <<< 6) ||| (b1 &&& 0x3f)) &&& 0x3f) ||| 0x80) % 256) :: r)
    else (utf8ToLower rest).map (fun r => b :: r)

/-! ### `StringCodec` -/

/-- `PackUtf8`: StringCodec.cpp:537-563. -/
def packUtf8 (ucs repl : Nat) : List Nat :=
  if ucs < 0x80 then [ucs]
  else if ucs < 0x800 then [((ucs >>> 6) ||| 0xc0) % 256, ((ucs &&& 0x3f) ||| 0x80) % 256]
  else if ucs < 0x10000 then [((ucs >>> 12) ||| 0xe0) % 256, (((ucs &&& 0x0fc0) >>> 6) ||| 0x80) % 256, ((ucs &&& 0x003f) ||| 0x80) % 256]
  else if ucs < 0x110000 then
    [((ucs >>> 18) ||| 0xf0) % 256, (((ucs &&& 0x03f000) >>> 12) ||| 0x80) % 256, (((ucs &&& 0x000fc0) >>> 6) ||| 0x80) % 256, ((ucs &&& 0x00003f) ||| 0x80) % 256]
  else [repl % 256]

/-- The result of an unpacking function: the character (`none` is `InvalidCharacter`) and the rest of the string. The functions are called with a non-empty
string only (StringCodec.cpp:446, 481, 642, 660). -/
abbrev Unpack := List Nat → Option Nat × List Nat

/-- `Unpack_ISO_8859_1`: StringCodec.cpp:38-42. -/
def unpackLatin1 : Unpack
  | [] => (none, [])
  | c :: r => (some c, r)

/-- `table_f0`: StringCodec.cpp:368-374. -/
def tableF0 : List Nat := [0x0401, 0x0451, 0x0404, 0x0454, 0x0407, 0x0457, 0x040e, 0x045e, 0x00b0, 0x2219, 0x00b7, 0x221a, 0x2116, 0x00a4, 0x25a0, 0x00a0]

/-- `Unpack_CP866`: StringCodec.cpp:357-379. -/
def unpackCp866 : Unpack
  | [] => (none, [])
  | c :: r => (if c < 0x80 then some c else if c ≥ 0x80 ∧ c < 0xb0 then some (0x410 + c - 0x80) else if c ≥ 0xe0 ∧ c < 0xf0 then some (0x440 + c - 0xe0)
      else if c ≥ 0xf0 then some (tableF0.getD (c - 0xf0) 0) else none, r)

/-- `Unpack_ISO_10646_utf8`: StringCodec.cpp:254-282. -/
def unpackUtf8 : Unpack
  | [] => (none, [])
  | c0 :: r0 =>
    if c0 ≤ 0x7f then (some c0, r0)
    else if c0 = 0xc0 ∨ c0 = 0xc1 ∨ c0 ≥ 0xf5 then (none, r0)
    else match r0 with
      | [] => (none, r0)
      | c1 :: r1 =>
        if c0 ≥ 0xc2 ∧ c0 ≤ 0xdf then (some (((c0 &&& 0x1f) <<< 6) ||| (c1 &&& 0x3f)), r1)
        else match r1 with
          | [] => (none, r1)
          | c2 :: r2 =>
            if c0 ≥ 0xe0 ∧ c0 ≤ 0xef then (some (((c0 &&& 0x0f) <<< 12) ||| ((c1 &&& 0x3f) <<< 6) ||| (c2 &&& 0x3f)), r2)
            else match r2 with
              | [] => (none, r2)
              | c3 :: r3 =>
                if c0 ≥ 0xf0 ∧ c0 ≤ 0xf4 then
                  (some (((c0 &&& 0x07) <<< 18) ||| ((c1 &&& 0x3f) <<< 12) ||| ((c2 &&& 0x3f) <<< 6) ||| (c3 &&& 0x3f)), r3)
                else (none, r3)

/-- `Unpack_ISO_10646_utf16be`: StringCodec.cpp:284-306. -/
def unpackUtf16be : Unpack
  | [] => (none, [])
  | [_] => (none, [])
  | c0 :: c1 :: r =>
    if c0 < 0xd8 ∨ c0 > 0xdf then (some ((c0 <<< 8) ||| c1), r)
    else if c0 > 0xdb then (none, r)
    else match r with
      | [] => (none, [])
      | [_] => (none, [])
      | c2 :: c3 :: r' =>
        if c2 < 0xdc ∨ c2 > 0xdf then (none, r')
        else (some (((c0 &&& 0x03) <<< 18) ||| (c1 <<< 10) ||| ((c2 &&& 0x03) <<< 8) ||| c3), r')

/-- `Unpack_ISO_10646_utf16le`: StringCodec.cpp:308-330. -/
def unpackUtf16le : Unpack
  | [] => (none, [])
  | [_] => (none, [])
  | c0 :: c1 :: r =>
    if c1 < 0xd8 ∨ c1 > 0xdf then (some ((c1 <<< 8) ||| c0), r)
    else if c1 > 0xdb then (none, r)
    else match r with
      | [] => (none, [])
      | [_] => (none, [])
      | c2 :: c3 :: r' =>
        if c3 < 0xdc ∨ c3 > 0xdf then (none, r')
        else (some (((c1 &&& 0x03) <<< 18) ||| (c0 <<< 10) ||| ((c3 &&& 0x03) <<< 8) ||| c2), r')

/-- `Unpack_ISO_10646_utf32be`: StringCodec.cpp:332-343, the loop unrolled. -/
def unpackUtf32be : Unpack
  | c0 :: c1 :: c2 :: c3 :: r =>
    (if ((((c0 <<< 8) ||| c1) <<< 8 ||| c2) <<< 8 ||| c3) < 0x110000 then some ((((c0 <<< 8) ||| c1) <<< 8 ||| c2) <<< 8 ||| c3) else none, r)
  | _ => (none, [])

/-- `Unpack_ISO_10646_utf32le`: StringCodec.cpp:345-355, the loop unrolled. -/
def unpackUtf32le : Unpack
  | c0 :: c1 :: c2 :: c3 :: r =>
    (if (c0 ||| (c1 <<< 8) ||| (c2 <<< 16) ||| (c3 <<< 24)) < 0x110000 then some (c0 ||| (c1 <<< 8) ||| (c2 <<< 16) ||| (c3 <<< 24)) else none, r)
  | _ => (none, [])

/-- The encodings modelled (the table-driven single-byte code pages CP1251 and ISO 8859-2…16 are not).  Of Utf8IteratorRange.h 38-169 and StringCodec.cpp 38-669. -/
inductive Enc where
  | latin1 | iso10646 | utf8 | utf16be | utf16le | utf32be | utf32le
  deriving DecidableEq, Repr

/-- `GetUnpackFunc(Encoding)`: StringCodec.cpp:506-534. -/
def unpackOf : Enc → Unpack
  | .latin1 => unpackLatin1
  | .iso10646 => unpackUtf16be
  | .utf8 => unpackUtf8
  | .utf16be => unpackUtf16be
  | .utf16le => unpackUtf16le
  | .utf32be => unpackUtf32be
  | .utf32le => unpackUtf32le

/-- `GetEncoding`: StringCodec.cpp:566-606: the encoding and the size of the byte order mark. -/
def getEncoding (s : List Nat) : Option (Enc × Nat) :=
  if s.take 4 = [0x00, 0x00, 0xfe, 0xff] then some (.utf32be, 4)
  else if s.take 4 = [0xff, 0xfe, 0x00, 0x00] then some (.utf32le, 4)
  else if s.take 3 = [0xef, 0xbb, 0xbf] then some (.utf8, 3)
  else if s.take 2 = [0xfe, 0xff] then some (.utf16be, 2)
  else if s.take 2 = [0xff, 0xfe] then some (.utf16le, 2)
  else none

/-- `GetUnpackFunc(LocaleString, bomSize)`: StringCodec.cpp:493-503. -/
def selectUnpack (e : Enc) (s : List Nat) : Unpack × Nat :=
  if e = .iso10646 then
    match getEncoding s with
    | some (e', n) => (unpackOf e', n)
    | none => (unpackOf e, 0)
  else (unpackOf e, 0)

/-- The conversion loop: StringCodec.cpp:446-452, 660-666; `none`: not finished in `n` rounds. -/
def convert (unpack : Unpack) (repl : Nat) : Nat → List Nat → Option (List Nat)
  | 0, _ => none
  | n + 1, s =>
    if s = [] then some []
    else (convert unpack repl n (unpack s).2).map (fun r => packUtf8 ((unpack s).1.getD repl) repl ++ r)

/-- `ToUtf8`: StringCodec.cpp:433-456. -/
def toUtf8 (e : Enc) (s : List Nat) (repl : Nat) : Option (List Nat) :=
  if e = .utf8 then some s
  else convert (selectUnpack e s).1 repl (s.length + 1) (s.drop (selectUnpack e s).2)

/-- A character as the `int` of `Compare`; `InvalidCharacter` is -1: StringCodec.cpp:483-484. -/
def asInt : Option Nat → Int
  | none => -1
  | some v => v

/-- The loop of `Compare`: StringCodec.cpp:481-489. -/
def compareLoop (ua ub : Unpack) : Nat → List Nat → List Nat → Option Int
  | 0, _, _ => none
  | n + 1, a, b =>
    if a ≠ [] ∧ b ≠ [] then
      if asInt (ua a).1 ≠ asInt (ub b).1 then some (asInt (ua a).1 - asInt (ub b).1)
      else compareLoop ua ub n (ua a).2 (ub b).2
    else some ((if a ≠ [] then 1 else 0) + (if b ≠ [] then -1 else 0))

/-- `Compare`: StringCodec.cpp:463-490. -/
def compare (ea : Enc) (a : List Nat) (eb : Enc) (b : List Nat) : Option Int :=
  compareLoop (selectUnpack ea a).1 (selectUnpack eb b).1 (a.length + 1) (a.drop (selectUnpack ea a).2) (b.drop (selectUnpack eb b).2)

/-- The `switch` of `Pack_CP866`: StringCodec.cpp:397-418. -/
def packCp866Table (u : Nat) : Option Nat :=
  if u = 0x0401 then some 0xf0 else if u = 0x0451 then some 0xf1 else if u = 0x0404 then some 0xf2 else if u = 0x0454 then some 0xf3
  else if u = 0x0407 then some 0xf4 else if u = 0x0457 then some 0xf5 else if u = 0x040e then some 0xf6 else if u = 0x045e then some 0xf7
  else if u = 0x00b0 then some 0xf8 else if u = 0x2219 then some 0xf9 else if u = 0x00b7 then some 0xfa else if u = 0x221a then some 0xfb
  else if u = 0x2116 then some 0xfc else if u = 0x00a4 then some 0xfd else if u = 0x25a0 then some 0xfe else if u = 0x00a0 then some 0xff else none

/-- `Pack_CP866`: StringCodec.cpp:387-420. `InvalidCharacter` takes the default branch. -/
def packCp866 (u : Option Nat) (repl : Nat) : Nat :=
  match u with
  | none => repl
  | some u =>
    if u < 0x80 then u
    else if u ≥ 0x410 ∧ u ≤ 0x43f then u - 0x410 + 0x80
    else if u ≥ 0x440 ∧ u ≤ 0x44f then u - 0x440 + 0xe0
    else (packCp866Table u).getD repl

/-- `ToCodePage(src, 866)` of UTF-8 text: StringCodec.cpp:630-649. -/
def toCp866 : Nat → List Nat → Option (List Nat)
  | 0, _ => none
  | n + 1, s => if s = [] then some [] else (toCp866 n (unpackUtf8 s).2).map (fun r => packCp866 (unpackUtf8 s).1 0x3f :: r)

/-- `FromCodePage(src, 866, repl)`: StringCodec.cpp:652-669. -/
def fromCp866 (s : List Nat) (repl : Nat) : Option (List Nat) := convert unpackCp866 repl (s.length + 1) s

end Verif.Text
