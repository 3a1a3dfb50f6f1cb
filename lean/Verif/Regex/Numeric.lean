import Verif.Str.Ints
import Verif.Math.Model

/-
Model of `GenerateNumericRangeRegex`: string/RegexUtils.cpp 19-171.  Numbers are the values of `u64`; `none` is an exception.
-/
namespace Verif.Regex

/-- A text.  For RegexUtils.cpp 19-171. -/
abbrev Text := List Char

/-- `MaxValue`, RegexUtils.cpp 20. -/
def maxValue : Nat := 18446744073709551615

/-- `MaxBase`, RegexUtils.cpp 21. -/
def maxBase : Nat := maxValue / 10

/-- `ToString` of a `u64`.  For RegexUtils.cpp 30, 43, 58 and 94-95. -/
def text (v : Nat) : Text := (Str.toText Str.u64 v).getD []

/-- `RightJustify(str, width, '0')`, StringUtils.h 369-404; for RegexUtils.cpp 43 and 47. -/
def pad (width : Nat) (s : Text) : Text := List.replicate (width - s.length) '0' ++ s

/-- `normalizedBase`, RegexUtils.cpp 33. -/
def norm (base : Nat) : Nat := if base = 1 then 0 else base

/-- `quotientRegex`, RegexUtils.cpp 94-95. -/
def quotientRegex (first last : Nat) : Text :=
  if first = last then text first
  else '[' :: (text first ++ (if first + 1 = last then [] else ['-']) ++ text last ++ [']'])

/-- `nextBase` after `nextBase`, RegexUtils.cpp 131. -/
def after (next : Nat) : Nat := if next ≤ maxBase then next * 10 else maxValue

/-- The loop of `GenerateNumericRangeRegexStageOne`, RegexUtils.cpp 127-147, with `GenerateNumericRangeRegexStageTwo` as `two`; there are
at most 21 rounds. -/
def loop (two : Nat → Nat → Nat → Nat → Option (List Text)) (minDigits start last : Nat) :
    Nat → Bool → Nat → Nat → Nat → Nat → Option (List Text)
  | 0, _, _, _, _, _ => none
  | rounds + 1, first, digits, base, normalized, next =>
    if ¬ (normalized ≤ last ∧ base < maxValue) then some []
    else if next ≠ maxValue ∧ start ≥ next then loop two minDigits start last rounds first (digits + 1) next next (after next)
    else if digits < minDigits ∧ start = 0 ∧ last ≥ next then loop two minDigits start last rounds first (digits + 1) next next (after next)
    else
      match two (max minDigits digits) base (if first = true ∧ start = 0 then start else max normalized start)
          (min (if next = maxValue then next else next - 1) last) with
      | none => none
      | some r => (loop two minDigits start last rounds false (digits + 1) next next (after next)).map (r ++ ·)

/-- `GenerateNumericRangeRegexStageOne`, RegexUtils.cpp 121-150; it is always given an empty vector. -/
def stageOne (two : Nat → Nat → Nat → Nat → Option (List Text)) (minDigits start last : Nat) : Option (List Text) :=
  if ¬ start ≤ last then none
  else
    match loop two minDigits start last 21 true 1 1 0 10 with
    | some [] => none
    | r => r

/-- `firstValue`, RegexUtils.cpp 85. -/
def firstValue (base start : Nat) : Nat := if start % base = 0 then start else (start - start % base + base) % 18446744073709551616

/-- `lastValue`, RegexUtils.cpp 86. -/
def lastValue (base last : Nat) : Nat := if last % base = base - 1 then last else last - last % base - 1

/-- The numbers with the quotient of the first one, RegexUtils.cpp 74-83. -/
def headPart (one : Nat → Nat → Nat → Option (List Text)) (zeros : Text) (digits base start : Nat) : Option (List Text) :=
  if start % base = 0 then some []
  else if ¬ base > 1 then none
  else (one (digits - 1) (start % base) (base - 1)).map (List.map fun r => zeros ++ text (start / base) ++ r)

/-- The numbers with any remainder, RegexUtils.cpp 85-107. -/
def middlePart (one : Nat → Nat → Nat → Option (List Text)) (zeros : Text) (digits base start last : Nat) : Option (List Text) :=
  if ¬ lastValue base last % base = base - 1 then none
  else if firstValue base start / base ≤ lastValue base last / base then
    if base = 1 then some [zeros ++ quotientRegex (firstValue base start / base) (lastValue base last / base)]
    else
      match one (digits - 1) (firstValue base start % base) (lastValue base last % base) with
      | some [r] => some [zeros ++ quotientRegex (firstValue base start / base) (lastValue base last / base) ++ r]
      | _ => none
  else some []

/-- The numbers with the quotient of the last one, RegexUtils.cpp 109-118. -/
def tailPart (one : Nat → Nat → Nat → Option (List Text)) (zeros : Text) (digits base last : Nat) : Option (List Text) :=
  if last % base = base - 1 then some []
  else if ¬ base > 1 then none
  else (one (digits - 1) 0 (last % base)).map (List.map fun r => zeros ++ text (last / base) ++ r)

/-- The three parts one after the other, RegexUtils.cpp 74-118. -/
def three (a b c : Option (List Text)) : Option (List Text) :=
  match a, b, c with
  | some a, some b, some c => some (a ++ b ++ c)
  | _, _, _ => none

/-- The checks of `GenerateNumericRangeRegexStageTwo`, RegexUtils.cpp 27-39. -/
def checks (minDigits base start last : Nat) : Bool :=
  decide (minDigits > 0) && Math.isPower 64 10 base && decide (minDigits ≥ (text base).length) &&
  (decide (start = 0 ∨ norm base ≤ start) && (if base ≤ maxBase then decide (start < base * 10) else decide (start ≤ maxValue))) &&
  (decide (norm base ≤ last) && (if base ≤ maxBase then decide (last < base * 10) else decide (last ≤ maxValue))) &&
  decide (start ≤ last)

/-- `GenerateNumericRangeRegexStageTwo`, RegexUtils.cpp 25-119; the first argument bounds the depth of the recursion (20 suffice). -/
def stageTwo : Nat → Nat → Nat → Nat → Nat → Option (List Text)
  | 0, _, _, _, _ => none
  | depth + 1, minDigits, base, start, last =>
    if checks minDigits base start last = false then none
    else if start = last then some [pad minDigits (text start)]
    else if start / base = last / base then
      if base = 1 then some [List.replicate (minDigits - (text base).length) '0' ++ text (start / base)]
      else (stageOne (stageTwo depth) ((text base).length - 1) (start % base) (last % base)).map
        (List.map fun r => List.replicate (minDigits - (text base).length) '0' ++ text (start / base) ++ r)
    else
      three (headPart (stageOne (stageTwo depth)) (List.replicate (minDigits - (text base).length) '0') (text base).length base start)
        (middlePart (stageOne (stageTwo depth)) (List.replicate (minDigits - (text base).length) '0') (text base).length base start last)
        (tailPart (stageOne (stageTwo depth)) (List.replicate (minDigits - (text base).length) '0') (text base).length base last)

/-- Items with `|` between them, RegexUtils.cpp 165-168. -/
def joined : List Text → Text
  | [] => []
  | [r] => r
  | r :: rs => r ++ '|' :: joined rs

/-- `GenerateNumericRangeRegex`, RegexUtils.cpp 155-171. -/
def generate (start last : Nat) (group : Bool) : Option Text :=
  if ¬ start ≤ last then none
  else
    match stageOne (stageTwo 20) 0 start last with
    | none => none
    | some rs =>
      if rs.length = 1 ∧ group = false then rs.head?
      else some ((if group then ['('] else ['(', '?', ':']) ++ joined rs.reverse ++ [')'])

end Verif.Regex
