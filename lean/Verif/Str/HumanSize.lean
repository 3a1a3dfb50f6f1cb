import Verif.Str.Ints
/-
Model of sizes in human-readable form, HumanReadableSize.cpp 20-72.
Simplified: the product with the factor of type float is a parameter `delta`; characters are `Char`, `\d` is an ASCII digit.
-/
namespace Verif.Str

/-- `Suffixes`: HumanReadableSize.cpp 20. -/
def suffixes : List Char := ['k', 'M', 'G', 'T', 'P', 'E']

/-- Reduction of u64 arithmetic: HumanReadableSize.cpp 37-42, 68. -/
def wrap64 (n : Nat) : Nat := n % 18446744073709551616

/-- `roundedInUnits`: HumanReadableSize.cpp 37-38, with the exponent of the unit. -/
def roundedInUnits (size i : Nat) : Nat :=
  size / 2 ^ (10 * i) + (if 2 ^ (10 * i) > 1 ∧ size % 2 ^ (10 * i) ≥ 2 ^ (10 * i) / 2 then 1 else 0)

/-- The test of the loop: HumanReadableSize.cpp 39-42; `size - delta` does not wrap as the factor is at most 0.2. -/
def accepted (size delta i : Nat) : Bool :=
  decide (wrap64 (roundedInUnits size i * 2 ^ (10 * i)) ≥ size - delta) && decide (wrap64 (roundedInUnits size i * 2 ^ (10 * i)) ≤ wrap64 (size + delta))

/-- The text for a unit: HumanReadableSize.cpp 44-45. -/
def unitText (size i : Nat) (whitespace : List Char) : Option (List Char) :=
  match toText u64 (roundedInUnits size i) with
  | none => none
  | some ds => match i with
    | 0 => some (ds ++ whitespace)
    | j + 1 => some (ds ++ whitespace ++ (suffixes[j]?).toList)

/-- The loop of `ToHumanReadableSize`: HumanReadableSize.cpp 35-49: units `i - 1` down to 0; `none`: the exception. -/
def humanLoop (size delta : Nat) (whitespace : List Char) : Nat → Option (List Char)
  | 0 => none
  | i + 1 => if accepted size delta i then unitText size i whitespace else humanLoop size delta whitespace i

/-- `ToHumanReadableSize`: HumanReadableSize.cpp 26-50. -/
def toHuman (size delta : Nat) (ws : Bool) : Option (List Char) :=
  if size = 0 then some ('0' :: (if ws then [' '] else []))
  else humanLoop size delta (if ws then [' '] else []) (suffixes.length + 1)

/-- The position of the suffix: HumanReadableSize.cpp 66-67. -/
def suffixIndex (c : Char) : Option Nat := suffixes.findIdx? (fun x => decide (c = x))

/-- The number with a suffix: HumanReadableSize.cpp 60-71. -/
def fromSuffixed (s : List Char) : Parsed :=
  match s.getLast? with
  | none => .formatError
  | some c =>
    if s.dropLast ≠ [] ∧ s.dropLast.all isDigit = true then
      match suffixIndex c with
      | none => .formatError
      | some i => match fromText u64 s.dropLast with
        | .ok num => .ok (wrap64 (num.toNat * 2 ^ (10 * (i + 1))))
        | e => e
    else .formatError

/-- `FromHumanReadableSize`: HumanReadableSize.cpp 53-72. -/
def fromHuman (s : List Char) : Parsed :=
  match fromText u64 s with
  | .ok v => .ok v
  | _ => fromSuffixed s

end Verif.Str
