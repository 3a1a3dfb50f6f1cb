/-
Model of stingraykit/math.h and stingraykit/math.cpp. Unsigned arithmetic of a type of `w` bits is modulo `2 ^ w`; signed arithmetic is over the integers with
division truncating towards zero (overflow of signed values is outside the model). `none`: division by zero (undefined behaviour).
-/
namespace Verif.Math

/-- The ways in which the code of math.h 22-87 can fail. -/
inductive Err where
  | argument | indexOutOfRange | parse
  deriving DecidableEq, Repr

/-- `AlignUp<T>` for an unsigned `T` of `w` bits not narrower than `int`: math.h:22-26. -/
def alignUp (w value boundary : Nat) : Except Err Nat :=
  if boundary = 0 then .error .argument else .ok (boundary * ((value + boundary - 1) % 2 ^ w / boundary) % 2 ^ w)

/-- `AlignDown<T>` for an unsigned `T`: math.h:29-33. -/
def alignDown (value boundary : Nat) : Except Err Nat :=
  if boundary = 0 then .error .argument else .ok (boundary * (value / boundary))

/-- `AlignUp<T>`, `AlignDown<T>` for a signed `T`.  For math.h 22-87. -/
def alignUpS (value boundary : Int) : Except Err Int :=
  if boundary = 0 then .error .argument else .ok (boundary * ((value + boundary - 1).tdiv boundary))

/-- The signed version, math.h 22-87. -/
def alignDownS (value boundary : Int) : Except Err Int :=
  if boundary = 0 then .error .argument else .ok (boundary * (value.tdiv boundary))

/-- `Gcd`: math.h:36. -/
def gcd (a b : Nat) : Nat := if h : b = 0 then a else gcd b (a % b)
termination_by b
decreasing_by exact Nat.mod_lt _ (by omega)

/-- `Lcm`: math.h:37. -/
def lcm (w a b : Nat) : Option Nat := if gcd a b = 0 then none else some (a / gcd a b * b % 2 ^ w)

/-- `MakePowersOfNumberSequence<Number>::Impl<current>`: math.h:55-70, the compile-time recursion, at most `fuel` steps (64 suffice for `w = 64`). -/
def powersFrom (w n : Nat) : Nat → Nat → List Nat
  | 0, _ => []
  | fuel + 1, cur => if cur ≤ (2 ^ w - 1) / n then cur :: powersFrom w n fuel (cur * n) else [cur]

/-- `IsPowerOfNumber<Number>`: math.h:73-87. `std::binary_search` over the (increasing) array is modelled as membership. -/
def isPower (w n testee : Nat) : Bool := (powersFrom w n (w + 1) 1).contains testee

/-- `FractionInfo`: math.h:44-49. -/
structure Fraction where
  fraction : Nat
  precision : Nat
  overflow : Bool
  deriving DecidableEq, Repr

/-- The rounding loop of `RoundFraction`: math.cpp:23-29, `k` rounds. Result: fraction and `wasOverflow`. -/
def roundLoop (radix : Nat) : Nat → Nat → Bool → Nat × Bool
  | 0, f, was => (f, was)
  | k + 1, f, was => roundLoop radix k (f / radix + if f % radix ≥ radix / 2 + radix % 2 then 1 else 0) (was || decide (f % radix ≥ radix / 2 + radix % 2))

/-- The loop computing `precisionBase`: math.cpp:34-36, in a `u64`. -/
def precisionBase (radix : Nat) : Nat → Nat
  | 0 => 1
  | n + 1 => precisionBase radix n * radix % 2 ^ 64

/-- `RoundFraction`: math.cpp:18-43. -/
def roundFraction (fraction precision target radix : Nat) : Fraction :=
  if (roundLoop radix (precision - target) fraction false).2 = false then
    ⟨(roundLoop radix (precision - target) fraction false).1, min precision target, false⟩
  else if (roundLoop radix (precision - target) fraction false).1 ≥ precisionBase radix (min precision target) then
    ⟨(roundLoop radix (precision - target) fraction false).1 - precisionBase radix (min precision target),
      if (roundLoop radix (precision - target) fraction false).1 - precisionBase radix (min precision target) = 0 then 0 else min precision target, true⟩
  else ⟨(roundLoop radix (precision - target) fraction false).1, if (roundLoop radix (precision - target) fraction false).1 = 0 then 0 else min precision target, false⟩

/-- The scaling loop: math.cpp:59-61, at most `fuel` rounds (64 suffice). Result: scaled remainder and precision. -/
def scaleLoop (radix : Nat) : Nat → Nat → Nat → Nat × Nat
  | 0, rem, p => (rem, p)
  | fuel + 1, rem, p => if rem ≤ (2 ^ 64 - 1) / radix then scaleLoop radix fuel (rem * radix) (p + 1) else (rem, p)

/-- `CalculateFractionRemainder`: math.cpp:48-66. -/
def fractionRemainder (dividend divisor target radix : Nat) : Except Err Fraction :=
  if divisor = 0 then .error .argument
  else if ¬ radix > 1 then .error .argument
  else if dividend % divisor = 0 then .ok ⟨0, 0, false⟩
  else .ok (roundFraction ((scaleLoop radix 64 (dividend % divisor) 0).1 / divisor) (scaleLoop radix 64 (dividend % divisor) 0).2 target radix)

/-- The padding loop of `ParseDecimalFraction`: math.cpp:80-84, `k` rounds. -/
def padLoop : Nat → Nat → Except Err Nat
  | 0, f => .ok f
  | k + 1, f => if f ≤ (2 ^ 64 - 1) / 10 then padLoop k (f * 10) else .error .indexOutOfRange

/-- `ParseDecimalFraction`: math.cpp:69-87. The text is given by its length and the outcome `parsed` of `FromString<u64>`. -/
def parseFraction (len : Nat) (parsed : Option Nat) (target : Nat) : Except Err Fraction :=
  match parsed with
  | none => .error .parse
  | some f =>
    if f = 0 then .ok ⟨0, 0, false⟩
    else match padLoop (target - len) f with
      | .error e => .error e
      | .ok f' => .ok (roundFraction f' (max len target) target 10)

end Verif.Math
