/-
Model of ProgressValue (ProgressValue.h) and AggregateProgressReporter (AggregateProgressReporter.h).  `s64` and `int` are integers with explicit range checks (overflow is `none`), `size_t` is modulo 2^64.
-/
namespace Verif.Util

/-- `ProgressValue`, ProgressValue.h 19-30. -/
structure Progress where
  current : Int
  total : Int
  deriving DecidableEq, Repr

/-- Conversion of `s64` to `int`, ProgressValue.h 33. -/
def toInt32 (x : Int) : Int := (x + 2 ^ 31) % 2 ^ 32 - 2 ^ 31

/-- `InPercents`, ProgressValue.h 32-33; signed overflow is `none`. -/
def Progress.percents (p : Progress) : Option Int :=
  if p.total = 0 then some 0
  else if -2 ^ 63 ≤ 100 * p.current ∧ 100 * p.current < 2 ^ 63 then some (toInt32 ((100 * p.current).tdiv p.total))
  else none

/-- `operator <`, ProgressValue.h 37. -/
def Progress.less (a b : Progress) : Option Bool :=
  match a.percents, b.percents with
  | some x, some y => some (decide (x < y))
  | _, _ => none

/-- An `AggregateProgressReporter`, AggregateProgressReporter.h 25-27. -/
structure Aggregate where
  index : Nat
  size : Nat
  count : Nat
  deriving DecidableEq, Repr

/-- Constructor for one action, AggregateProgressReporter.h 30-32. -/
def Aggregate.one (index count : Nat) : Option Aggregate := if index < count then some ⟨index, 1, count⟩ else none

/-- Constructor for several actions, AggregateProgressReporter.h 34-36. -/
def Aggregate.many (index size count : Nat) : Option Aggregate := if (index + size + (2 ^ 64 - 1)) % 2 ^ 64 < count then some ⟨index, size, count⟩ else none

/-- `operator ()`, AggregateProgressReporter.h 38-39: what is passed on.  The percents are converted to `size_t`, and the quotient to `s64`. -/
def Aggregate.report (a : Aggregate) (p : Progress) : Option Progress :=
  match p.percents with
  | none => none
  | some x =>
    if a.count = 0 then some ⟨0, 100⟩
    else some ⟨(((((a.index * 100 + a.size * (x % 2 ^ 64).toNat) % 2 ^ 64 / a.count : Nat) : Int) + 2 ^ 63) % 2 ^ 64 - 2 ^ 63), 100⟩

end Verif.Util
