/-
Model of ranges of numbers and of times: NumericRange.h, time/TimeInterval.h.
Simplification: the numbers are integers without bounds (a time is a number of milliseconds).
-/
namespace Verif.Num

/-- A range, NumericRange.h 22-23. -/
structure Interval where
  start : Int
  stop : Int
deriving DecidableEq, Repr

/-- The constructor throws if the start is greater than the end, NumericRange.h 29-30. -/
def Interval.make (start stop : Int) : Option Interval := if start ≤ stop then some ⟨start, stop⟩ else none

/-- `SetStart`, NumericRange.h 34. -/
def Interval.setStart (r : Interval) (v : Int) : Interval := { r with start := v }

/-- `SetEnd`, NumericRange.h 36. -/
def Interval.setEnd (r : Interval) (v : Int) : Interval := { r with stop := v }

/-- `IsEmpty`, NumericRange.h 41. -/
def Interval.isEmpty (r : Interval) : Bool := decide (r.start = r.stop)

/-- `Contains`, NumericRange.h 38. -/
def Interval.contains (r : Interval) (t : Int) : Bool := !r.isEmpty && (decide (r.start ≤ t) && decide (t ≤ r.stop))

/-- `ContainsStrict`, NumericRange.h 39. -/
def Interval.containsStrict (r : Interval) (t : Int) : Bool := decide (r.start < t) && decide (t < r.stop)

/-- `CreateEmpty`, NumericRange.h 42-46. -/
def Interval.empty : Interval := ⟨0, 0⟩

/-- `IsIntersecting`, NumericRange.h 48-53. -/
def Interval.isIntersecting (a b : Interval) : Bool :=
  if a.isEmpty || b.isEmpty then false else decide (a.start < b.stop) && decide (b.start < a.stop)

/-- `Intersect`, NumericRange.h 55-64. -/
def Interval.intersect (a b : Interval) : Option Interval :=
  if a.isEmpty || b.isEmpty then some .empty
  else if max a.start b.start ≥ min a.stop b.stop then some .empty
  else Interval.make (max a.start b.start) (min a.stop b.stop)

/-- `Union`, NumericRange.h 66-75. -/
def Interval.union (a b : Interval) : Option Interval :=
  if a.isEmpty then some b
  else if b.isEmpty then some a
  else Interval.make (min a.start b.start) (max a.stop b.stop)

/-- `Clamp`, NumericRange.h 77. -/
def Interval.clamp (r : Interval) (t : Int) : Int := max r.start (min t r.stop)

/-- `GetDuration`, TimeInterval.h 30; `Distance`, NumericRange.h 116. -/
def Interval.duration (r : Interval) : Int := r.stop - r.start

end Verif.Num
