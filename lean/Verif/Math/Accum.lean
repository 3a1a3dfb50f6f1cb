/-
Model of the running statistics: the pipe stages `Accumulators<T>::Mean` and
`Accumulators<T>::Deviation` (stingraykit/Accumulators.h 22-66) and `Average<T>`
(stingraykit/Average.h 16-28).

The arithmetic of the element type is a parameter: `div` is its division.  The theorems use it at the
rationals (exact division: what the code computes up to the rounding of a floating type) and at the
integers with truncating division.  Simplifications: no overflow of the element type and no rounding.
-/
namespace Verif.Accum

/-- The fields of `Mean` (Accumulators.h 26-28). -/
structure MeanSt (α : Type) where
  mean : α
  count : α
deriving DecidableEq, Repr

/-- `Mean()` (Accumulators.h 31-32). -/
def meanInit (α : Type) [OfNat α 0] : MeanSt α := { mean := 0, count := 0 }

/-- The state after `Mean::Process` (Accumulators.h 34-38); `++_count` happens before the division. -/
def meanStep {α : Type} [Add α] [Sub α] [OfNat α 1] (div : α → α → α) (s : MeanSt α) (v : α) : MeanSt α :=
  { mean := s.mean + div (v - s.mean) (s.count + 1), count := s.count + 1 }

/-- `Mean::Reset` (Accumulators.h 41). -/
def meanReset {α : Type} [OfNat α 0] (s : MeanSt α) : MeanSt α :=
  { s with count := 0, mean := 0 }

/-- `Mean::Get` (Accumulators.h 40). -/
def meanGet {α : Type} (s : MeanSt α) : α := s.mean

/-- The fields of `Deviation` (Accumulators.h 46-48). -/
structure DevSt (α : Type) where
  mean : α
  deviation : α
  count : α
deriving DecidableEq, Repr

/-- `Deviation()` (Accumulators.h 51-52). -/
def devInit (α : Type) [OfNat α 0] : DevSt α := { mean := 0, deviation := 0, count := 0 }

/-- The state after `Deviation::Process` (Accumulators.h 54-60). -/
def devStep {α : Type} [Add α] [Sub α] [Mul α] [OfNat α 1] (div : α → α → α) (s : DevSt α) (v : α) : DevSt α :=
  { mean := s.mean + div (v - s.mean) (s.count + 1)
    deviation := s.deviation + (v - s.mean) * (v - (s.mean + div (v - s.mean) (s.count + 1)))
    count := s.count + 1 }

/-- `Deviation::Reset` (Accumulators.h 64). -/
def devReset {α : Type} [OfNat α 0] (s : DevSt α) : DevSt α :=
  { s with count := 0, mean := 0, deviation := 0 }

/-- `Deviation::Get` (Accumulators.h 63). -/
def devGet {α : Type} [DecidableEq α] [OfNat α 0] (div : α → α → α) (s : DevSt α) : α :=
  if s.count ≠ 0 then div s.deviation s.count else 0

/-- What happens to a stage: a value is pushed through it or it is reset
(Accumulators.h 35 and 41, 55 and 64). -/
inductive Op (α : Type) where
  | process (v : α)
  | reset
deriving Repr

/-- One operation on a `Mean`, with the values handed to the callback (Accumulators.h 34-41). -/
def meanOp {α : Type} [Add α] [Sub α] [OfNat α 0] [OfNat α 1] (div : α → α → α) (s : MeanSt α) :
    Op α → MeanSt α × List α
  | .process v => (meanStep div s v, [v])
  | .reset => (meanReset s, [])

/-- A history of a `Mean` (Accumulators.h 34-41). -/
def meanRun {α : Type} [Add α] [Sub α] [OfNat α 0] [OfNat α 1] (div : α → α → α) :
    MeanSt α → List (Op α) → MeanSt α × List α
  | s, [] => (s, [])
  | s, o :: os =>
    ((meanRun div (meanOp div s o).1 os).1, (meanOp div s o).2 ++ (meanRun div (meanOp div s o).1 os).2)

/-- One operation on a `Deviation`, with the values handed to the callback (Accumulators.h 54-64). -/
def devOp {α : Type} [Add α] [Sub α] [Mul α] [OfNat α 0] [OfNat α 1] (div : α → α → α) (s : DevSt α) :
    Op α → DevSt α × List α
  | .process v => (devStep div s v, [v])
  | .reset => (devReset s, [])

/-- A history of a `Deviation` (Accumulators.h 54-64). -/
def devRun {α : Type} [Add α] [Sub α] [Mul α] [OfNat α 0] [OfNat α 1] (div : α → α → α) :
    DevSt α → List (Op α) → DevSt α × List α
  | s, [] => (s, [])
  | s, o :: os =>
    ((devRun div (devOp div s o).1 os).1, (devOp div s o).2 ++ (devRun div (devOp div s o).1 os).2)

/-- The fields of `Average` (Average.h 20-21). -/
structure AvgSt where
  accum : Int
  count : Int
deriving DecidableEq, Repr

/-- `Average()` (Average.h 24). -/
def avgInit : AvgSt := { accum := 0, count := 0 }

/-- `Average::Accumulate` (Average.h 26). -/
def avgAccumulate (s : AvgSt) (v : Int) : AvgSt := { accum := s.accum + v, count := s.count + 1 }

/-- `Average::Get` (Average.h 27): integer division truncates. -/
def avgGet (s : AvgSt) : Int := if s.count > 0 then s.accum.tdiv s.count else 0

end Verif.Accum
