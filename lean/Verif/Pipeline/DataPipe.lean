/-
Model of `DataPipe`, DataPipe.h 40-130.  A stage has a state and gives, for one input, values to its consumer, one after another; the consumer of the pipe does not throw.
-/
namespace Verif.Pipeline.DataPipe

/-- What a stage does with its state, DataPipe.h 28-36, 96. -/
structure Stage (V S : Type) where
  take : S → V → List V × S
  reset : S → S
  finish : S → S

/-- The calls of the consumer of a stage, one for each value it gives, DataPipe.h 51: `next` is the rest of the pipe, with its stages as state. -/
def feed {V T : Type} (next : T → V → List V × T) : T → List V → List V × T
  | t, [] => ([], t)
  | t, y :: ys => ((next t y).1 ++ (feed next (next t y).2 ys).1, (feed next (next t y).2 ys).2)

/-- `Process` on the states of the stages: DataPipe.h 49-51 for a stage, 70-72 at the end.  What the consumer of the pipe gets, and the states afterwards. -/
def process {V S : Type} : List (Stage V S) → List S → V → List V × List S
  | [], _, x => ([x], [])
  | _ :: _, [], _ => ([], [])
  | st :: rest, s :: ss, x =>
    ((feed (process rest) ss (st.take s x).1).1, (st.take s x).2 :: (feed (process rest) ss (st.take s x).1).2)

/-- `Reset`, DataPipe.h 61-62, 78-79. -/
def reset {V S : Type} : List (Stage V S) → List S → List S
  | st :: rest, s :: ss => st.reset s :: reset rest ss
  | _, _ => []

/-- `EndOfData`, DataPipe.h 53-59, 74-76: the first stage is told and calls the function it was given, which tells the next, and so on; the last function is the
caller's.  Only stages that give nothing more: the consumer they get is bound to its arguments in the wrong order, line 57, and a call of it does not compile.
The log has the number of the stage for each. -/
def endOfData {V S : Type} (n : Nat) : List (Stage V S) → List S → List Nat × List S
  | st :: rest, s :: ss => (n :: (endOfData (n + 1) rest ss).1, st.finish s :: (endOfData (n + 1) rest ss).2)
  | _, _ => ([n], [])

end Verif.Pipeline.DataPipe
