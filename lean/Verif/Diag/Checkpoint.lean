/-
Model of `CheckpointProfiler`, `AutoCheckpointProfiler` (CheckpointProfiler.cpp) and `BandwidthReporter` (BandwidthReporter.h).

Each call is made under the mutex of the object and is one step; the monotonic clock (microseconds) is given with the call that reads it.  Names are texts; the numbers in made-up names are written in decimal.
-/
namespace Verif.Diag.Checkpoint

/-- A `CheckpointProfiler`: the clock at `Start` (`_elapsedTime`) and the checkpoints with the time since then.  CheckpointProfiler.h 49-52. -/
structure Prof where
  start : Option Int
  times : List (String × Int)
  deriving DecidableEq, Repr

/-- A call: `Checkpoint(name)`, `Start` and `Stop` at a time of the clock.  CheckpointProfiler.h 55-59. -/
inductive Call where
  | checkpoint (name : String) (now : Int)
  | start (now : Int)
  | stop
  deriving DecidableEq, Repr

/-- The name of a checkpoint: CheckpointProfiler.cpp 54. -/
def nameOf (name : String) (count : Nat) : String := if name = "" then "#" ++ toString count else name

/-- The loop of `Stop`: CheckpointProfiler.cpp 74-79. -/
def entries (prev : Int) : List (String × Int) → List (String × Int)
  | [] => []
  | (n, t) :: rest => (n, t - prev) :: entries t rest

/-- One call, with the entries `Stop` returns: CheckpointProfiler.cpp 47-83. -/
def step (p : Prof) : Call → Prof × Option (List (String × Int))
  | .checkpoint name now =>
    match p.start with
    | none => (p, none)
    | some s => ({ p with times := p.times ++ [(nameOf name p.times.length, now - s)] }, none)
  | .start now => (⟨some now, []⟩, none)
  | .stop => (⟨none, []⟩, some (entries 0 p.times))

/-- A history of calls and what the calls of `Stop` return.  CheckpointProfiler.cpp 47-83. -/
def run (p : Prof) : List Call → Prof × List (List (String × Int))
  | [] => (p, [])
  | c :: cs =>
    match (step p c).2 with
    | none => run (step p c).1 cs
    | some r => ((run (step p c).1 cs).1, r :: (run (step p c).1 cs).2)

/-- The lines the destructor of `AutoCheckpointProfiler` writes: time so far, time before the checkpoint, name.  CheckpointProfiler.cpp 105-110. -/
def lines (t : Int) : List (String × Int) → List (Int × Int × String)
  | [] => []
  | (n, d) :: rest => (t + d, d, n) :: lines (t + d) rest

/-- An `AutoCheckpointProfiler` from its constructor at `t0` over its checkpoints to its destructor at `t1`; `enabled`: whether it writes.  CheckpointProfiler.cpp 89-121. -/
def auto (enabled : Bool) (t0 : Int) (cs : List (String × Int)) (t1 : Int) : List (Int × Int × String) :=
  match run ⟨none, []⟩ (.start t0 :: cs.map (fun c => Call.checkpoint c.1 c.2) ++ [.checkpoint "stopping the profiler" t1, .stop]) with
  | (_, [r]) => if enabled then lines 0 r else []
  | _ => []

/-! `BandwidthReporter` -/

/-- A `BandwidthReporter`: BandwidthReporter.h 24-27. -/
structure Band where
  total : Nat
  since : Nat
  start : Int
  deriving DecidableEq, Repr

/-- `BytesProcessed` with the number of bytes the consumer took, and `Report` at a time.  BandwidthReporter.h 44-66. -/
inductive Ev where
  | processed (n : Nat)
  | report (now : Int)
  deriving DecidableEq, Repr

/-- What a report says: bytes since the last one, bytes in total, speed.  BandwidthReporter.h 48. -/
structure Report where
  data : Nat
  total : Nat
  speed : Int
  deriving DecidableEq, Repr

/-- One event, with the report (`none`: division by zero); counters are 64 bits wide.  The division is made in `u64`: the time is converted.  BandwidthReporter.h 44-66, ElapsedTime.cpp 30-35. -/
def bandStep (b : Band) : Ev → Option (Band × List Report)
  | .processed n => some ({ b with since := (b.since + n) % 2 ^ 64, total := (b.total + n) % 2 ^ 64 }, [])
  | .report now =>
    if Int.tdiv (now - b.start) 1000 % 2 ^ 64 = 0 then none
    else some ({ b with since := 0, start := now }, [⟨b.since, b.total, ((b.since * 1000 % 2 ^ 64 : Nat) : Int) / (Int.tdiv (now - b.start) 1000 % 2 ^ 64) / 1024⟩])

/-- Events one after another: BandwidthReporter.h 44-66. -/
def bandRun (b : Band) : List Ev → Option (Band × List Report)
  | [] => some (b, [])
  | e :: es =>
    match bandStep b e with
    | none => none
    | some (b', r) =>
      match bandRun b' es with
      | none => none
      | some (b'', rs) => some (b'', r ++ rs)

end Verif.Diag.Checkpoint
