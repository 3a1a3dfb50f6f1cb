/-
Model of `STINGRAYKIT_HIDE_DUPLICATING_LOGS`: log/LoggerStream.h 25-95 and 145-154, log/LoggerStream.cpp 17-76.  Times are numbers of
microseconds of the monotonic clock.  One thread: the filter has no lock.
-/
namespace Verif.Log

/-- A text.  For LoggerStream.h 62-94. -/
abbrev Text := List Char

/-- `KeyType`, LoggerStream.h 29-37: file and line.  `operator <`, LoggerStream.cpp 17-22, tells two keys apart exactly if they differ. -/
abbrev Key := Text × Int

/-- `StringCounter`, LoggerStream.h 65-83; `since` is when `Elapsed` was started. -/
structure Counter where
  str : Text
  count : Option Nat
  since : Option Int
deriving DecidableEq, Repr

/-- The counter made by `Get`, LoggerStream.h 71 and 93. -/
def Counter.fresh : Counter := ⟨[], none, none⟩

/-- What is asked of the filter, LoggerStream.h 39-40: the number and the interval. -/
structure Hide where
  count : Nat
  interval : Option Int
deriving DecidableEq, Repr

/-- `HideDuplicatingLogs(unsigned count, …)`, LoggerStream.h 44-46; `none` is an exception. -/
def Hide.ofCount (n : Nat) : Option Hide := if n > 0 then some ⟨n, none⟩ else none

/-- `HideDuplicatingLogs(TimeDuration interval, …)`, LoggerStream.h 48-50; `none` is an exception. -/
def Hide.ofInterval (d : Int) : Option Hide := if d > 0 then some ⟨4294967295, some d⟩ else none

/-- A line in the log: a message, or a message with the number of times it was hidden (LoggerStream.cpp 67). -/
inductive Line where
  | message (m : Text)
  | times (m : Text) (n : Nat)
deriving DecidableEq, Repr

/-- `Reset`, LoggerStream.h 73-82. -/
def Counter.reset (m : Text) (h : Hide) (now : Int) : Counter := ⟨m, some 0, if h.interval.isSome then some now else none⟩

/-- The interval is over, LoggerStream.cpp 64: a duration is not less than an interval that is not there. -/
def due (c : Counter) (h : Hide) (now : Int) : Bool :=
  match c.since with
  | none => false
  | some s =>
    match h.interval with
    | none => true
    | some d => now - s ≥ d

/-- `DoLog` of a message that asks for hiding, LoggerStream.cpp 51-75. -/
def logHidden (c : Counter) (h : Hide) (now : Int) (m : Text) : Counter × List Line :=
  match c.count with
  | none => (Counter.reset m h now, [.message m])
  | some n =>
    if c.str ≠ m ∨ n ≥ h.count ∨ due c h now = true then
      (Counter.reset m h now, (if n > 0 then [.times c.str n] else []) ++ (if c.str ≠ m then [.message m] else []))
    else ({ c with count := some (n + 1) }, [])

/-- A message sent to a logger: where, what is asked, when, the text.  For LoggerStream.cpp 43-76. -/
structure Msg where
  key : Key
  hide : Option Hide
  now : Int
  text : Text
deriving DecidableEq, Repr

/-- The counters of a `DuplicatingLogsFilter`, LoggerStream.h 85-93. -/
abbrev Filter := Key → Counter

/-- `DoLog`, LoggerStream.cpp 43-76, with a filter. -/
def logOne (f : Filter) (m : Msg) : Filter × List Line :=
  match m.hide with
  | none => (f, [.message m.text])
  | some h => (fun k => if k = m.key then (logHidden (f m.key) h m.now m.text).1 else f k, (logHidden (f m.key) h m.now m.text).2)

/-- A sequence of messages: the lines of each.  For LoggerStream.cpp 43-76. -/
def logAll (f : Filter) : List Msg → Filter × List (List Line)
  | [] => (f, [])
  | m :: ms => ((logAll (logOne f m).1 ms).1, (logOne f m).2 :: (logAll (logOne f m).1 ms).2)

/-- The filter of a new logger, LoggerStream.h 89-90. -/
def Filter.empty : Filter := fun _ => Counter.fresh

end Verif.Log
