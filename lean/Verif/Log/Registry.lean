import Verif.Log.Dedup

/-
Model of the named loggers and the sinks: log/Logger.cpp 24-131 (registry), 133-193 and 259-282 (sinks), 206-309 and 316-332 (loggers),
log/Logger.h 108-132.  Levels are the numbers of `LogLevel` (LogLevel.h 23-31).  The lines the setters write into the log are left out.
-/
namespace Verif.Log

/-- `NamedLoggerSettings`, Logger.cpp 24-46. -/
structure Settings where
  level : Option Nat
  backtrace : Bool
  highlight : Bool
deriving DecidableEq, Repr

/-- New settings, Logger.cpp 32-34. -/
def Settings.none : Settings := ⟨Option.none, false, false⟩

/-- `IsEmpty`, Logger.cpp 45. -/
def Settings.isEmpty (s : Settings) : Bool := s.level.isNone && !s.backtrace && !s.highlight

/-- A `NamedLogger`: its name and its own settings, Logger.h 134-137. -/
structure Named where
  name : Text
  own : Settings
deriving DecidableEq, Repr

/-- The registry and the loggers (`none` once destroyed), with the global level: Logger.cpp 54-56 and 198. -/
structure Reg where
  global : Nat
  settings : Text → Option Settings
  loggers : List (Option Named)

/-- The operations, Logger.cpp 206-247 and 288-328. -/
inductive RegAct where
  | create (name : Text) (level : Option Nat)         -- Logger.cpp 288-294
  | destroy (i : Nat)                                 -- the token of Logger.cpp 293
  | setLevel (name : Text) (level : Option Nat)       -- Logger.cpp 221-225
  | backtrace (name : Text) (enable : Bool)           -- Logger.cpp 236-240
  | highlight (name : Text) (enable : Bool)           -- Logger.cpp 243-247
  | setGlobal (level : Nat)                           -- Logger.cpp 206-210
  | ownLevel (i : Nat) (level : Option Nat)           -- Logger.cpp 305-309
  | ownBacktrace (i : Nat) (enable : Bool)            -- Logger.cpp 316-320
  | ownHighlight (i : Nat) (enable : Bool)            -- Logger.cpp 327-328
deriving DecidableEq, Repr

/-- Change the settings of a name and of its loggers, Logger.cpp 86-97, 106-117 and 119-130. -/
def Reg.change (r : Reg) (name : Text) (f : Settings → Settings) : Reg :=
  { r with
    loggers := r.loggers.map (Option.map fun l => if l.name = name then { l with own := f l.own } else l)
    settings := fun n => if n = name then (if (f ((r.settings name).getD Settings.none)).isEmpty then none else some (f ((r.settings name).getD Settings.none))) else r.settings n }

/-- Change one logger, Logger.cpp 305-328. -/
def Reg.changeOne (r : Reg) (i : Nat) (f : Settings → Settings) : Reg :=
  { r with loggers := r.loggers.modify i (Option.map fun l => { l with own := f l.own }) }

/-- One operation, Logger.cpp 59-131. -/
def Reg.step (r : Reg) : RegAct → Reg
  | .create name level => { r with loggers := r.loggers ++ [some ⟨name, (r.settings name).getD ⟨level, false, false⟩⟩] }
  | .destroy i => { r with loggers := r.loggers.set i none }
  | .setLevel name level => r.change name fun s => { s with level := level }
  | .backtrace name enable => r.change name fun s => { s with backtrace := enable }
  | .highlight name enable => r.change name fun s => { s with highlight := enable }
  | .setGlobal level => { r with global := level }
  | .ownLevel i level => r.changeOne i fun s => { s with level := level }
  | .ownBacktrace i enable => r.changeOne i fun s => { s with backtrace := enable }
  | .ownHighlight i enable => r.changeOne i fun s => { s with highlight := enable }

/-- A sequence of operations.  For Logger.cpp 59-131. -/
def Reg.run (r : Reg) : List RegAct → Reg
  | [] => r
  | a :: as => Reg.run (r.step a) as

/-- At the beginning, Logger.cpp 54-56 and 198; the default level is a parameter of the build. -/
def Reg.init (global : Nat) : Reg := ⟨global, fun _ => none, []⟩

/-- `Logger::GetLogLevel(name)`, Logger.cpp 99-104. -/
def Reg.levelOf (r : Reg) (name : Text) : Option Nat := (r.settings name).bind (·.level)

/-- `NamedLogger::GetLogLevel`, Logger.cpp 297-302. -/
def Reg.level (r : Reg) (l : Named) : Nat := l.own.level.getD r.global

/-- `GetLoggerNames`, Logger.cpp 78-84: the names in it. -/
def Reg.hasName (r : Reg) (name : Text) : Bool := r.loggers.any fun l => match l with | some l => l.name = name | none => false

/-- A stream of a level is written, LoggerStream.h 124 and 136 and LoggerStream.cpp 33-34. -/
def written (loggerLevel streamLevel : Nat) : Bool := !(streamLevel < loggerLevel)

/-! ### Sinks -/

/-- A thread in `Log`, Logger.cpp 158-192: the message and the sinks it is still to be given to. -/
structure Logging where
  msg : Nat
  todo : List Nat
deriving DecidableEq, Repr

/-- The sinks, the threads in `Log`, what the sinks were called with, what went to the system logger.  For Logger.cpp 139-192. -/
structure Sinks where
  sinks : List Nat
  threads : Nat → Option Logging
  calls : List (Nat × Nat)
  system : List Nat

/-- The steps, Logger.cpp 144-192. -/
inductive SinkAct where
  | add (k : Nat)
  | remove (k : Nat)
  | log (t m : Nat)
  | deliver (t : Nat) (throws : Bool)
  | done (t : Nat)
deriving DecidableEq, Repr

/-- One step: `AddSink` 144-148, `RemoveSink` 150-156, the copy 164-171, one call of a sink 185-191 (an exception is dropped), the end of
`Log`.  Of Logger.cpp 144-192. -/
def Sinks.step (s : Sinks) : SinkAct → Option Sinks
  | .add k => some { s with sinks := s.sinks ++ [k] }
  | .remove k => some { s with sinks := s.sinks.erase k }
  | .log t m =>
    match s.threads t with
    | some _ => none
    | none =>
      if s.sinks = [] then some { s with system := s.system ++ [m] }
      else some { s with threads := fun u => if u = t then some ⟨m, s.sinks⟩ else s.threads u }
  | .deliver t _ =>
    match s.threads t with
    | some ⟨m, k :: todo⟩ => some { s with threads := fun u => if u = t then some ⟨m, todo⟩ else s.threads u, calls := s.calls ++ [(k, m)] }
    | _ => none
  | .done t =>
    match s.threads t with
    | some ⟨_, []⟩ => some { s with threads := fun u => if u = t then none else s.threads u }
    | _ => none

/-- A schedule of Logger.cpp 144-192. -/
def Sinks.run (s : Sinks) : List SinkAct → Option Sinks
  | [] => some s
  | a :: as =>
    match s.step a with
    | none => none
    | some s' => Sinks.run s' as

/-- No sinks, nobody logs.  For Logger.cpp 139-141. -/
def Sinks.init : Sinks := ⟨[], fun _ => none, [], []⟩

end Verif.Log
