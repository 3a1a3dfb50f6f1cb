/-
Model of AsyncProfiler: diagnostics/AsyncProfiler.cpp 26-141.  A step is what one thread does while it holds the mutex; the clock moves
between steps, and within a report (between 102 and 110).  It stands still between the reading of the clock at 102 and the beginning of the
wait at 105.  Names, backtraces and the log are left out; an exception of a name getter is not modelled.
-/
namespace Verif.Diag.AsyncProfiler

/-- A session in the list: `SessionImpl`, AsyncProfiler.h 50-87. -/
structure Session where
  id : Nat
  start : Nat       -- `_startTime`
  due : Nat         -- `_timeoutTime`
deriving DecidableEq, Repr

/-- The profiler's thread, AsyncProfiler.cpp 89-122. -/
inductive Thread where
  | looking               -- at 92, the mutex not yet taken
  | forever               -- in the wait at 96
  | until (t : Nat)       -- in the wait at 105
  | done                  -- the function has returned
deriving DecidableEq, Repr

/-- A message at AsyncProfiler.cpp 120: which session, when the decision was made, when the session began. -/
structure Report where
  id : Nat
  at' : Nat
  start : Nat
deriving DecidableEq, Repr

/-- `AsyncProfiler`, AsyncProfiler.h 115-119, and the clock. -/
structure State where
  now : Nat
  list : List Session
  fresh : Nat               -- sessions begun so far
  thread : Thread
  cancelled : Bool          -- the token of the thread
  reports : List Report
deriving DecidableEq, Repr

/-- At the construction, AsyncProfiler.cpp 83-86. -/
def State.init (now : Nat) : State := ⟨now, [], 0, .looking, false, []⟩

/-- Steps, AsyncProfiler.cpp 89-141. -/
inductive Act where
  | tick (d : Nat)
  | add (start : Nat)       -- `AddSession` of a new session made at `start`
  | remove (id : Nat)       -- `RemoveSession`
  | look (d : Nat)          -- a round of the loop 92-118; `d` passes between 102 and 110
  | timeout                 -- the wait at 105 is over
  | wake                    -- a wait is over without a reason
  | cancel                  -- the destructor cancels the token
deriving DecidableEq, Repr

/-- `Broadcast`: whoever waits goes on.  AsyncProfiler.cpp 131 and 139. -/
def Thread.wake : Thread → Thread
  | .forever => .looking
  | .until _ => .looking
  | t => t

/-- `AddSession`, AsyncProfiler.cpp 125-132. -/
def add (T : Nat) (s : State) (start : Nat) : State :=
  { s with
    list := s.list ++ [⟨s.fresh, start, s.now + T⟩],
    fresh := s.fresh + 1,
    thread := if s.list.isEmpty then s.thread.wake else s.thread }

/-- `RemoveSession`, AsyncProfiler.cpp 135-141. -/
def remove (s : State) (id : Nat) : State :=
  { s with
    list := s.list.filter (fun x => x.id != id),
    thread := match s.list with
      | [] => s.thread
      | h :: _ => if h.id = id then s.thread.wake else s.thread }

/-- A round of the loop, AsyncProfiler.cpp 92-118. -/
def look (T : Nat) (s : State) (d : Nat) : State :=
  if s.cancelled then { s with thread := .done }
  else match s.list with
  | [] => { s with thread := .forever }
  | top :: rest =>
    if s.now < top.due then { s with thread := .until top.due }
    else { s with
      now := s.now + d,
      list := rest ++ [{ top with due := s.now + d + T }],
      reports := s.reports ++ [⟨top.id, s.now, top.start⟩] }

/-- One step; `T` is the time after which a session is reported.  AsyncProfiler.cpp 89-141. -/
def step (T : Nat) (s : State) (a : Act) : Option State :=
  match a with
  | .tick d => some { s with now := s.now + d }
  | .add start => if start ≤ s.now then some (add T s start) else none
  | .remove id => if s.list.any (fun x => x.id == id) then some (remove s id) else none
  | .look d => if s.thread = .looking then some (look T s d) else none
  | .timeout =>
    match s.thread with
    | .until t => if t ≤ s.now then some { s with thread := .looking } else none
    | _ => none
  | .wake => some { s with thread := s.thread.wake }
  | .cancel => some { s with cancelled := true, thread := match s.thread with | .forever => .looking | t => t }

/-- A schedule of steps, AsyncProfiler.cpp 89-141. -/
def run (T : Nat) (s : State) : List Act → Option State
  | [] => some s
  | a :: as =>
    match step T s a with
    | none => none
    | some s' => run T s' as

end Verif.Diag.AsyncProfiler
