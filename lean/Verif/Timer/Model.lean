/-
Model of `Timer` (stingraykit/timer/Timer.cpp) as a transition system: the clock, any number of threads adding and removing tasks, and the worker thread. Properties C43 and C63.
Tasks are numbers. The worker holds the mutex of the queue, between its steps, exactly at the program points `top` and `drain`. The execution guard of a task is the one of
`TaskLifeToken` (C41), abstracted: a token released by another thread is released when the task is not running. `timed` waits end at the deadline computed before, or spuriously.
Not modelled: the profiler, the destructor, exceptions leaving the exception handler, the user's tester of `AddTask` (its task has a dummy token and cannot be removed).
-/
namespace Verif.Timer

/-- An entry of the multimap: Timer.cpp:21; `seq` numbers the insertions. -/
structure Entry where
  time : Int
  seq : Nat
  id : Nat
  deriving DecidableEq, Repr

/-- `CallbackInfo`: Timer.cpp:56-62. `queued` is whether `_iterator` is set, `gone` whether `_task` was reset; `first` remembers the first deadline. -/
structure Info where
  born : Bool
  pushed : Bool
  first : Int
  time : Int
  period : Option Int
  hasToken : Bool
  alive : Bool
  erased : Bool
  queued : Bool
  gone : Bool
  deriving DecidableEq, Repr

/-- A timer task that does not exist, Timer.cpp 21-306. -/
def Info.none : Info := ⟨false, false, 0, 0, Option.none, false, true, false, false, false⟩

/-- Where a thread is in Timer.cpp 21-306. -/
inductive Pc where
  | top                                        -- at the loop condition, line 234
  | blocked (deadline : Option Int) (woken : Bool)  -- waiting, lines 238 and 266
  | popped (id : Nat) (due : Int)              -- taken from the queue, lines 247, 280
  | guarding (id : Nat) (due taken : Int)      -- after line 249, at 292
  | running (id : Nat) (due taken : Int)       -- in the task, lines 296-302
  | after (id : Nat) (due taken : Int)         -- at line 253
  | relock                                     -- locking the mutex: lines 232, 260 and 284
  | drain                                      -- at the loop condition, line 271
  | finished
  deriving DecidableEq, Repr

/-- A task was taken from the queue with this deadline, and the clock was read (line 249).  Of Timer.cpp 21-306. -/
structure Take where
  id : Nat
  due : Int
  taken : Int
  deriving DecidableEq, Repr

/-- A task began to run.  For Timer.cpp 21-306. -/
structure Run where
  id : Nat
  due : Int
  start : Int
  deriving DecidableEq, Repr

/-- The variables and the threads of Timer.cpp 21-306. -/
structure State where
  now : Int
  queue : List Entry
  infos : Nat → Info
  pc : Pc
  cancelled : Bool
  ct : Option Int        -- `currentTime` of line 270
  seq : Nat
  takes : List Take
  runs : List Run

/-- The state after construction, Timer.cpp 21-306. -/
def init : State := ⟨0, [], fun _ => Info.none, .relock, false, none, 0, [], []⟩

/-- Change of a function at one point; a helper of the model of Timer.cpp 21-306. -/
def set {α : Type} (f : Nat → α) (i : Nat) (x : α) : Nat → α := fun j => if j = i then x else f j

/-- The mutex is free for other threads.  For Timer.cpp 21-306. -/
def free (s : State) : Bool := s.pc != .top && s.pc != .drain

/-- The worker is inside the task.  For Timer.cpp 21-306. -/
def Pc.isRunning (id : Nat) : Pc → Bool
  | .running k _ _ => k == id
  | _ => false

/-- `_cond.Broadcast()`, or the cancellation handler.  For Timer.cpp 21-306. -/
def Pc.wake : Pc → Pc
  | .blocked d _ => .blocked d true
  | p => p

/-- `std::multimap::emplace`: behind the entries with the same time.  For Timer.cpp 21-306. -/
def insert (e : Entry) : List Entry → List Entry
  | [] => [e]
  | x :: q => if e.time < x.time then e :: x :: q else x :: insert e q

/-- `CallbackQueue::Push`: Timer.cpp:101-106. -/
def push (s : State) (id : Nat) : State :=
  if (s.infos id).erased then s
  else { s with queue := insert ⟨(s.infos id).time, s.seq, id⟩ s.queue, infos := set s.infos id { s.infos id with queued := true }, seq := s.seq + 1 }

/-- The deadline is computed, before the mutex is locked: Timer.cpp:170 (no timeout, no token), 180, 199. -/
def prepare (s : State) (id : Nat) (timeout : Int) (period : Option Int) (token : Bool) : Option State :=
  if (s.infos id).born then none
  else some { s with infos := set s.infos id ⟨true, false, s.now + timeout, s.now + timeout, period, token, true, false, false, false⟩ }

/-- The task is put into the queue: Timer.cpp:172-174, 184-186, 203-205. -/
def enqueue (s : State) (id : Nat) : Option State :=
  if (s.infos id).born ∧ (s.infos id).pushed = false ∧ free s = true then
    some { push { s with infos := set s.infos id { s.infos id with pushed := true } } id with pc := s.pc.wake }
  else none

/-- `RemoveTask`, the part under the mutex, and `CallbackQueue::Erase`: Timer.cpp:109-119, 214-217. The token is known once `SetTimeout` or `SetTimer` has returned. -/
def erase (s : State) (id : Nat) : Option State :=
  if (s.infos id).pushed ∧ (s.infos id).hasToken ∧ free s = true then
    some { s with queue := if (s.infos id).queued then s.queue.filter (fun e => e.id ≠ id) else s.queue,
                  infos := set s.infos id { s.infos id with erased := true, queued := false } }
  else none

/-- `RemoveTask`, the rest: `CallbackInfo::Release`, Timer.cpp:75-79, 218; `inside`: by the task itself, otherwise by another thread, waiting until the task is not running. -/
def release (s : State) (id : Nat) (inside : Bool) : Option State :=
  if (s.infos id).erased ∧ s.pc.isRunning id = inside then
    some { s with infos := set s.infos id { s.infos id with alive := false, gone := true } }
  else none

/-- `CallbackQueue::Pop`: Timer.cpp:122-133. -/
def pop (s : State) (e : Entry) (q : List Entry) : State :=
  { s with queue := q, infos := set s.infos e.id { s.infos e.id with queued := false }, pc := .popped e.id e.time }

/-- One step of the worker: Timer.cpp:230-306. -/
def worker (s : State) : Option State := match s.pc with
  | .top =>
    if s.cancelled then some { s with pc := .drain, ct := some s.now }
    else match s.queue with
      | [] => some { s with pc := .blocked none false }
      | e :: q => if e.time ≤ s.now then some (pop s e q) else some { s with pc := .blocked (some e.time) false }
  | .blocked _ true => some { s with pc := .top }
  | .blocked d false => match d with
    | some d => if d ≤ s.now then some { s with pc := .top } else none
    | none => none
  | .popped id due => some { s with pc := .guarding id due s.now, takes := s.takes ++ [⟨id, due, s.now⟩] }
  | .guarding id due taken =>
    if (s.infos id).alive then some { s with pc := .running id due taken, runs := s.runs ++ [⟨id, due, s.now⟩] }
    else some { s with pc := .after id due taken }
  | .running id due taken => some { s with pc := .after id due taken }
  | .after id _ taken =>
    if s.ct = none then
      match (s.infos id).period with
      | some p => some { push { s with infos := set s.infos id { s.infos id with time := taken + p } } id with pc := .relock }
      | none => some { s with pc := .relock }
    else some { s with pc := .relock }
  | .relock => if s.ct = none then some { s with pc := .top } else some { s with pc := .drain }
  | .drain => match s.queue, s.ct with
    | e :: q, some c => if c < e.time then some { s with pc := .finished } else some (pop s e q)
    | _, _ => some { s with pc := .finished }
  | .finished => none

/-- The steps a schedule of Timer.cpp 21-306 is made of. -/
inductive Act where
  | tick (n : Nat)
  | prepare (id : Nat) (timeout : Int) (period : Option Int) (token : Bool)
  | enqueue (id : Nat) | erase (id : Nat) | release (id : Nat) (inside : Bool)
  | cancel | worker | spurious
  deriving DecidableEq, Repr

/-- `spurious` also stands for the cancellation of a wait noticed late. While draining, line 249 is not executed; reading the clock there is a harmless addition of the model.  Of Timer.cpp 21-306. -/
def step (s : State) : Act → Option State
  | .tick n => some { s with now := s.now + n }
  | .prepare id t p b => prepare s id t p b
  | .enqueue id => enqueue s id
  | .erase id => erase s id
  | .release id b => release s id b
  | .cancel => some { s with cancelled := true, pc := s.pc.wake }
  | .worker => worker s
  | .spurious => match s.pc with
    | .blocked d _ => some { s with pc := .blocked d true }
    | _ => none

/-- One step after another, for histories of Timer.cpp 21-306. -/
def run (s : State) : List Act → Option State
  | [] => some s
  | a :: as => match step s a with
    | none => none
    | some s' => run s' as

/-! ### What the properties are about -/

/-- The deadlines a task may be taken at: first the one computed when it was added; after being taken at the time `taken`, `taken + period` if it is periodic, none otherwise. The state is
the next deadline, if there is one; `none` as the result: not allowed. -/
def Spec.after (period : Option Int) : Option Int → List Take → Option (Option Int)
  | st, [] => some st
  | st, x :: xs => if st = some x.due ∧ x.due ≤ x.taken then Spec.after period (period.map fun p => x.taken + p) xs else none

/-- The takes of one task. -/
def Spec.takesOf (s : State) (id : Nat) : List Take := s.takes.filter fun x => x.id = id

/-- `a` comes before `b` in the queue: earlier deadline, or the same and inserted before. -/
def Spec.Before (a b : Entry) : Prop := a.time < b.time ∨ (a.time = b.time ∧ a.seq < b.seq)

end Verif.Timer
