/-
Model of `PosixThread`: thread/posix/PosixThreadEngine.cpp 113-135 (backtraces), 171-219 (children's statistics), 393-629 (the thread),
and of the waiting times of threads: 643-658 and time/posix/utils.h 21-63.  Any number of threads; thread 0 is one the library did not
begin and that never ends.  `CreationOfThread` failures (447) and cancellation points are left out.
-/
namespace Verif.Thread.Posix

/-- Where a thread is in `ThreadFunc`, PosixThreadEngine.cpp 551-620. -/
inductive Phase where
  | made      -- before 573
  | known     -- `_data` is set, 573-575
  | running   -- after 576, in `_func`
  | left      -- after `ThreadFuncExited`
  | gone      -- the thread has ended
  | failed    -- returned at 557 or 559
deriving DecidableEq, Repr

/-- A `PosixThread` and its `ThreadDataStorage`, PosixThreadEngine.cpp 401-414 and 173-183. -/
structure Thr where
  phase : Phase
  parent : Option Nat
  started : Bool               -- `_started`
  data : Bool                  -- `_data` is not null
  returned : Bool              -- the constructor has returned
  cancelled : Bool             -- `_token`
  destroying : Option Nat      -- the thread in the destructor
  released : Bool              -- `_lifeToken`
  joined : Bool                -- `pthread_join` has returned
  senders : Nat                -- threads holding a `LocalExecutionGuard` (128)
  busy : Option Nat            -- in the constructor or the destructor of this thread
  cpu : Nat                    -- own time, read at 515-518
  children : Nat               -- `_childrenStats`
deriving DecidableEq, Repr

/-- A thread just created: `pthread_create`, PosixThreadEngine.cpp 417-421. -/
def Thr.new (parent : Option Nat) : Thr := ⟨.made, parent, false, false, false, false, none, false, false, 0, none, 0, 0⟩

/-- The thread that was there before, PosixThreadEngine.cpp 240. -/
def Thr.main : Thr := ⟨.running, none, true, true, true, false, none, false, false, 0, none, 0, 0⟩

/-- All threads; `fatal` after `STINGRAYKIT_FATAL`.  For PosixThreadEngine.cpp 393-620. -/
structure State where
  n : Nat
  thr : Nat → Thr
  fatal : Bool
  signals : List (Nat × Bool)    -- to whom signals were sent, and whether the handle was joined already

/-- At the beginning.  For PosixThreadEngine.cpp 393-620. -/
def State.init : State := ⟨1, fun _ => Thr.main, false, []⟩

/-- Change one thread.  For PosixThreadEngine.cpp 393-620. -/
def State.put (s : State) (i : Nat) (t : Thr) : State := { s with thr := fun k => if k = i then t else s.thr k }

/-- The steps, PosixThreadEngine.cpp 113-135 and 393-629. -/
inductive Act where
  | begin (p : Nat) (known : Bool)   -- 625-629 and 417-421; whether the caller has a `ThreadDataStorage`
  | fail (c : Nat)                   -- 553-559
  | setData (c : Nat)                -- 573-575
  | start (c : Nat)                  -- 576
  | construct (p c : Nat)            -- 450-457
  | exit (c : Nat) (cpu : Nat)       -- 511-528
  | finish (c : Nat)                 -- 587-620
  | destroy (p c : Nat)              -- 465
  | release (p c : Nat)              -- 466, which waits for the guards
  | join (p c : Nat)                 -- 471-473
  | guard (c : Nat)                  -- 128
  | send (c : Nat)                   -- 130
  | unguard (c : Nat)                -- 131
deriving DecidableEq, Repr

/-- A thread can run code of the user, PosixThreadEngine.cpp 586. -/
def free (t : Thr) : Bool := t.phase = .running && t.busy.isNone

/-- Add what a thread and its children used to what its parent keeps, PosixThreadEngine.cpp 525-527. -/
def store (s : State) (parent : Option Nat) (time : Nat) : State :=
  match parent with
  | none => s
  | some p => s.put p { s.thr p with children := (s.thr p).children + time }

/-- One step; `none` if it cannot happen.  PosixThreadEngine.cpp 113-135 and 393-629. -/
def step (s : State) (a : Act) : Option State :=
  if s.fatal then none
  else match a with
  | .begin p known =>
    if p < s.n ∧ free (s.thr p) = true then
      some { (s.put p { s.thr p with busy := some s.n }).put s.n (Thr.new (if known then some p else none)) with n := s.n + 1 }
    else none
  | .fail c =>
    if c < s.n ∧ (s.thr c).phase = .made then some (s.put c { s.thr c with phase := .failed, started := true }) else none
  | .setData c =>
    if c < s.n ∧ (s.thr c).phase = .made then some (s.put c { s.thr c with phase := .known, data := true }) else none
  | .start c =>
    if c < s.n ∧ (s.thr c).phase = .known then some (s.put c { s.thr c with phase := .running, started := true }) else none
  | .construct p c =>
    if p < s.n ∧ c < s.n ∧ p ≠ c ∧ (s.thr p).busy = some c ∧ (s.thr c).returned = false ∧ (s.thr c).started = true then
      if (s.thr c).data = true then some ((s.put c { s.thr c with returned := true }).put p { s.thr p with busy := none })
      else some { s with fatal := true }
    else none
  | .exit c cpu =>
    if c < s.n ∧ c ≠ 0 ∧ free (s.thr c) = true then
      some (store (s.put c { s.thr c with phase := .left, cpu := cpu }) (s.thr c).parent (cpu + (s.thr c).children))
    else none
  | .finish c => if c < s.n ∧ (s.thr c).phase = .left then some (s.put c { s.thr c with phase := .gone }) else none
  | .destroy p c =>
    if p < s.n ∧ c < s.n ∧ c ≠ 0 ∧ free (s.thr p) = true ∧ (s.thr c).returned = true ∧ (s.thr c).destroying = none then
      some ((s.put p { s.thr p with busy := some c }).put c { (s.put p { s.thr p with busy := some c }).thr c with cancelled := true, destroying := some p })
    else none
  | .release p c =>
    if c < s.n ∧ (s.thr c).destroying = some p ∧ (s.thr c).released = false ∧ (s.thr c).senders = 0 then
      some (s.put c { s.thr c with released := true })
    else none
  | .join p c =>
    if c < s.n ∧ (s.thr c).destroying = some p ∧ (s.thr c).released = true ∧ (s.thr c).joined = false then
      if p = c then some { s with fatal := true }
      else if (s.thr c).phase = .gone then some ((s.put c { s.thr c with joined := true }).put p { s.thr p with busy := none })
      else none
    else none
  | .guard c =>
    if c < s.n ∧ c ≠ 0 ∧ (s.thr c).data = true ∧ (s.thr c).released = false then some (s.put c { s.thr c with senders := (s.thr c).senders + 1 }) else none
  | .send c =>
    if c < s.n ∧ (s.thr c).senders > 0 then some { s with signals := s.signals ++ [(c, (s.thr c).joined)] } else none
  | .unguard c =>
    if c < s.n ∧ (s.thr c).senders > 0 then some (s.put c { s.thr c with senders := (s.thr c).senders - 1 }) else none

/-- A schedule of PosixThreadEngine.cpp 393-620. -/
def run (s : State) : List Act → Option State
  | [] => some s
  | a :: as =>
    match step s a with
    | none => none
    | some s' => run s' as

end Verif.Thread.Posix
