/-
Model of `ThreadPool` (stingraykit/thread/ThreadPool.cpp) as a transition system: any number of threads calling `TryQueue`, `WaitQueue` and `CanQueue`, the first thread of the pool
(`ThreadPool::ThreadFunc`) and the further ones (`WorkerWrapper`). Property C45. Tasks and callers are numbers. A section under the mutex of a worker is one step. The mutex of the pool is
held, between the steps, by the call of `TryQueue` that is going through the workers and by the first thread while it removes idle workers; the other sections under it are one step each.
Not modelled: destruction of the pool (tasks accepted and not yet started are dropped then), exceptions other than `std::exception` in tasks, the profiler, names of threads.
-/
namespace Verif.Pool

/-- The parameters of ThreadPool.cpp 23-269. -/
structure Cfg where
  max : Nat               -- `_maxThreads`
  idleTimeout : Bool      -- whether `_idleTimeout` is set

/-- Where a thread is in ThreadPool.cpp 23-269. -/
inductive WPc where
  | top                                  -- at the loop condition, line 82
  | handler                              -- calling `_completedHandler`, line 89
  | after                                -- locking `_mutex` again, lines 90-92
  | waiting (timed woken : Bool)         -- lines 98, 100
  | running (task : Nat)                 -- line 108
  deriving DecidableEq, Repr

/-- `WorkerWrapper`: ThreadPool.cpp:23-35. -/
structure Worker where
  task : Option Nat
  completed : Bool
  idle : Bool
  pc : WPc
  deriving DecidableEq, Repr

/-- The first thread.  For ThreadPool.cpp 23-269. -/
inductive MPc where
  | notStarted
  | top                                  -- at the loop condition, line 239
  | waiting (timed woken : Bool)         -- lines 247, 256
  | reaping (i : Nat)                    -- lines 248-250, before worker `i`, holding the mutex
  | running (task : Nat)                 -- line 264
  deriving DecidableEq, Repr

/-- A call of `TryQueue` going through the workers; `wait`: made by `WaitQueue`; `full`: whether all slots were busy when it began.  For ThreadPool.cpp 23-269. -/
structure Scan where
  caller : Nat
  task : Nat
  wait : Bool
  next : Nat
  full : Bool
  deriving DecidableEq, Repr

/-- A caller in `WaitQueue` waiting on `_completedCond` (209).  Of ThreadPool.cpp 23-269. -/
structure Waiter where
  task : Nat
  woken : Bool
  deriving DecidableEq, Repr

/-- The variables and the threads of ThreadPool.cpp 23-269. -/
structure State where
  task : Option Nat
  mpc : MPc
  workers : List (Option Worker)
  scan : Option Scan
  waiters : Nat → Option Waiter
  accepted : List Nat
  started : List Nat

/-- The state after construction, ThreadPool.cpp 23-269. -/
def init : State := ⟨none, .notStarted, [], none, fun _ => none, [], []⟩

/-- Change of a function at one point; a helper of the model of ThreadPool.cpp 23-269. -/
def set {α : Type} (f : Nat → α) (i : Nat) (x : α) : Nat → α := fun j => if j = i then x else f j

/-- What the caller of the step gets.  For ThreadPool.cpp 23-269. -/
inductive Out where
  | none | accepted | refused (full : Bool) | threw
  deriving DecidableEq, Repr

/-- The mutex of the pool is free.  For ThreadPool.cpp 23-269. -/
def free (s : State) : Bool := s.scan.isNone && match s.mpc with
  | .reaping _ => false
  | _ => true

/-- `_completedCond.Broadcast()`.  For ThreadPool.cpp 23-269. -/
def notify (s : State) : State := { s with waiters := fun c => (s.waiters c).map fun w => { w with woken := true } }

/-- `_cond.Broadcast()` of the pool.  For ThreadPool.cpp 23-269. -/
def MPc.wake : MPc → MPc
  | .waiting t _ => .waiting t true
  | p => p

/-- `_cond.Broadcast()` of a worker.  For ThreadPool.cpp 23-269. -/
def WPc.wake : WPc → WPc
  | .waiting t _ => .waiting t true
  | p => p

/-- A slot with a task in it.  For ThreadPool.cpp 23-269. -/
def busy : Option Worker → Bool
  | some w => w.task.isSome
  | none => false

/-- `CanQueue`: ThreadPool.cpp:150-161. -/
def canQueue (cfg : Cfg) (s : State) : Bool :=
  s.task.isNone || decide (s.workers.length + 1 < cfg.max) || s.workers.any fun w => !busy w

/-- `WorkerWrapper::WorkerWrapper`: ThreadPool.cpp:38-48. -/
def newWorker (k : Nat) : Worker := ⟨some k, false, false, .top⟩

/-- `WorkerWrapper::TryAddTask` when there is no task: ThreadPool.cpp:68-72. -/
def Worker.add (w : Worker) (k : Nat) : Worker := { w with task := some k, completed := false, idle := false, pc := w.pc.wake }

/-- `TryQueue` up to the loop: ThreadPool.cpp:170-179. -/
def tryQueue (cfg : Cfg) (s : State) (c k : Nat) (wait : Bool) : Option (Out × State) :=
  if free s then
    match s.task with
    | none => some (.accepted, { s with task := some k, mpc := if s.mpc = .notStarted then .top else s.mpc.wake, accepted := s.accepted ++ [k] })
    | some _ => some (.none, { s with scan := some ⟨c, k, wait, 0, !canQueue cfg s⟩ })
  else none

/-- `TryQueue`, one iteration of the loop or what comes behind it: ThreadPool.cpp:181-196; and what `WaitQueue` does with the result: 206-209. -/
def scanStep (cfg : Cfg) (s : State) : Option (Out × State) := match s.scan with
  | none => none
  | some x => match s.workers[x.next]? with
    | some none => some (.accepted, { s with workers := s.workers.set x.next (some (newWorker x.task)), scan := none, accepted := s.accepted ++ [x.task] })
    | some (some w) =>
      if w.task = none then some (.accepted, { s with workers := s.workers.set x.next (some (w.add x.task)), scan := none, accepted := s.accepted ++ [x.task] })
      else some (.none, { s with scan := some { x with next := x.next + 1 } })
    | none =>
      if cfg.max ≤ s.workers.length + 1 then
        some (.refused x.full, { s with scan := none, waiters := if x.wait then set s.waiters x.caller (some ⟨x.task, false⟩) else s.waiters })
      else some (.accepted, { s with workers := s.workers ++ [some (newWorker x.task)], scan := none, accepted := s.accepted ++ [x.task] })

/-- `WorkerWrapper::IsIdle`: ThreadPool.cpp:50-54. -/
def Worker.isIdle (w : Worker) : Bool := w.task.isNone && w.completed && w.idle

/-- `while (!_workers.empty() && !_workers.back()) _workers.pop_back()`: ThreadPool.cpp:252-253. -/
def dropNone : List (Option Worker) → List (Option Worker)
  | [] => []
  | x :: xs => match x, dropNone xs with
    | none, [] => []
    | y, ys => y :: ys

/-- One step of the first thread: ThreadPool.cpp:236-269. `timeout`: a timed wait ends because of it. -/
def main (cfg : Cfg) (s : State) (timeout : Bool) : Option State := match s.mpc with
  | .notStarted => none
  | .top => if free s then
      match s.task with
      | none => some { notify s with mpc := .waiting (!s.workers.isEmpty && cfg.idleTimeout) false }
      | some k => some { s with mpc := .running k, started := s.started ++ [k] }
    else none
  | .waiting timed woken => if free s then
      if timeout ∧ timed then some { s with mpc := .reaping 0 }
      else if woken then some { s with mpc := .top, workers := if timed then dropNone s.workers else s.workers }
      else none
    else none
  | .reaping i => match s.workers[i]? with
    | some (some w) => some { s with mpc := .reaping (i + 1), workers := if w.isIdle then s.workers.set i none else s.workers }
    | some none => some { s with mpc := .reaping (i + 1) }
    | none => some { s with mpc := .top, workers := dropNone s.workers }
  | .running _ => if free s then some { s with mpc := .top, task := none } else none

/-- The worker `w`, steps that need only its own mutex: ThreadPool.cpp:79-113; and whether a task starts. -/
def Worker.step (cfg : Cfg) (w : Worker) (timeout : Bool) : Option (Option Nat × Worker) := match w.pc with
  | .top => match w.task with
    | some k => some (some k, { w with pc := .running k })
    | none => if w.completed then some (none, { w with pc := .waiting (!w.idle && cfg.idleTimeout) false }) else some (none, { w with pc := .handler })
  | .handler => none
  | .after => match w.task with
    | some _ => some (none, { w with pc := .top })
    | none => some (none, { w with completed := true, pc := .waiting (!w.idle && cfg.idleTimeout) false })
  | .waiting timed woken =>
    if timeout ∧ timed then some (none, { w with idle := true, pc := .top })
    else if woken then some (none, { w with idle := if timed then false else w.idle, pc := .top })
    else none
  | .running _ => some (none, { w with task := none, pc := .top })

/-- One step of worker `i`; `TaskCompletedHandler`: ThreadPool.cpp:229-233. -/
def worker (cfg : Cfg) (s : State) (i : Nat) (timeout : Bool) : Option State := match s.workers[i]? with
  | some (some w) =>
    if w.pc = .handler then
      if free s then some { notify s with workers := s.workers.set i (some { w with pc := .after }) } else none
    else match w.step cfg timeout with
      | some (k, w') => some { s with workers := s.workers.set i (some w'), started := s.started ++ k.toList }
      | none => none
  | _ => none

/-- The steps a schedule of ThreadPool.cpp 23-269 is made of. -/
inductive Act where
  | tryQueue (c k : Nat)             -- `TryQueue` (also for `Queue`) begins
  | waitQueue (c k : Nat)            -- `WaitQueue` begins
  | scan
  | waitResume (c : Nat)             -- a waiter in `WaitQueue` wakes up and calls `TryQueue` again
  | waitThrow (c : Nat)              -- its token is cancelled or times out
  | waitSpurious (c : Nat)
  | main (timeout : Bool) | mainSpurious
  | worker (i : Nat) (timeout : Bool) | workerSpurious (i : Nat)
  deriving DecidableEq, Repr

/-- One step, ThreadPool.cpp 23-269. -/
def step (cfg : Cfg) (s : State) : Act → Option (Out × State)
  | .tryQueue c k => if s.waiters c = none then tryQueue cfg s c k false else none
  | .waitQueue c k => if s.waiters c = none then tryQueue cfg s c k true else none
  | .scan => scanStep cfg s
  | .waitResume c => match s.waiters c with
    | some ⟨k, true⟩ => tryQueue cfg { s with waiters := set s.waiters c none } c k true
    | _ => none
  | .waitThrow c => if s.waiters c ≠ none ∧ free s then some (.threw, { s with waiters := set s.waiters c none }) else none
  | .waitSpurious c => match s.waiters c with
    | some w => some (.none, { s with waiters := set s.waiters c (some { w with woken := true }) })
    | none => none
  | .main t => (main cfg s t).map fun s' => (.none, s')
  | .mainSpurious => some (.none, { s with mpc := s.mpc.wake })
  | .worker i t => (worker cfg s i t).map fun s' => (.none, s')
  | .workerSpurious i => match s.workers[i]? with
    | some (some w) => some (.none, { s with workers := s.workers.set i (some { w with pc := w.pc.wake }) })
    | _ => none

/-- One step after another, for histories of ThreadPool.cpp 23-269. -/
def run (cfg : Cfg) (s : State) : List Act → Option State
  | [] => some s
  | a :: as => match step cfg s a with
    | none => none
    | some (_, s') => run cfg s' as

/-! ### What the property is about -/

/-- The number of threads of the pool (removed workers leave an empty slot until the slots behind it are empty). -/
def Spec.threads (s : State) : Nat := (if s.mpc = .notStarted then 0 else 1) + (s.workers.filter (·.isSome)).length

/-- The task of a worker that has not started it yet. -/
def Spec.pendingOf : Option Worker → List Nat
  | some w => match w.task, w.pc with
    | some _, .running _ => []
    | some k, _ => [k]
    | none, _ => []
  | none => []

/-- The accepted tasks that have not started. -/
def Spec.pending (s : State) : List Nat :=
  (match s.task, s.mpc with
    | some _, .running _ => []
    | some k, _ => [k]
    | none, _ => []) ++ s.workers.flatMap Spec.pendingOf

/-- Every thread the pool may have has a task. -/
def Spec.Full (cfg : Cfg) (s : State) : Prop := s.task ≠ none ∧ cfg.max ≤ s.workers.length + 1 ∧ ∀ w ∈ s.workers, ∃ x, w = some x ∧ x.task ≠ none

/-- How far the worker is from starting its task. -/
def Spec.dist : WPc → Nat
  | .running _ => 0
  | .top => 1
  | .waiting _ _ => 2
  | .after => 2
  | .handler => 3

/-- How far the first thread is from starting its task. -/
def Spec.mdist (cfg : Cfg) : MPc → Nat
  | .running _ => 0
  | .notStarted => 0
  | .top => 1
  | .reaping i => 2 + (cfg.max - i)
  | .waiting _ _ => cfg.max + 3

/-- A thread of the pool with no task is on its way to the broadcast that wakes the callers of `WaitQueue`. -/
def Spec.WillWake (s : State) : Prop :=
  (s.mpc = .top ∧ s.task = none) ∨ ∃ (i : Nat) (w : Worker), s.workers[i]? = some (some w) ∧ w.task = none ∧ (w.pc = .handler ∨ w.pc = .top ∧ w.completed = false)

/-- The task a step is queueing. -/
def Spec.queueing (s : State) : Act → Option Nat
  | .tryQueue _ k => some k
  | .waitQueue _ k => some k
  | .waitResume c => (s.waiters c).map (·.task)
  | .scan => s.scan.map (·.task)
  | _ => none

end Verif.Pool
