import Verif.Thread.Future
/-
Model of functions called asynchronously through a task executor: AsyncFunction.h 25-97, on top of the model of promises and futures (future.h 60-309).
The n-th call uses the promise n and the variable n for its future.  The executor runs a task at most once, or drops it (TaskLifeToken.h, ITaskExecutor.h 20-40).
Not modelled: exceptions of `AddTask` itself and functions that return nothing (they have no future, AsyncFunction.h 85-87).
-/
namespace Verif.Thread.AsyncCall

/-- How the called function ends: AsyncFunction.h 51-54. -/
inductive Outcome where
  | returns (v : Nat)
  | throwsStd (e : Nat)     -- an exception derived from `std::exception`
  | throwsOther             -- any other exception: it leaves the task
deriving DecidableEq, Repr

/-- A call: does its task exist (waiting or running), is the caller still inside: AsyncFunction.h 92-95.  Both hold the promise. -/
structure Call where
  task : Bool
  caller : Bool
deriving DecidableEq, Repr

/-- Promises, futures and calls, for AsyncFunction.h 25-97. -/
structure State where
  fut : Future.State
  calls : List Call

/-- No calls yet, for AsyncFunction.h 25-97. -/
def State.init : State := ⟨Future.init, []⟩

/-- What happens, for AsyncFunction.h 25-97. -/
inductive Op where
  | call                              -- up to the addition of the task
  | ret (i : Nat)                     -- the caller gets the future
  | finish (i : Nat) (o : Outcome)    -- the task is run
  | cancel (i : Nat)                  -- the task is dropped without being run
  | get (t h : Nat) | wait (t h : Nat) | share (h k : Nat) | resume (t : Nat) | spurious (t : Nat) | abort (t : Nat) (timeout : Bool)
deriving DecidableEq, Repr

/-- Letting go of a reference to the promise, the last or not: AsyncFunction.h 42, 93. -/
def letGo (f : Future.State) (i : Nat) (last : Bool) : Option Future.State :=
  if last then (Future.destroy f i).map (fun r => r.2) else some f

/-- `FuncWrapper::operator ()`: AsyncFunction.h 49-55: `set_value` may throw as well, which is caught. -/
def body (f : Future.State) (i : Nat) : Outcome → Option Future.State
  | .returns v =>
    match Future.setValue f i v with
    | none => none
    | some (.promiseAlreadySatisfied, f') => (Future.setException f' i 0).map (fun r => r.2)
    | some (_, f') => some f'
  | .throwsStd e => (Future.setException f i e).map (fun r => r.2)
  | .throwsOther => some f

/-- Use of the futures, for future.h 224-269. -/
def client (s : State) (a : Future.Act) : Option State := (Future.step s.fut a).map (fun r => { s with fut := r.2 })

/-- One step: AsyncFunction.h 49-55, 89-96. -/
def step (s : State) : Op → Option State
  | .call => (Future.create s.fut s.calls.length).map (fun r => ⟨r.2, s.calls ++ [⟨true, true⟩]⟩)
  | .ret i =>
    match s.calls[i]? with
    | some ⟨t, true⟩ =>
      match Future.getFuture s.fut i i with
      | some (.none, f) => (letGo f i (!t)).map (fun f' => ⟨f', s.calls.set i ⟨t, false⟩⟩)
      | _ => none
    | _ => none
  | .finish i o =>
    match s.calls[i]? with
    | some ⟨true, c⟩ => (body s.fut i o).bind (fun f => (letGo f i (!c)).map (fun f' => ⟨f', s.calls.set i ⟨false, c⟩⟩))
    | _ => none
  | .cancel i =>
    match s.calls[i]? with
    | some ⟨true, c⟩ => (letGo s.fut i (!c)).map (fun f' => ⟨f', s.calls.set i ⟨false, c⟩⟩)
    | _ => none
  | .get t h => client s (.get t h)
  | .wait t h => client s (.wait t h)
  | .share h k => client s (.share h k)
  | .resume t => client s (.resume t)
  | .spurious t => client s (.spurious t)
  | .abort t b => client s (.abort t b)

/-- A history, for AsyncFunction.h 25-97. -/
def run (s : State) : List Op → Option State
  | [] => some s
  | a :: r => match step s a with
    | none => none
    | some s' => run s' r

end Verif.Thread.AsyncCall
