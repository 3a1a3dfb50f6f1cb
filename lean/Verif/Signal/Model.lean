import Verif.Thread.Life
/-
Model of a thread-safe `signal` (stingraykit/signal/signals.h) with synchronous handlers, and of `ObservableValue` (stingraykit/ObservableValue.h) on top of it, as a transition system.
Properties C64, C65, C66. Threads, handlers and values are numbers. Every thread has a stack of what it is inside of, so handlers may use the signal again. The life token of a handler is
the model of `TaskLifeTokenImpl` of Verif.Thread.Life. A handler that returns and one that throws a `std::exception` (which `WRAP_EXCEPTION_HANDLING` catches) are the same step.
Not modelled: asynchronous handlers (they post a task, with the tester of the connection, to an executor), signals without threads, lifetime of the signal itself, other exceptions.
-/
namespace Verif.Signal
open Verif.Thread.Life (Impl)

/-- Who needs the current value when connecting: `NeedPopulate`, ObservableValue.h:50-51, 61-62, 72-73. -/
structure Cfg where
  need : Nat → Bool

/-- What a thread is doing, signals.h 85-286. -/
inductive Frame where
  | lock                                                        -- `signal_locker`, signals.h:274-286
  | emit (v : Nat) (snap calls todo : List Nat) (locked : Bool)  -- the loop of `InvokeAll`, signals.h:254-255; `locked`: made by `ObservableValue::Set`; `snap`, `calls`: what it began with, whom it called
  | handler (h v : Nat)                                         -- inside the handler, signals.h:89
  | connecting (h : Nat)                                        -- inside `Connect`, signals.h:145
  | releasing (h : Nat)                                         -- inside `~Connection`, signals.h:133
  deriving DecidableEq, Repr

/-- Phases of a connection, signals.h 85-286. -/
inductive Phase where
  | fresh | connecting (t : Nat) | connected | removed (t : Nat) | gone (t : Nat)
  deriving DecidableEq, Repr

/-- The variables and the threads of signals.h 85-286. -/
structure State where
  owner : Option Nat            -- the recursive mutex of the signal
  depth : Nat
  stacks : Nat → List Frame
  handlers : List Nat           -- `_handlers`
  life : Nat → Impl             -- the tokens of the connections
  phase : Nat → Phase           -- of the connection
  val : Nat                     -- `ObservableValue::_val`
  -- for the statements only
  order : List Nat              -- the connections in the order in which they were made
  hist : List Nat               -- the values that were set
  first : Nat → List Nat        -- what the handler got when connecting
  start : Nat → Nat             -- the length of `hist` then
  seen : Nat → List Nat         -- what the handler was called with

/-- The state after construction, signals.h 85-286. -/
def init (v : Nat) : State := ⟨none, 0, fun _ => [], [], fun _ => Impl.new, fun _ => .fresh, v, [], [], fun _ => [], fun _ => 0, fun _ => []⟩

/-- Change of a function at one point; a helper of the model of signals.h 85-286. -/
def set {α : Type} (f : Nat → α) (i : Nat) (x : α) : Nat → α := fun j => if j = i then x else f j

/-- The thread is in code of the user, which may call the signal.  For signals.h 85-286. -/
def user : List Frame → Bool
  | [] => true
  | .lock :: _ => true
  | .handler _ _ :: _ => true
  | .connecting _ :: _ => true
  | _ => false

/-- Whether a thread can lock the mutex, signals.h 85-286. -/
def lockable (s : State) (t : Nat) : Bool := s.owner == none || s.owner == some t

/-- Locking, signals.h 85-286. -/
def acquire (s : State) (t : Nat) : State := { s with owner := some t, depth := s.depth + 1 }

/-- Unlocking, signals.h 85-286. -/
def unlock (s : State) : State := { s with owner := if s.depth - 1 = 0 then none else s.owner, depth := s.depth - 1 }

/-- A thread enters a function, signals.h 85-286. -/
def push (s : State) (t : Nat) (f : Frame) : State := { s with stacks := set s.stacks t (f :: s.stacks t) }

/-- A thread leaves a function, signals.h 85-286. -/
def pop (s : State) (t : Nat) : State := { s with stacks := set s.stacks t (s.stacks t).tail }

/-- The steps a schedule of signals.h 85-286 is made of. -/
inductive Act where
  | lock (t : Nat) | unlock (t : Nat)
  | emit (t v : Nat)                       -- `signal::operator ()`
  | set (t v : Nat)                        -- `ObservableValue::Set`
  | next (t : Nat)                         -- the loop of `InvokeAll` goes on
  | ret (t : Nat)                          -- a handler is over
  | connect (t h : Nat) (send : Bool) | connected (t : Nat)
  | disconnect (t h : Nat) | release (t : Nat)
  deriving DecidableEq, Repr

/-- The thread of a step; a helper of the model of signals.h 85-286. -/
def Act.thread : Act → Nat
  | .lock t => t | .unlock t => t | .emit t _ => t | .set t _ => t | .next t => t | .ret t => t | .connect t _ _ => t | .connected t => t | .disconnect t _ => t | .release t => t

/-- `signal_locker::signal_locker`: signals.h:283-285. -/
def lockStep (s : State) (t : Nat) : Option State :=
  if user (s.stacks t) ∧ lockable s t then some (push (acquire s t) t .lock) else none

/-- `signal_locker::~signal_locker`.  For signals.h 85-286. -/
def unlockStep (s : State) (t : Nat) : Option State := match s.stacks t with
  | .lock :: _ => some (unlock (pop s t))
  | _ => none

/-- `InvokeAll`, the copy: signals.h:248-252. -/
def emitStep (s : State) (t v : Nat) : Option State :=
  if user (s.stacks t) ∧ lockable s t then some (push s t (.emit v s.handlers [] s.handlers false)) else none

/-- `ObservableValue::Set`: ObservableValue.h:125-132. -/
def setStep (s : State) (t v : Nat) : Option State :=
  if user (s.stacks t) ∧ lockable s t then
    if s.val = v then some s else some (push { acquire s t with val := v, hist := s.hist ++ [v] } t (.emit v s.handlers [] s.handlers true))
  else none

/-- `InvokeAll`, the loop, with `CancellableStorage::Invoke`: signals.h:254-255, 85-90; the end of it and of `Set`. -/
def nextStep (s : State) (t : Nat) : Option State := match s.stacks t with
  | .emit v snap calls (h :: todo) lk :: rest => match (s.life h).tryStart t with
    | none => none
    | some (true, m) => some { s with life := set s.life h m, stacks := set s.stacks t (.handler h v :: .emit v snap (calls ++ [h]) todo lk :: rest), seen := set s.seen h (s.seen h ++ [v]) }
    | some (false, m) => some { s with life := set s.life h m, stacks := set s.stacks t (.emit v snap calls todo lk :: rest) }
  | .emit _ _ _ [] lk :: _ => some (if lk then unlock (pop s t) else pop s t)
  | _ => none

/-- The handler returns or throws, the guard is destroyed: signals.h:90. -/
def retStep (s : State) (t : Nat) : Option State := match s.stacks t with
  | .handler h _ :: _ => match (s.life h).finish t with
    | none => none
    | some m => some { pop s t with life := set s.life h m }
  | _ => none

/-- `Connect` and `OnChangedPopulator`: signals.h:141-145, ObservableValue.h:147-148. -/
def connectStep (cfg : Cfg) (s : State) (t h : Nat) (send : Bool) : Option State :=
  if user (s.stacks t) ∧ lockable s t ∧ s.phase h = .fresh then
    some { push (acquire s t) t (.connecting h) with
      phase := set s.phase h (.connecting t), start := set s.start h s.hist.length,
      first := set s.first h (if send && cfg.need s.val then [s.val] else []), seen := set s.seen h (if send && cfg.need s.val then [s.val] else []) }
  else none

/-- `Connect`, the rest, with `AddHandler`: signals.h:147, 126-128, 167-171. -/
def connectedStep (s : State) (t : Nat) : Option State := match s.stacks t with
  | .connecting h :: _ => some (unlock { pop s t with handlers := s.handlers ++ [h], phase := set s.phase h .connected, order := s.order ++ [h] })
  | _ => none

/-- `~Connection`, `RemoveHandler`: signals.h:132, 173-177. -/
def disconnectStep (s : State) (t h : Nat) : Option State :=
  if user (s.stacks t) ∧ lockable s t ∧ s.phase h = .connected then
    some { push s t (.releasing h) with handlers := s.handlers.erase h, phase := set s.phase h (.removed t) }
  else none

/-- `~Connection`, `TaskLifeToken::Release`: signals.h:133. -/
def releaseStep (s : State) (t : Nat) : Option State := match s.stacks t with
  | .releasing h :: _ => match (s.life h).kill t with
    | none => none
    | some m => some { pop s t with life := set s.life h m, phase := set s.phase h (.gone t) }
  | _ => none

/-- One step, signals.h 85-286. -/
def step (cfg : Cfg) (s : State) : Act → Option State
  | .lock t => lockStep s t
  | .unlock t => unlockStep s t
  | .emit t v => emitStep s t v
  | .set t v => setStep s t v
  | .next t => nextStep s t
  | .ret t => retStep s t
  | .connect t h b => connectStep cfg s t h b
  | .connected t => connectedStep s t
  | .disconnect t h => disconnectStep s t h
  | .release t => releaseStep s t

/-- One step after another, for histories of signals.h 85-286. -/
def run (cfg : Cfg) (s : State) : List Act → Option State
  | [] => some s
  | a :: as => match step cfg s a with
    | none => none
    | some s' => run cfg s' as

/-- The same, with a condition on every step.  For signals.h 85-286. -/
def runIf (cfg : Cfg) (ok : State → Act → Bool) (s : State) : List Act → Option State
  | [] => some s
  | a :: as => if ok s a then
      match step cfg s a with
      | none => none
      | some s' => runIf cfg ok s' as
    else none

/-! ### What the properties are about -/

/-- Thread `t` is inside handler `h`. -/
def Spec.Inside (s : State) (t h : Nat) : Prop := ∃ v, Frame.handler h v ∈ s.stacks t

/-- The value is not set by a handler that is called because of the value being set (nor by a slot that gets the current value), and nobody else raises the signal. -/
def Spec.noReentry (s : State) : Act → Bool
  | .set _ _ => s.owner == none
  | .emit _ _ => false
  | _ => true

/-- The signal is raised only by a thread that has locked it. -/
def Spec.raisedLocked (s : State) : Act → Bool
  | .emit t _ => s.owner == some t
  | _ => true

end Verif.Signal
