/-
Model of a thread that waits on a condition variable with a `JoiningCancellationToken` (stingraykit/thread/JoiningCancellationToken.cpp,
thread/CancellationRegistrator.h, thread/posix/PosixConditionVariable.cpp 19-118), over and over again, while each of the two tokens
(thread/CancellationToken.cpp) is cancelled by some other thread at any moment: registration and, above all, unregistration.

A step is a critical section of a token or a change of who has the user's mutex.  Broadcasts by others, spurious wake-ups and timeouts are
steps.  Simplifications: the flags `_firstRegistered` of the joining token and `_registered` of its proxy registrator, always equal, are one
(`reg`); nobody but the waiter and the handler takes the user's mutex; `Reset` of a token in use is not modelled.
-/
namespace Verif.Thread.Joined

/-- Where the call of `Cancel` on a token is: not yet made, about to call the handler, after that, finished.  CancellationToken.cpp 50-70. -/
inductive CPc
  | idle
  | calling
  | called
  | finished
  deriving DecidableEq

/-- A token and whether the proxy is registered with it.  CancellationToken.cpp 16-20, JoiningCancellationToken.h 29-33. -/
structure Tok where
  cancelled : Bool
  done : Bool
  handler : Bool
  reg : Bool
  c : CPc
  deriving DecidableEq

/-- What `Wait` returns, PosixConditionVariable.cpp 106-117. -/
inductive Res
  | broadcasted
  | cancelled
  | timedOut
  deriving DecidableEq

/-- Where the waiter is; `k`: the second token?  PosixConditionVariable.cpp 49-60 and 102-118, JoiningCancellationToken.cpp 48-84. -/
inductive Pc
  | out
  /-- before registering with a token -/
  | register (k : Bool)
  /-- registered, before it waits -/
  | ready
  /-- waits on the condition variable -/
  | waiting (woken : Bool)
  /-- in `Release` -/
  | release (k : Bool)
  /-- in `TryUnregister` of the destructor -/
  | dtor (k : Bool) (r : Res)
  /-- in `Unregister`; the user's mutex is unlocked -/
  | unregister (k : Bool) (r : Res)
  /-- in `Unregister`, waits for the end of `Cancel` on the token -/
  | sleep (k : Bool) (r : Res) (woken : Bool)
  /-- before the user's mutex is locked again -/
  | relock (r : Res)
  | returned (r : Res)
  deriving DecidableEq

/-- The two tokens and the waiter.  JoiningCancellationToken.h 23-33. -/
structure St where
  t1 : Tok
  t2 : Tok
  w : Pc
  /-- a handler was to be registered where one is registered already, CancellationToken.cpp 89 -/
  clash : Bool
  deriving DecidableEq

/-- A new token, CancellationToken.cpp 16-20. -/
def Tok.new : Tok := ⟨false, false, false, false, .idle⟩

/-- At the beginning, JoiningCancellationToken.cpp 15-22. -/
def init : St := ⟨.new, .new, .out, false⟩

/-- The steps, see `step`.  PosixConditionVariable.cpp 102-118. -/
inductive Act
  /-- the caller locks the mutex (or has it still) and calls `Wait` -/
  | enter
  /-- the waiter goes one step further -/
  | go
  /-- a broadcast by somebody or a spurious wake-up -/
  | wake
  | timeout
  /-- the caller unlocks the mutex after `Wait` -/
  | leave
  /-- a spurious wake-up in `Unregister` -/
  | wakeSleep
  /-- `Cancel` of a token, first critical section -/
  | cancel (k : Bool)
  /-- the handler -/
  | call (k : Bool)
  /-- `Cancel` of a token, second critical section -/
  | finish (k : Bool)
  deriving DecidableEq

/-- One of the tokens, JoiningCancellationToken.h 23-24. -/
def St.tok (s : St) (k : Bool) : Tok := if k then s.t2 else s.t1

/-- Change one of the tokens, JoiningCancellationToken.h 23-24. -/
def St.upd (s : St) (k : Bool) (t : Tok) : St := if k then { s with t2 := t } else { s with t1 := t }

/-- `TryRegisterCancellationHandler`, CancellationToken.cpp 83-92, CancellationRegistrator.h 37-38 and 90-95. -/
def Tok.register (t : Tok) : Tok := if t.cancelled then { t with reg := false } else { t with handler := true, reg := true }

/-- `TryUnregisterCancellationHandler`, CancellationToken.cpp 95-101, CancellationRegistrator.h 40-47, JoiningCancellationToken.cpp 59-63. -/
def Tok.tryUnregister (t : Tok) : Tok := if t.reg then { t with handler := false, reg := t.cancelled } else t

/-- Has the waiter the user's mutex?  PosixConditionVariable.cpp 49-60 and 102-118. -/
def Pc.holds : Pc → Bool
  | .out => false
  | .waiting _ => false
  | .unregister _ _ => false
  | .sleep _ _ _ => false
  | .relock _ => false
  | _ => true

/-- After `Unregister` on token `k`: the other one or the end.  JoiningCancellationToken.cpp 75-83, PosixConditionVariable.cpp 58-60. -/
def next (k : Bool) (r : Res) : Pc := if k then .relock r else .unregister true r

/-- One step of the waiter, PosixConditionVariable.cpp 49-63 and 102-118 with JoiningCancellationToken.cpp 48-84. -/
def go (s : St) : Option St :=
  match s.w with
  | .register false => some { s with t1 := s.t1.register, w := .register true, clash := s.clash || (!s.t1.cancelled && s.t1.handler) }
  | .register true => some { s with t2 := s.t2.register, w := if s.t1.reg || s.t2.register.reg then .ready else .returned .cancelled,
                                    clash := s.clash || (!s.t2.cancelled && s.t2.handler) }
  | .ready => some { s with w := .waiting false }
  | .waiting true => some { s with w := .release false }
  | .release false => some { s with t1 := s.t1.tryUnregister, w := .release true }
  | .release true => some { s with t2 := s.t2.tryUnregister, w := if s.t1.reg || s.t2.tryUnregister.reg then .dtor false .cancelled else .returned .broadcasted }
  | .dtor false r => some { s with t1 := s.t1.tryUnregister, w := .dtor true r }
  | .dtor true r => some { s with t2 := s.t2.tryUnregister, w := if s.t1.reg || s.t2.tryUnregister.reg then .unregister false r else .returned r }
  | .unregister k r =>
    if (s.tok k).reg then
      if !(s.tok k).cancelled || (s.tok k).done then some { s.upd k { s.tok k with handler := false, reg := false } with w := next k r }
      else some { s.upd k { s.tok k with handler := false } with w := .sleep k r false }
    else some { s with w := next k r }
  | .sleep k r true =>
    if (s.tok k).done then some { s.upd k { s.tok k with reg := false } with w := next k r } else some { s with w := .sleep k r false }
  | .relock r => some { s with w := .returned r }
  | _ => none

/-- The effect of a broadcast on the user's condition variable, PosixConditionVariable.cpp 35-39. -/
def Pc.notified : Pc → Pc
  | .waiting _ => .waiting true
  | w => w

/-- The effect of the broadcast at the end of `Cancel` on token `k`, CancellationToken.cpp 65-69. -/
def Pc.ended (k : Bool) : Pc → Pc
  | .sleep k' r b => .sleep k' r (b || k == k')
  | w => w

/-- One step, PosixConditionVariable.cpp 35-39 and 102-118, CancellationToken.cpp 50-115; `none`: not possible. -/
def step (s : St) : Act → Option St
  | .enter =>
    match s.w with
    | .out => some { s with w := .register false }
    | .returned _ => some { s with w := .register false }
    | _ => none
  | .go => go s
  | .wake =>
    match s.w with
    | .waiting _ => some { s with w := .waiting true }
    | _ => none
  | .timeout =>
    match s.w with
    | .waiting _ => some { s with w := .dtor false .timedOut }
    | _ => none
  | .leave =>
    match s.w with
    | .returned _ => some { s with w := .out }
    | _ => none
  | .wakeSleep =>
    match s.w with
    | .sleep k r _ => some { s with w := .sleep k r true }
    | _ => none
  | .cancel k =>
    if (s.tok k).cancelled then none
    else some (s.upd k { s.tok k with cancelled := true, c := if (s.tok k).handler then .calling else .called })
  | .call k =>
    if (s.tok k).c = .calling ∧ s.w.holds = false then
      some { s.upd k { s.tok k with c := .called } with w := s.w.notified }
    else none
  | .finish k =>
    if (s.tok k).c = .called then
      some { s.upd k { s.tok k with c := .finished, done := true } with w := s.w.ended k }
    else none

/-- Steps one after another, PosixConditionVariable.cpp 102-118. -/
def run (s : St) : List Act → Option St
  | [] => some s
  | a :: as => match step s a with | none => none | some s' => run s' as

end Verif.Thread.Joined
