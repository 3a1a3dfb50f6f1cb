/-
Model of TokenPool and TokenMap (Token.h 198-227, 286-361) as a transition system.  A TokenPool is a TokenMap with only one key and without `release(key)`.
Simplifications: a token is one copy of a `Token` that has no other copies, so destroying it runs its cleanup function; the cleanup function of a token is an arbitrary list of calls of the same pool
(FunctionToken.h 32-33: exceptions are swallowed).  Allocation does not fail.  The threads are fixed; each of them may call the pool at any time.
-/
namespace Verif.Token

/-- A call of the pool, Token.h 214-226, 312-324, 344-360: `release none` is `Release` and `release_all`. -/
inductive Op where
  | add (key token : Nat)
  | release (key : Option Nat)
  deriving DecidableEq, Repr

/-- What a thread is doing; a stack of these is a call stack.  `code` is user code or a cleanup function; the others are inside Token.h 312-324 and 344-360: waiting for the lock, holding it before the
change, holding it after the change, and (for `release`) destroying the local collection after the lock is released, which is declared before the lock and so destroyed after it. -/
inductive Frame where
  | code (calls : List Op)
  | addWant (key token : Nat)
  | addHeld (key token : Nat)
  | addUnlock
  | relWant (key : Option Nat)
  | relHeld (key : Option Nat)
  | relUnlock (tokens : List Nat)
  | relDrop (tokens : List Nat)
  deriving DecidableEq, Repr

/-- What can be observed, Token.h 315, 349-351, 359 and the destruction of a token: the changes of the collection under the lock, and the destructions. -/
inductive Ev where
  | added (key token : Nat)
  | taken (key : Option Nat)
  | destroyed (token : Nat)
  deriving DecidableEq, Repr

/-- Members of the pool (Token.h 206-207, 328-329), the stacks of the threads and what has happened so far. -/
structure St where
  lock : Option Nat
  pool : List (Nat × Nat)
  threads : List (List Frame)
  log : List Ev
  deriving DecidableEq, Repr

/-- Whether `release` takes the tokens of a key, Token.h 349, 359. -/
def takes (sel : Option Nat) (key : Nat) : Bool :=
  match sel with
  | none => true
  | some k => decide (k = key)

/-- The frame of a call, Token.h 312, 344, 354. -/
def Op.frame : Op → Frame
  | .add k t => .addWant k t
  | .release k => .relWant k

/-- A step of the thread `i` with the topmost frame `f` above `rest`, Token.h 312-324, 344-360; `none` is waiting for the lock. -/
def frameStep (cleanup : Nat → List Op) (s : St) (i : Nat) (f : Frame) (rest : List Frame) : Option St :=
  match f with
  | .code [] => some { s with threads := s.threads.set i rest }
  | .code (op :: ops) => some { s with threads := s.threads.set i (op.frame :: .code ops :: rest) }
  | .addWant k t => if s.lock = none then some { s with lock := some i, threads := s.threads.set i (.addHeld k t :: rest) } else none
  | .addHeld k t => some { s with pool := s.pool ++ [(k, t)], threads := s.threads.set i (.addUnlock :: rest), log := s.log ++ [.added k t] }
  | .addUnlock => some { s with lock := none, threads := s.threads.set i rest }
  | .relWant k => if s.lock = none then some { s with lock := some i, threads := s.threads.set i (.relHeld k :: rest) } else none
  | .relHeld k => some { s with pool := s.pool.filter (fun x => !takes k x.1), threads := s.threads.set i (.relUnlock ((s.pool.filter (fun x => takes k x.1)).map (·.2)) :: rest), log := s.log ++ [.taken k] }
  | .relUnlock l => some { s with lock := none, threads := s.threads.set i (.relDrop l :: rest) }
  | .relDrop [] => some { s with threads := s.threads.set i rest }
  | .relDrop (t :: l) => some { s with threads := s.threads.set i (.code (cleanup t) :: .relDrop l :: rest), log := s.log ++ [.destroyed t] }

/-- An action, Token.h 198-227, 286-361: a thread that is outside calls the pool, or a thread goes on. -/
inductive Act where
  | start (thread : Nat) (op : Op)
  | run (thread : Nat)
  deriving DecidableEq, Repr

/-- One action, Token.h 198-227, 286-361. -/
def step (cleanup : Nat → List Op) (s : St) : Act → Option St
  | .start i op =>
    match s.threads[i]? with
    | some [] => some { s with threads := s.threads.set i [.code [op]] }
    | _ => none
  | .run i =>
    match s.threads[i]? with
    | some (f :: rest) => frameStep cleanup s i f rest
    | _ => none

/-- The pool at construction, Token.h 210, 332, with `n` threads. -/
def init (n : Nat) : St := ⟨none, [], List.replicate n [], []⟩

/-- A schedule, Token.h 198-227, 286-361. -/
def run (cleanup : Nat → List Op) : St → List Act → Option St
  | s, [] => some s
  | s, a :: as =>
    match step cleanup s a with
    | some s' => run cleanup s' as
    | none => none

end Verif.Token
