/-
Model of the constraints on thread operations (stingraykit/thread/ThreadOperation.cpp 15-105).  The two pairs, constrainer with reporter and
exclusive operation with checker, are the same code over two thread-local words, so one model of the word serves both.

A history creates and destroys such objects on any threads.  Sets of operations are the bits of a natural number.  The log output is the
answer of the reporter; `STINGRAYKIT_FATAL` is the outcome `fatal`, in a production build it is left out.
-/
namespace Verif.Thread.Operation

/-- A live object, ThreadOperation.h 37-39 and 69-71. -/
structure Obj where
  ops : Nat
  thread : Nat
  old : Nat
  deriving DecidableEq

/-- The thread-local words and the live objects, the newest first.  ThreadOperation.cpp 18-22. -/
structure St where
  word : Nat → Nat
  live : List Obj

/-- At the beginning, ThreadOperation.cpp 18-22. -/
def init : St := ⟨fun _ => 0, []⟩

/-- Assign to the word of a thread, ThreadOperation.cpp 34, 44, 72 and 82. -/
def setWord (w : Nat → Nat) (t v : Nat) : Nat → Nat := fun u => if u = t then v else w u

/-- The constructor on thread `t`, ThreadOperation.cpp 30-34 and 68-72. -/
def create (s : St) (t ops : Nat) : St := ⟨setWord s.word t (s.word t ||| ops), ⟨ops, t, s.word t⟩ :: s.live⟩

/-- What an action leads to; ThreadOperation.cpp 46-51 and 84-89. -/
inductive Outcome
  | ok (s : St)
  | fatal
  /-- there is no such object -/
  | absent

/-- The destructor of the `i`-th live object on thread `t`, ThreadOperation.cpp 37-52 and 75-90. -/
def destroy (production : Bool) (s : St) (t i : Nat) : Outcome :=
  match s.live[i]? with
  | none => .absent
  | some o =>
    if o.thread = t then .ok ⟨setWord s.word t o.old, s.live.eraseIdx i⟩
    else if production then .ok ⟨s.word, s.live.eraseIdx i⟩
    else .fatal

/-- Does the reporter complain?  ThreadOperation.cpp 58-62. -/
def reports (s : St) (t op : Nat) : Bool := (op &&& s.word t) != 0

/-- Does the checker complain?  ThreadOperation.cpp 96-105. -/
def forbidden (s : St) (t op : Nat) : Bool := (op &&& s.word t) == 0

/-- An action of some thread, ThreadOperation.h 42-43 and 74-75. -/
inductive Act
  | create (t ops : Nat)
  | destroy (t i : Nat)

/-- One action, ThreadOperation.cpp 30-52. -/
def step (production : Bool) (s : St) : Act → Outcome
  | .create t ops => .ok (create s t ops)
  | .destroy t i => destroy production s t i

/-- A history, ThreadOperation.cpp 30-52. -/
def run (production : Bool) (s : St) : List Act → Outcome
  | [] => .ok s
  | a :: as =>
    match step production s a with
    | .ok s' => run production s' as
    | o => o

end Verif.Thread.Operation
