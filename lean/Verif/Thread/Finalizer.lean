/-
Model of `Finalizer` (Finalizer.h) as the deleter of shared pointers: objects hold shared pointers to objects made before them, users hold others; when the last one to an object goes, its
deletion is a task of the executor; deleting it releases what it holds.  Of the executor there is the queue, in order (ThreadTaskExecutor.cpp 39-78, ThreadlessTaskExecutor.cpp 33-78); its own
lifetime is not modelled, nor are tasks of others in the queue.
-/
namespace Verif.Thread.Finalizer

/-- `n` objects have been made; what they hold; the pointers of users and all pointers to each; the queue of deletions; what has been deleted, in order.  For Finalizer.h 19-36. -/
structure State where
  n : Nat
  children : Nat → List Nat
  users : Nat → Nat
  strong : Nat → Nat
  queue : List Nat
  deleted : List Nat

/-- A function changed at one place.  For Finalizer.h 19-36. -/
def set {α : Type} (f : Nat → α) (i : Nat) (x : α) : Nat → α := fun j => if j = i then x else f j

/-- A shared pointer to object `i` is destroyed: the last one calls the deleter, Finalizer.h 28-30. -/
def release (s : State) (i : Nat) : State :=
  { s with strong := set s.strong i (s.strong i - 1), queue := if s.strong i = 1 then s.queue ++ [i] else s.queue }

/-- The members of an object are destroyed: Finalizer.h 34-35. -/
def releaseAll (s : State) : List Nat → State
  | [] => s
  | c :: cs => releaseAll (release s c) cs

/-- The steps: a user makes an object with the finalizer, which gets copies of pointers the user has; copies a pointer; drops one; the executor takes a task; its tasks are cleared
(ThreadlessTaskExecutor.cpp 69-77).  For Finalizer.h 25-35. -/
inductive Act where
  | make (children : List Nat)
  | copy (i : Nat)
  | drop (i : Nat)
  | work
  | clear
deriving DecidableEq, Repr

/-- A step, if it can be made.  For Finalizer.h 25-35. -/
def step (s : State) : Act → Option State
  | .make cs =>
    if cs.all (fun c => decide (0 < s.users c)) then
      some { s with n := s.n + 1, children := set s.children s.n cs, users := set s.users s.n 1, strong := fun i => if i = s.n then 1 else s.strong i + cs.count i }
    else none
  | .copy i => if 0 < s.users i then some { s with users := set s.users i (s.users i + 1), strong := set s.strong i (s.strong i + 1) } else none
  | .drop i => if 0 < s.users i then some (release { s with users := set s.users i (s.users i - 1) } i) else none
  | .work =>
    match s.queue with
    | [] => none
    | i :: q => some (releaseAll { s with queue := q, deleted := s.deleted ++ [i] } (s.children i))
  | .clear => some { s with queue := [] }

/-- A history.  For Finalizer.h 25-35. -/
def run (s : State) : List Act → Option State
  | [] => some s
  | a :: as =>
    match step s a with
    | none => none
    | some s' => run s' as

/-- Nothing made yet.  For Finalizer.h 25. -/
def init : State := ⟨0, fun _ => [], fun _ => 0, fun _ => 0, [], []⟩

end Verif.Thread.Finalizer
