/-
Model of scheduling parameters of threads: thread/posix/PosixThreadEngine.cpp 802-850 and Thread::PrioritySetter (thread/Thread.cpp 86-112).
The kernel's side is modelled as far as these calls see it: five policies, a priority of 1 to 99 for the two real-time ones and 0 for the
others, a nice value of -20 to 19 (greater and smaller ones are cut).  The mapping of policies is that of C150.
-/
namespace Verif.Thread.Priority

/-- `ThreadSchedulingPolicy`, thread/IThreadEngine.h 22-33, and the kernel's policies (PosixThreadEngine.cpp 789-799). -/
inductive Policy where
  | nonRealtime | batch | idle | roundRobin | fifo
deriving DecidableEq, Repr

/-- The cases of the switches, PosixThreadEngine.cpp 809-819 and 837-847; `roundRobin` and `fifo` fall through to nothing. -/
def Policy.nice : Policy → Bool
  | .nonRealtime | .batch | .idle => true
  | .roundRobin | .fifo => false

/-- `ThreadSchedulingParams`, thread/IThreadEngine.h 36-48. -/
structure Params where
  policy : Policy
  priority : Int
deriving DecidableEq, Repr

/-- What the kernel keeps for the current thread, for PosixThreadEngine.cpp 804-814 and 829-842. -/
structure Kernel where
  policy : Policy
  sched : Int        -- sched_priority
  nice : Int
deriving DecidableEq, Repr

/-- `sched_get_priority_min` and `sched_get_priority_max`, PosixThreadEngine.cpp 829-830. -/
def minPriority (p : Policy) : Int := if p.nice then 0 else 1
/-- See `minPriority`: PosixThreadEngine.cpp 830. -/
def maxPriority (p : Policy) : Int := if p.nice then 0 else 99

/-- `GetCurrentThreadPriority`, PosixThreadEngine.cpp 802-821. -/
def get (k : Kernel) : Params := ⟨k.policy, if k.policy.nice then k.nice else k.sched⟩

/-- What the kernel says to the two calls of `SetCurrentThreadPriority`, PosixThreadEngine.cpp 834 and 842. -/
structure Answers where
  schedule : Bool
  setNice : Bool
deriving DecidableEq, Repr

/-- `setpriority`, PosixThreadEngine.cpp 842. -/
def cutNice (n : Int) : Int := min (max n (-20)) 19

/-- `SetCurrentThreadPriority`, PosixThreadEngine.cpp 824-850: the kernel's state afterwards and the former parameters, `none` if it throws. -/
def set (k : Kernel) (p : Params) (a : Answers) : Kernel × Option Params :=
  if a.schedule then
    if p.policy.nice then
      if a.setNice then (⟨p.policy, min (max p.priority (minPriority p.policy)) (maxPriority p.policy), cutNice p.priority⟩, some (get k))
      else ({ k with policy := p.policy, sched := min (max p.priority (minPriority p.policy)) (maxPriority p.policy) }, none)
    else ({ k with policy := p.policy, sched := min (max p.priority (minPriority p.policy)) (maxPriority p.policy) }, some (get k))
  else (k, none)

/-- `PrioritySetter` of the current thread, thread/Thread.h 105-117. -/
structure Setter where
  kernel : Kernel
  prev : Option Params
deriving DecidableEq, Repr

/-- `Reset` and the destructor, thread/Thread.cpp 94-95 and 105-112; exceptions are swallowed (109). -/
def reset (s : Setter) (a : Answers) : Setter :=
  match s.prev with
  | none => s
  | some p => ⟨(set s.kernel p a).1, none⟩

/-- `Set`, thread/Thread.cpp 98-102; an exception of the call leaves `_prevParams` as it is. -/
def Setter.set (s : Setter) (p : Params) (a b : Answers) : Setter :=
  match (Priority.set (reset s a).kernel p b).2 with
  | some old => ⟨(Priority.set (reset s a).kernel p b).1, some old⟩
  | none => ⟨(Priority.set (reset s a).kernel p b).1, (reset s a).prev⟩

/-- The constructors, thread/Thread.cpp 86-91. -/
def Setter.new (k : Kernel) : Setter := ⟨k, none⟩

/-- Calls of a setter. For thread/Thread.cpp 98-112. -/
inductive Act where
  | set (p : Params) (a b : Answers)
  | reset (a : Answers)
deriving DecidableEq, Repr

/-- A sequence of calls, thread/Thread.cpp 98-112. -/
def run (s : Setter) : List Act → Setter
  | [] => s
  | .set p a b :: as => run (s.set p a b) as
  | .reset a :: as => run (Priority.reset s a) as

end Verif.Thread.Priority
