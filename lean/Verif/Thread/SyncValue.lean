/-
Model of `SyncValue`, thread/SyncValue.h 16-66: any number of threads, each with a program of full expressions.  Every access in an expression makes a lock that
lives until the end of the expression; the mutex is recursive.  `Get` (line 58) and the assignment (line 65) are expressions of their own, inside the functions.
-/
namespace Verif.Thread.SyncValue

/-- One access: what it does to the value and to the variables of the thread, SyncValue.h 31-35, 47-48. -/
abbrev Op (V L : Type) := V → L → V × L

/-- The steps an expression is made of, SyncValue.h 28-35, 44-48 and the destructors. -/
inductive Instr (V L : Type) where
  | lock
  | op (f : Op V L)
  | unlock

/-- A thread: the rest of the expression it is in, its other expressions, and its variables.  For SyncValue.h 58-65. -/
structure Thr (V L : Type) where
  cur : List (Instr V L)
  rest : List (Op V L × List (Op V L))
  locals : L

/-- The value, its mutex (recursive) and the threads, SyncValue.h 52-53. -/
structure State (V L : Type) where
  value : V
  owner : Option Nat
  depth : Nat
  threads : Nat → Thr V L

/-- What is left of an expression when its first lock was made: one lock for every further access, and the locks end with the expression.
SyncValue.h 28-35, 44-48, 60-63. -/
def begun {V L : Type} (e : Op V L × List (Op V L)) : List (Instr V L) :=
  .op e.1 :: (e.2.flatMap fun f => [.lock, .op f]) ++ List.replicate (e.2.length + 1) .unlock

/-- Thread `t` is now `x`.  For SyncValue.h 58-65. -/
def State.put {V L : Type} (s : State V L) (t : Nat) (x : Thr V L) : State V L := { s with threads := fun i => if i = t then x else s.threads i }

/-- One step of thread `t`; `none` if it is blocked or has nothing to do.  SyncValue.h 28-35, 44-48, 58-65. -/
def step {V L : Type} (s : State V L) (t : Nat) : Option (State V L) :=
  match (s.threads t).cur with
  | [] =>
    match (s.threads t).rest with
    | [] => none
    | e :: es => if s.owner = none then some ({ s with owner := some t, depth := 1 }.put t { s.threads t with cur := begun e, rest := es }) else none
  | .lock :: c =>
    if s.owner = none ∨ s.owner = some t then some ({ s with owner := some t, depth := s.depth + 1 }.put t { s.threads t with cur := c }) else none
  | .op f :: c =>
    some ({ s with value := (f s.value (s.threads t).locals).1 }.put t { s.threads t with cur := c, locals := (f s.value (s.threads t).locals).2 })
  | .unlock :: c =>
    some ({ s with depth := s.depth - 1, owner := if s.depth - 1 = 0 then none else s.owner }.put t { s.threads t with cur := c })

/-- A schedule; SyncValue.h 16-66. -/
def run {V L : Type} (s : State V L) : List Nat → Option (State V L)
  | [] => some s
  | t :: ts => (step s t).bind fun s' => run s' ts

end Verif.Thread.SyncValue
