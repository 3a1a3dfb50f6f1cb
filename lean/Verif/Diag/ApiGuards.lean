/-
Model of `ExternalAPIGuardStack` and the guards (stingraykit/diagnostics/ExternalAPIGuard.h 15-93) with `ExternalAPIGuards` (thread/Thread.h 63-87)
in one thread.  A guard is known by a number; it remembers whether there was a stack (thread data) when it was made.
-/
namespace Verif.Diag.ApiGuards

/-- `StackEntry`, ExternalAPIGuard.h 21-29.  `leave`: `LeaveExternalAPI`. -/
structure Entry where
  leave : Bool
  name : List Char
  deriving DecidableEq

/-- The stack (its end is the top) and the guards alive: number, entry, is it attached to the stack?  ExternalAPIGuard.h 34, 61. -/
structure St where
  tls : Bool
  stack : List Entry
  guards : List (Nat × Entry × Bool)
  deriving DecidableEq

/-- ExternalAPIGuard.h 34. -/
def init : St := ⟨true, [], []⟩

/-- Making and destroying a guard, thread data coming and going away.  ExternalAPIGuard.h 64-70. -/
inductive Act where
  | enter (id : Nat) (e : Entry)
  | exit (id : Nat)
  | tls (b : Bool)
  deriving DecidableEq

/-- The guard with a number, ExternalAPIGuard.h 61. -/
def find (id : Nat) : List (Nat × Entry × Bool) → Option (Entry × Bool)
  | [] => none
  | (i, x) :: gs => if i = id then some x else find id gs

/-- All but the guard with that number, ExternalAPIGuard.h 69-70. -/
def without (id : Nat) : List (Nat × Entry × Bool) → List (Nat × Entry × Bool)
  | [] => []
  | (i, x) :: gs => if i = id then gs else (i, x) :: without id gs

/-- One step, ExternalAPIGuard.h 54-55 and 64-90, Thread.h 73-77.  `none`: not possible (or `pop_back` of an empty vector). -/
def step (s : St) : Act → Option St
  | .enter id e =>
    if find id s.guards = none then
      some { s with stack := if s.tls then s.stack ++ [e] else s.stack, guards := s.guards ++ [(id, e, s.tls)] }
    else none
  | .exit id =>
    match find id s.guards with
    | none => none
    | some (_, false) => some { s with guards := without id s.guards }
    | some (_, true) => if s.stack = [] then none else some { s with stack := s.stack.dropLast, guards := without id s.guards }
  | .tls b => some { s with tls := b }

/-- Steps one after another, ExternalAPIGuard.h 64-90. -/
def run (s : St) : List Act → Option St
  | [] => some s
  | a :: as => match step s a with | none => none | some s' => run s' as

/-- The loop of `Get`, ExternalAPIGuard.h 47-48.  `first`: `it == begin`. -/
def walk (acc : List Char) (first : Bool) : List Entry → List Char
  | [] => acc
  | e :: es => walk (acc ++ ((if first then [] else " -> ".toList) ++ e.name)) false es

/-- `Get`, ExternalAPIGuard.h 37-51. -/
def get (stack : List Entry) : List Char :=
  match stack.getLast? with
  | none => "<external API guard stack empty>".toList
  | some e => walk (if e.leave then "in stingray: ".toList else "in external API: ".toList) true stack

/-- `GetLocation`, Thread.h 80-84. -/
def location (s : St) : List Char := if s.tls then get s.stack else "<no tls>".toList

end Verif.Diag.ApiGuards
