/-
Model of `ScopeExitInvoker` (ScopeExit.h 62-90) and of the classes that `STINGRAYKIT_SCOPE_EXIT` declares (ScopeExit.h 43-57), used in a program with blocks, exceptions and
`return`.  Guards have addresses in the order of their construction.  Building the function of a guard does not throw here.
-/
namespace Verif.Scope.Exit

/-- How a call ends: it returns; with an exception that is a `std::exception`; with another exception.  For ScopeExit.h 82-86. -/
inductive Out where
  | normal
  | std
  | other
deriving DecidableEq, Repr

/-- The rest of a block that uses guards.  For ScopeExit.h 43-90. -/
inductive Prog where
  /-- the end of the block -/
  | done
  /-- a statement that calls something -/
  | act (tag : Nat) (out : Out) (rest : Prog)
  /-- a guard for the rest of the block, ScopeExit.h 74-80, 57 -/
  | guard (func : Out) (rest : Prog)
  /-- `Cancel` of the guard number `i` of those that are visible, the innermost is 0; ScopeExit.h 88-89 -/
  | cancel (i : Nat) (rest : Prog)
  /-- `return` -/
  | ret
  | block (body rest : Prog)
deriving DecidableEq, Repr

/-- What happens.  For ScopeExit.h 74-89. -/
inductive Ev where
  | did (tag : Nat)
  | made (a : Nat)
  | cancelled (a : Nat)
  | ran (a : Nat)
deriving DecidableEq, Repr

/-- How a block is left; `terminated`: the program has ended, with `std::terminate`.  For ScopeExit.h 82-86. -/
inductive Flow where
  | next
  | left
  | thrown (out : Out)
  | terminated
deriving DecidableEq, Repr

/-- `_func` of every guard that was made: whether there is a function; and what has happened.  For ScopeExit.h 70. -/
structure State where
  active : List Bool
  log : List Ev
deriving DecidableEq, Repr

/-- The destructor, ScopeExit.h 82-86, 49: destructors are `noexcept`. -/
def leave (s : State) (a : Nat) (func : Out) (flow : Flow) : State × Flow :=
  if s.active[a]? = some true then (⟨s.active, s.log ++ [.ran a]⟩, if func = .other then .terminated else flow) else (s, flow)

/-- The execution of the rest of a block; `env`: the addresses of the visible guards.  A `Cancel` of a guard that is not visible is not a program: it is skipped.  For
ScopeExit.h 43-90. -/
def exec : Prog → List Nat → State → State × Flow
  | .done, _, s => (s, .next)
  | .act tag out rest, env, s => if out = .normal then exec rest env ⟨s.active, s.log ++ [.did tag]⟩ else (⟨s.active, s.log ++ [.did tag]⟩, .thrown out)
  | .guard func rest, env, s =>
    (match exec rest (s.active.length :: env) ⟨s.active ++ [true], s.log ++ [.made s.active.length]⟩ with
    | (s', .terminated) => (s', .terminated)
    | (s', flow) => leave s' s.active.length func flow)
  | .cancel i rest, env, s =>
    (match env[i]? with
    | none => exec rest env s
    | some a => exec rest env ⟨s.active.set a false, s.log ++ [.cancelled a]⟩)
  | .ret, _, s => (s, .left)
  | .block body rest, env, s =>
    (match exec body env s with
    | (s', .next) => exec rest env s'
    | r => r)

/-- A function whose body is `p`, ScopeExit.h 43-90. -/
def call (p : Prog) : State × Flow := exec p [] ⟨[], []⟩

end Verif.Scope.Exit
