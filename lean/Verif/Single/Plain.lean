/-
Model of `Singleton` (/repo/stingraykit/Singleton.h) and of `AtomicInt::Store` as written with `__sync_val_compare_and_swap`
(/repo/stingraykit/thread/atomic/AtomicInt.h 68-76).

`Singleton`: a call is one step (`call_once` lets one thread run the initialization while the others wait); the destructor of the static
holder runs at most once, at any moment after the holder was made.  What is not modelled: a call that has passed the check on line 54 while
the destructor runs in another thread.  After its destructor the holder is still read (as the code does, to tell "already destroyed").
-/
namespace Verif.Single.Plain

/-- The static holder: not yet made, there, destroyed.  Singleton.h 84-88. -/
inductive Life
  | unborn
  | born
  | dead
  deriving DecidableEq

/-- The once flag and the holder; `made` is a ghost: how often the constructor of `T` was started; `deleted`: the objects deleted.  Singleton.h 34-43. -/
structure St where
  once : Bool
  life : Life
  inst : Option Nat
  created : Bool
  made : Nat
  deleted : List Nat
  deriving DecidableEq

/-- At the start of the program, Singleton.h 37, 92. -/
def init : St := ⟨false, .unborn, none, false, 0, []⟩

/-- The public operations and the end of the program, Singleton.h 39-63; `instance`: would the constructor of `T` throw now? -/
inductive Op
  | instance (throws : Bool)
  | isAlive
  | assertCreated
  | exit
  deriving DecidableEq

/-- What an operation gives: a reference to object `o`, the two exceptions of line 54, a Boolean, nothing, the end of the program (line 82).
Singleton.h 46-63. -/
inductive Res
  | ref (o : Nat)
  | alreadyDestroyed
  | couldNotBeCreated
  | bool (b : Bool)
  | unit
  | fatal
  | impossible
  deriving DecidableEq

/-- `GetInstanceHolder`: makes the holder if need be, Singleton.h 84-88. -/
def touch (s : St) : St := { s with life := if s.life = .unborn then .born else s.life }

/-- `InitInstance`, Singleton.h 66-79: the objects are numbered by the runs of the constructor. -/
def initInstance (s : St) (throws : Bool) : St :=
  { touch s with
    once := true
    made := s.made + 1
    inst := if throws then none else some s.made
    created := !throws }

/-- The check on line 54, Singleton.h 53-56. -/
def check (s : St) : Res :=
  match s.inst with
  | some o => .ref o
  | none => if s.created then .alreadyDestroyed else .couldNotBeCreated

/-- One operation, Singleton.h 46-82 and `~InstanceHolder`, line 39. -/
def step (s : St) : Op → St × Res
  | .instance throws => if s.once then (touch s, check s) else (initInstance s throws, check (initInstance s throws))
  | .isAlive => (touch s, .bool s.inst.isSome)
  | .assertCreated => if s.once then (s, .unit) else (s, .fatal)
  | .exit => if s.life = .born then ({ s with life := .dead, inst := none, deleted := s.deleted ++ s.inst.toList }, .unit) else (s, .impossible)

/-- Operations one after another with what they give, Singleton.h 46-82. -/
def run (s : St) : List Op → St × List Res
  | [] => (s, [])
  | op :: ops => ((run (step s op).1 ops).1, (step s op).2 :: (run (step s op).1 ops).2)

/-! ### AtomicInt::Store -/

/-- One `__sync_val_compare_and_swap`: new content and what it returns (the content before), AtomicInt.h 71, 75-76. -/
def cas (cell old new : Int) : Int × Int := (if cell = old then new else cell, cell)

/-- The loop of `Store`: `seen` are the contents of the cell at the moments of the exchanges (other threads change it in between), AtomicInt.h 70-72.
Result: the exchanges that were done, as (content before, content after); `none`: still in the loop when `seen` ends. -/
def store (val oldval1 oldval2 : Int) : List Int → Option (List (Int × Int))
  | [] => none
  | cell :: seen =>
    if (cas cell oldval1 val).2 ≠ oldval2 then
      (store val (cas cell oldval1 val).2 (cas cell oldval1 val).2 seen).map ((cell, (cas cell oldval1 val).1) :: ·)
    else some [(cell, (cas cell oldval1 val).1)]

end Verif.Single.Plain
