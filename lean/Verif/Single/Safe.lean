/-
Model of `SafeSingleton` (/repo/stingraykit/SafeSingleton.h): an object that is made by the first call of `Instance` and deleted when the
static holder and every `shared_ptr` handed out are gone.

A step is one access to shared memory (an atomic operation, or taking/finishing `call_once`); any number of threads interleave arbitrarily
and the static destructor may run at any moment after the object was made.  Objects get the numbers 0, 1, ... in the order of their making
and numbers are not reused.  `attempts` and the number of deletions of every object are ghosts.

Simplifications: atomic operations are sequentially consistent; `call_once` is taken at its word (one thread runs the function, the others
wait until it has finished; /repo/stingraykit/thread/call_once.h); the counter does not wrap (fewer than 2^32 references at a time); copies
of a returned `shared_ptr` are one reference here (its deleter runs once, property C01-C03); the constructor of `T` does not itself call `Instance` (that
would be a deadlock in `call_once`) and throws nothing but `std::exception`.
-/
namespace Verif.Single.Safe

/-- The once flag, SafeSingleton.h 26. -/
inductive Once
  | fresh
  | running
  | done
  deriving DecidableEq

/-- Where a call of `Instance` (or the destructor of the static holder) is, SafeSingleton.h 31-102. -/
inductive Phase
  /-- before `call_once`, line 90 -/
  | start
  /-- runs the constructor of `T`, line 61 -/
  | creating
  /-- has made object `o`, line 62 -/
  | created (o : Nat)
  /-- has stored its address, line 63 -/
  | stored
  /-- is past `call_once`, line 33 -/
  | ready
  /-- has read the counter, lines 34-40 -/
  | loaded (r : Nat)
  /-- has added a reference, line 94 -/
  | got
  /-- has returned a `shared_ptr` to object `o`, line 101 -/
  | holding (o : Nat)
  /-- has returned null, line 93 -/
  | null
  /-- is in `RemoveReference`, line 46 -/
  | removing
  /-- its `Dec` has given 0, line 48 -/
  | deleting
  /-- `RemoveReference` has finished, line 49 -/
  | finished
  deriving DecidableEq

/-- The static variables, the calls ever made; for every object ever made the number of its deletions; how often the constructor was
started.  SafeSingleton.h 26-28, 72. -/
structure St where
  once : Once
  rc : Nat
  inst : Option Nat
  holder : Bool
  calls : List Phase
  objs : List Nat
  attempts : Nat
  deriving DecidableEq

/-- At the start of the program, SafeSingleton.h 106-115. -/
def init : St := ⟨.fresh, 0, none, false, [], [], 0⟩

/-- The steps, SafeSingleton.h 31-102. -/
inductive Act
  /-- a thread calls `Instance` -/
  | call
  /-- call `c` goes one step further -/
  | go (c : Nat)
  /-- the constructor that call `c` runs throws -/
  | throw (c : Nat)
  /-- the owner of what call `c` has returned lets go of it -/
  | release (c : Nat)
  /-- the destructor of the static holder begins -/
  | exit
  deriving DecidableEq

/-- Call `c` is in phase `p`, SafeSingleton.h 31-102. -/
def St.at (s : St) (c : Nat) (p : Phase) : St := { s with calls := s.calls.set c p }

/-- One more deletion of the object, SafeSingleton.h 48 (`CheckedDelete` of null does nothing). -/
def delete (objs : List Nat) : Option Nat → List Nat
  | some o => objs.modify o (· + 1)
  | none => objs

/-- One step of a call, SafeSingleton.h 31-102; `none`: it waits or is finished. -/
def go (s : St) (c : Nat) : Phase → Option St
  | .start =>
    match s.once with
    | .fresh => some ({ s with once := .running, attempts := s.attempts + 1 }.at c .creating)
    | .running => none
    | .done => some (s.at c .ready)
  | .creating => some ({ s with objs := s.objs ++ [0] }.at c (.created s.objs.length))
  | .created o => some ({ s with inst := some o }.at c .stored)
  | .stored => some ({ s with rc := 1, holder := true, once := .done }.at c .ready)
  | .ready => some (s.at c (.loaded s.rc))
  | .loaded r =>
    if r = 0 then some (s.at c .null)
    else if s.rc = r then some ({ s with rc := r + 1 }.at c .got)
    else some (s.at c (.loaded s.rc))
  | .got =>
    match s.inst with
    | some o => some (s.at c (.holding o))
    | none => some (s.at c .removing)
  | .holding _ => none
  | .null => none
  | .removing => some ({ s with rc := s.rc - 1 }.at c (if s.rc - 1 = 0 then .deleting else .finished))
  | .deleting => some ({ s with objs := delete s.objs s.inst }.at c .finished)
  | .finished => none

/-- One step, SafeSingleton.h 31-102; `none`: not possible. -/
def step (s : St) : Act → Option St
  | .call => some { s with calls := s.calls ++ [.start] }
  | .go c =>
    match s.calls[c]? with
    | some p => go s c p
    | none => none
  | .throw c =>
    match s.calls[c]? with
    | some .creating => some ({ s with once := .done }.at c .ready)
    | _ => none
  | .release c =>
    match s.calls[c]? with
    | some (.holding _) => some (s.at c .removing)
    | _ => none
  | .exit => if s.holder then some { s with holder := false, calls := s.calls ++ [.removing] } else none

/-- Steps one after another, SafeSingleton.h 31-102. -/
def run (s : St) : List Act → Option St
  | [] => some s
  | a :: as => match step s a with | none => none | some s' => run s' as

end Verif.Single.Safe
