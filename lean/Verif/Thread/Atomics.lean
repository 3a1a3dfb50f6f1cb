import Verif.Num.CheckedInt
/-
Model of thread/atomic.h (`atomic<T>` for integers, 62-80, 115-139) over thread/atomic/AtomicInt.h (the `__sync` variant, 53-77), IntegerSequenceGenerator.h, and
thread/atomic/Spinlock.h over AtomicFlag.h (16-33).
-/
namespace Verif.Thread.Atomics
open Verif.Num.Checked (Ty promote)

/-- The value of type `t` that is congruent to `v`: how the builtins wrap, AtomicInt.h 64-65, and how a result is converted to `T`, atomic.h 75-76, 134, 137. -/
def wrap (t : Ty) (v : Int) : Int := if t.signed then (v + 2 ^ (t.bits - 1)) % 2 ^ t.bits - 2 ^ (t.bits - 1) else v % 2 ^ t.bits

/-- An addition or subtraction in the promoted type and the conversion of its result to `t`; `none` is the overflow of a signed type.  For atomic.h 75-76, 134, 137. -/
def arith (t : Ty) (v : Int) : Option Int :=
  if (promote t).signed then (if (promote t).lo ≤ v ∧ v ≤ (promote t).hi then some (wrap t v) else none) else some (wrap t v)

/-- `fetch_add`, atomic.h 75: the new contents, and the result if it is defined. -/
def fetchAdd (t : Ty) (value arg : Int) : Int × Option Int := (wrap t (value + arg), arith t (wrap t (value + arg) - arg))

/-- `fetch_sub`, atomic.h 76. -/
def fetchSub (t : Ty) (value arg : Int) : Int × Option Int := (wrap t (value - arg), arith t (wrap t (value - arg) + arg))

/-- `operator ++ ()`, atomic.h 134. -/
def preInc (t : Ty) (value : Int) : Int × Option Int :=
  match fetchAdd t value 1 with
  | (v, none) => (v, none)
  | (v, some r) => (v, arith t (r + 1))

/-- `operator -- ()`, atomic.h 137. -/
def preDec (t : Ty) (value : Int) : Int × Option Int :=
  match fetchSub t value 1 with
  | (v, none) => (v, none)
  | (v, some r) => (v, arith t (r - 1))

/-- The calls of `IntegerSequenceGenerator::Next`, IntegerSequenceGenerator.h 25-29, in the order in which they reach the variable, whichever threads make them: the
results of the first `n`.  A call whose result is undefined ends the list. -/
def nexts (t : Ty) : Nat → Int → List Int
  | 0, _ => []
  | n + 1, value =>
    match fetchAdd t value 1 with
    | (_, none) => []
    | (v, some r) => r :: nexts t n v

/-- The loop of `Store`, AtomicInt.h 68-73: `seen i` is what the variable holds when compare-and-swap number `i` reaches it.  The result: at which attempts the new value
was written, and whether the loop has ended. -/
def storeLoop (seen : Nat → Int) : Nat → Nat → Int → Int → List Nat × Bool
  | 0, _, _, _ => ([], false)
  | fuel + 1, i, oldval1, oldval2 =>
    if seen i = oldval2 then ((if seen i = oldval1 then [i] else []), true)
    else ((if seen i = oldval1 then [i] else []) ++ (storeLoop seen fuel (i + 1) (seen i) (seen i)).1, (storeLoop seen fuel (i + 1) (seen i) (seen i)).2)

/-- `Store`, AtomicInt.h 68-73. -/
def store (seen : Nat → Int) (fuel : Nat) : List Nat × Bool := storeLoop seen fuel 0 0 0

/-- What a thread that uses a spinlock is doing, Spinlock.h 23-27. -/
inductive Pc where
  /-- outside -/
  | out
  /-- in the loop of the constructor -/
  | trying
  /-- between the constructor and the destructor -/
  | inside
deriving DecidableEq, Repr

/-- A flag and its threads, Spinlock.h 20-27. -/
structure Lock where
  flag : Int
  pcs : List Pc
deriving DecidableEq, Repr

/-- `AtomicFlag::TestAndSet`, AtomicFlag.h 21: the new flag and the result (the variant of line 29 leaves a flag that is up as it is). -/
def testAndSet (flag : Int) : Int × Bool := (1, flag == 0)

/-- `AtomicFlag::Clear`, AtomicFlag.h 22, 30. -/
def clear (_flag : Int) : Int := 0

/-- A step of a thread: it enters the constructor, makes one attempt of the loop, or runs the destructor.  For Spinlock.h 23-27. -/
def lockStep (s : Lock) (i : Nat) : Option Lock :=
  match s.pcs[i]? with
  | none => none
  | some .out => some { s with pcs := s.pcs.set i .trying }
  | some .trying => some ⟨(testAndSet s.flag).1, if (testAndSet s.flag).2 then s.pcs.set i .inside else s.pcs⟩
  | some .inside => some ⟨clear s.flag, s.pcs.set i .out⟩

/-- A schedule: which thread makes a step.  For Spinlock.h 23-27. -/
def lockRun (s : Lock) : List Nat → Option Lock
  | [] => some s
  | i :: is =>
    match lockStep s i with
    | none => none
    | some s' => lockRun s' is

/-- Nobody uses the lock: PhoenixSingleton.h 64. -/
def lockInit (n : Nat) : Lock := ⟨0, List.replicate n .out⟩

end Verif.Thread.Atomics
