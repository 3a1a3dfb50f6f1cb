/-
Model of ActionTransaction (ActionTransaction.h, ActionTransaction.cpp).
Actions and rollbacks are opaque callbacks named by numbers; whether a call throws is up to the environment and may depend on everything that has been called so far.
-/
namespace Verif.Util

/-- What the callbacks see, ActionTransaction.cpp 32, 51: a call of an action or of a rollback. -/
inductive TxCall where
  | action (id : Nat)
  | rollback (id : Nat)
  deriving DecidableEq, Repr

/-- Which calls throw, given the calls before; the callbacks are arbitrary functions, ActionTransaction.h 25-26. -/
abbrev TxThrows := List TxCall → TxCall → Bool

/-- An `ActionTransaction`, ActionTransaction.h 32-33, with all calls made so far. -/
structure Tx where
  rollbacks : List Nat
  active : Bool
  calls : List TxCall
  deriving DecidableEq, Repr

/-- Outcomes of a member function, ActionTransaction.cpp 28-54: done, refused by the check, or the exception of a callback. -/
inductive TxOut where
  | done
  | refused
  | thrown
  deriving DecidableEq, Repr

/-- Constructor, ActionTransaction.cpp 16-18. -/
def Tx.create : Tx := ⟨[], true, []⟩

/-- `Execute`, ActionTransaction.cpp 28-35; action and rollback have the same number. -/
def Tx.execute (throws : TxThrows) (t : Tx) (id : Nat) : Tx × TxOut :=
  if !t.active then (t, .refused)
  else if throws t.calls (.action id) then ({ t with calls := t.calls ++ [.action id] }, .thrown)
  else (⟨t.rollbacks ++ [id], t.active, t.calls ++ [.action id]⟩, .done)

/-- `Commit`, ActionTransaction.cpp 38-43. -/
def Tx.commit (t : Tx) : Tx × TxOut :=
  if !t.active then (t, .refused) else ({ t with active := false }, .done)

/-- The loop of `Rollback` over the reversed sequence, ActionTransaction.cpp 50-51: the calls after it, and whether one of them has thrown. -/
def undo (throws : TxThrows) : List Nat → List TxCall → List TxCall × Bool
  | [], calls => (calls, false)
  | id :: rest, calls => if throws calls (.rollback id) then (calls ++ [.rollback id], true) else undo throws rest (calls ++ [.rollback id])

/-- `Rollback`, ActionTransaction.cpp 46-54. -/
def Tx.rollback (throws : TxThrows) (t : Tx) : Tx × TxOut :=
  if !t.active then (t, .refused)
  else if (undo throws t.rollbacks.reverse t.calls).2 then ({ t with calls := (undo throws t.rollbacks.reverse t.calls).1 }, .thrown)
  else ({ t with active := false, calls := (undo throws t.rollbacks.reverse t.calls).1 }, .done)

/-- Destructor, ActionTransaction.cpp 21-25: the exception of a rollback is swallowed. -/
def Tx.destroy (throws : TxThrows) (t : Tx) : List TxCall :=
  if t.active then (t.rollback throws).1.calls else t.calls

/-- Calls of the user, ActionTransaction.h 39-42. -/
inductive TxOp where
  | execute (id : Nat)
  | commit
  | rollback
  deriving DecidableEq, Repr

/-- One call of the user, ActionTransaction.h 39-42; exceptions are caught by the user. -/
def Tx.step (throws : TxThrows) (t : Tx) : TxOp → Tx × TxOut
  | .execute id => t.execute throws id
  | .commit => t.commit
  | .rollback => t.rollback throws

/-- A transaction from construction on, ActionTransaction.h 36-42: the state and the outcome of every call. -/
def Tx.run (throws : TxThrows) : Tx → List TxOp → Tx × List TxOut
  | t, [] => (t, [])
  | t, op :: ops => ((Tx.run throws (t.step throws op).1 ops).1, (t.step throws op).2 :: (Tx.run throws (t.step throws op).1 ops).2)

end Verif.Util
