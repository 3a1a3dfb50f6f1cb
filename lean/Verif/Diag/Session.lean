/-! Model of `ProfileSession`, diagnostics/ProfileSession.h. -/

namespace Verif.Diag.Session

/-- `std::string`, compared byte by byte: ProfileSession.h 34. -/
abbrev Id := List Nat

/-- `std::map<std::string, SessionInfo>`: ProfileSession.h 30-36, the entries in the order of their keys.  An entry is its key, the three members of the `SessionInfo` and the
entries after it. -/
inductive Kids where
  | nil
  | cons (key : Id) (id : Id) (time : Nat) (children : Kids) (rest : Kids)
  deriving DecidableEq, Repr

/-- `u64` addition: ProfileSession.h 107. -/
def addTime (a b : Nat) : Nat := (a + b) % 2 ^ 64

/-- `AddChildren(to.Children[key], from)`: ProfileSession.h 98, 103-110; `merge` is what the loop does with `to.Children`.  A new entry has an empty `Id`. -/
def put (key id : Id) (time : Nat) (children : Kids) (merge : Kids → Kids) : Kids → Kids
  | .nil => .cons key id time children .nil
  | .cons k i t c rest =>
    if k = key then
      if i = [] then .cons k id time children rest
      else .cons k i (addTime t time) (merge c) rest
    else if key < k then .cons key id time children (.cons k i t c rest)
    else .cons k i t c (put key id time children merge rest)

/-- The loop over `from.Children`: ProfileSession.h 108-109. -/
def merge : Kids → Kids → Kids
  | .nil, to => to
  | .cons key id time children rest, to => merge rest (put key id time children (merge children) to)

/-- The children of a session in the order of their destruction: ProfileSession.h 71-93.  A session has its id, the milliseconds between its construction and its destruction and
its own children. -/
inductive Run where
  | nil
  | cons (id : Id) (time : Nat) (children : Run) (rest : Run)
  deriving DecidableEq, Repr

/-- `_info.Children` of a session when it is destroyed: ProfileSession.h 84, 96-99; the callback is called when `_reportToParentToken` is destroyed, after the body of the
destructor. -/
def collect : Run → Kids → Kids
  | .nil, ks => ks
  | .cons id time children rest, ks => collect rest (put id id time (collect children .nil) (merge (collect children .nil)) ks)

/-- What a line of the report says: ProfileSession.h 45-50. -/
structure Line where
  level : Nat
  id : Id
  time : Nat
  percent : Option Nat
  deriving DecidableEq, Repr

/-- `Time ? (Time * 100) / parentTime : 0`: ProfileSession.h 49; `none` for a division by zero. -/
def percentOf (time parentTime : Nat) : Option Nat :=
  if time = 0 then some 0 else if parentTime = 0 then none else some (time * 100 % 2 ^ 64 / parentTime)

/-- `ToString` of the children: ProfileSession.h 44-53. -/
def lines : Kids → Nat → Nat → Option (List Line)
  | .nil, _, _ => some []
  | .cons _ id time children rest, level, parentTime =>
    match percentOf time parentTime, lines children (level + 1) time, lines rest level parentTime with
    | some p, some a, some b => some (⟨level, id, time, some p⟩ :: a ++ b)
    | _, _, _ => none

/-- The destructor of a session without a parent: ProfileSession.h 80-93; the inner `none` is no report. -/
def report (id : Id) (time threshold : Nat) (enable : Bool) (children : Run) : Option (Option (List Line)) :=
  if enable = false then some none
  else if time > threshold then (lines (collect children .nil) 1 time).map (fun l => some (⟨0, id, time, none⟩ :: l))
  else some none

end Verif.Diag.Session
