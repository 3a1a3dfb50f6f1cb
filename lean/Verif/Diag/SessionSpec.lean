import Verif.Diag.Session
/-! What a report of a profile session should say. -/

namespace Verif.Diag.Session.Spec

/-- The milliseconds spent in the sessions whose chain of ids, from a child of the root on, is `path`. -/
def total : Run → List Id → Nat
  | .nil, _ => 0
  | .cons _ _ _ _, [] => 0
  | .cons id time children rest, x :: q =>
    (if x = id then (if q = [] then time else total children q) else 0) + total rest (x :: q)

/-- Whether there was a session with the chain of ids `path`. -/
def occurs : Run → List Id → Bool
  | .nil, _ => false
  | .cons _ _ _ _, [] => false
  | .cons id _ children rest, x :: q => (x == id && (q.isEmpty || occurs children q)) || occurs rest (x :: q)

/-- The time of the sessions that `path` is a child of; `root` is the time of the session that reports. -/
def parentTotal (root : Nat) (run : Run) (path : List Id) : Nat := if path.dropLast = [] then root else total run path.dropLast

/-- No session has an empty id. -/
def named : Run → Prop
  | .nil => True
  | .cons id _ children rest => id ≠ [] ∧ named children ∧ named rest

/-- A child takes no longer than its parent, which took `bound`. -/
def nested (bound : Nat) : Run → Prop
  | .nil => True
  | .cons _ time children rest => time ≤ bound ∧ nested time children ∧ nested bound rest

/-- The times of all children. -/
def direct : Run → Nat
  | .nil => 0
  | .cons _ time _ rest => time + direct rest

/-- The children of a session do not overlap in time. -/
def sequential : Run → Prop
  | .nil => True
  | .cons _ time children rest => direct children ≤ time ∧ sequential children ∧ sequential rest

/-- The line of the report about the sessions with the chain of ids `path`. -/
def line (root : Nat) (run : Run) (path : List Id) : Line :=
  ⟨path.length, path.getLastD [], total run path, some (total run path * 100 / parentTotal root run path)⟩

end Verif.Diag.Session.Spec
