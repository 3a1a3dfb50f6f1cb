import Verif.Coll.Observable
import Verif.Coll.KindsSpec
/-
What observers rely on.  A careful observer keeps a copy of its own and follows the reports: `added` must be something new, `updated` and `removed` must be about something
that is there, with the value that was reported for it.  `none`: the report makes no sense.
-/
namespace Verif.Coll.Spec
open Verif.Order Verif.Coll.Obs
variable {κ ν α E L : Type}

/-- A dictionary (a set: no `updated`, no values). -/
def followDict (lt : κ → κ → Bool) [DecidableEq ν] (l : List (κ × ν)) (e : Event κ ν) : Option (List (κ × ν)) :=
  match e.op with
  | .added => if has lt l e.key then none else some (l ++ [(e.key, e.value)])
  | .updated => if has lt l e.key then some (l.map fun x => if equiv lt x.1 e.key then (x.1, e.value) else x) else none
  | .removed => if value lt l e.key = some e.value then some (l.filter fun x => !equiv lt x.1 e.key) else none

/-- A multi dictionary (a multi set: no values): the first one goes. -/
def followMulti (lt : κ → κ → Bool) [DecidableEq ν] (l : List (κ × ν)) (e : Event κ ν) : Option (List (κ × ν)) :=
  match e.op with
  | .added => some (l ++ [(e.key, e.value)])
  | .updated => none
  | .removed => if l.any (fun x => equiv lt x.1 e.key && decide (x.2 = e.value)) then some (l.eraseP fun x => equiv lt x.1 e.key && decide (x.2 = e.value)) else none

/-- A list. -/
def followList [DecidableEq α] (l : List α) (e : Event Nat α) : Option (List α) :=
  match e.op with
  | .added => if e.key ≤ l.length then some (l.insertIdx e.key e.value) else none
  | .updated => if e.key < l.length then some (l.set e.key e.value) else none
  | .removed => if l[e.key]? = some e.value then some (l.eraseIdx e.key) else none

/-- Following a sequence of reports. -/
def replay (follow : L → E → Option L) : L → List E → Option L
  | l, [] => some l
  | l, e :: es => (follow l e).bind fun l' => replay follow l' es

end Verif.Coll.Spec
