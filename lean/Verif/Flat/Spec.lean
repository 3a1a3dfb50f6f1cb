import Verif.Flat.Model
/-
Specification of an ordered map as a bag of pairs (a list whose order means nothing), with no two keys equivalent. Positions are ranks: the
number of keys before the key in question. No search, no sorted vector.
-/
namespace Verif.Flat.Spec
open Verif.Order

section
variable {κ ν : Type}

def has (lt : κ → κ → Bool) (l : List (κ × ν)) (k : κ) : Bool := l.any (fun e => equiv lt e.1 k)

def get (lt : κ → κ → Bool) (l : List (κ × ν)) (k : κ) : Option ν := (l.find? (fun e => equiv lt e.1 k)).map (·.2)

/-- How many keys are before `k`. -/
def rank (lt : κ → κ → Bool) (l : List (κ × ν)) (k : κ) : Nat := l.countP (fun e => lt e.1 k)

def add (lt : κ → κ → Bool) (l : List (κ × ν)) (k : κ) (v : ν) : List (κ × ν) := if has lt l k then l else (k, v) :: l

def addAll (lt : κ → κ → Bool) (l : List (κ × ν)) (xs : List (κ × ν)) : List (κ × ν) := xs.foldl (fun l x => add lt l x.1 x.2) l

def setVal (lt : κ → κ → Bool) (l : List (κ × ν)) (k : κ) (v : ν) : List (κ × ν) := l.map (fun e => if equiv lt e.1 k then (e.1, v) else e)

/-- One call on the bag. -/
def step (lt : κ → κ → Bool) (dflt : ν) (l : List (κ × ν)) : Op κ ν → Option (List (κ × ν) × Out ν)
  | .insert k v => some (add lt l k v, .ins (rank lt l k) (!has lt l k))
  | .insertHint i k v => if l.length < i then none else some (add lt l k v, .pos (rank lt l k))
  | .insertAll xs => some (addAll lt l xs, .unit)
  | .indexSet k v => some (setVal lt (add lt l k dflt) k v, .unit)
  | .indexGet k => some (add lt l k dflt, .val (some ((get lt l k).getD dflt)))
  | .find k => some (l, .pos (if has lt l k then rank lt l k else l.length))
  | .count k => some (l, .num (if has lt l k then 1 else 0))
  | .at k => some (l, .val (get lt l k))
  | .lower k => some (l, .pos (rank lt l k))
  | .upper k => some (l, .pos (l.countP (fun e => !lt k e.1)))
  | .eraseAt i => if i < l.length then some (l.filter (fun e => decide (rank lt l e.1 ≠ i)), .pos i) else none
  | .eraseRange i n => if i + n ≤ l.length then some (l.filter (fun e => !(decide (i ≤ rank lt l e.1) && decide (rank lt l e.1 < i + n))), .pos i) else none
  | .eraseKey k => some (l.filter (fun e => !equiv lt e.1 k), .num (if has lt l k then 1 else 0))
  | .clear => some ([], .unit)
  | .assign xs => some (addAll lt [] xs, .unit)
  | .size => some (l, .num l.length)

def run (lt : κ → κ → Bool) (dflt : ν) : List (κ × ν) → List (Op κ ν) → Option (List (κ × ν) × List (Out ν))
  | l, [] => some (l, [])
  | l, op :: ops =>
    match step lt dflt l op with
    | none => none
    | some r => (run lt dflt r.1 ops).map (fun q => (q.1, r.2 :: q.2))

end
end Verif.Flat.Spec
