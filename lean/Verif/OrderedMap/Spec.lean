import Verif.OrderedMap.Model
/-
Specification of an insertion-ordered map: a plain list of (key, value) pairs in iteration order, with no two keys equivalent under the
comparer. Nothing here mentions the sorted index, entries or pointers.
-/
namespace Verif.OrderedMap.Spec
open Verif.Order

section
variable {κ ν : Type}

/-- Position of the pair whose key is equivalent to `k`; the length if there is none. -/
def find (lt : κ → κ → Bool) (l : List (κ × ν)) (k : κ) : Nat := l.findIdx (fun e => equiv lt e.1 k)

def has (lt : κ → κ → Bool) (l : List (κ × ν)) (k : κ) : Bool := l.any (fun e => equiv lt e.1 k)

/-- Insert at position `i` unless the key is there already. -/
def insertAt (lt : κ → κ → Bool) (l : List (κ × ν)) (i : Nat) (k : κ) (v : ν) : List (κ × ν) :=
  if has lt l k then l else l.take i ++ (k, v) :: l.drop i

/-- Append unless the key is there already. -/
def insert (lt : κ → κ → Bool) (l : List (κ × ν)) (k : κ) (v : ν) : List (κ × ν) := if has lt l k then l else l ++ [(k, v)]

def insertAll (lt : κ → κ → Bool) (l : List (κ × ν)) (xs : List (κ × ν)) : List (κ × ν) := xs.foldl (fun l x => insert lt l x.1 x.2) l

/-- Replace the value where the key is, keep everything in place. -/
def setVal (lt : κ → κ → Bool) (l : List (κ × ν)) (k : κ) (v : ν) : List (κ × ν) := l.map (fun e => if equiv lt e.1 k then (e.1, v) else e)

/-- The value stored for `k`. -/
def get (lt : κ → κ → Bool) (l : List (κ × ν)) (k : κ) : Option ν := (l.find? (fun e => equiv lt e.1 k)).map (·.2)

/-- One call on the plain list. -/
def step (lt : κ → κ → Bool) (dflt : ν) (l : List (κ × ν)) : Op κ ν → Option (List (κ × ν) × Out ν)
  | .insert k v => some (insert lt l k v, .ins (find lt l k) (!has lt l k))
  | .insertHint i k v =>
    if l.length < i then none
    else some (insertAt lt l i k v, .pos (if has lt l k then find lt l k else i))
  | .insertAll xs => some (insertAll lt l xs, .unit)
  | .indexSet k v => some (setVal lt (insert lt l k dflt) k v, .unit)
  | .indexGet k => some (insert lt l k dflt, .val (some ((get lt l k).getD dflt)))
  | .find k => some (l, .pos (find lt l k))
  | .count k => some (l, .num (if has lt l k then 1 else 0))
  | .at k => some (l, .val (get lt l k))
  | .eraseAt i => if i < l.length then some (l.take i ++ l.drop (i + 1), .pos i) else none
  | .eraseRange i n => if n = 0 ∨ i + n ≤ l.length then some (l.take i ++ l.drop (i + n), .pos i) else none
  | .eraseKey k => some (l.filter (fun e => !equiv lt e.1 k), .num (if has lt l k then 1 else 0))
  | .clear => some ([], .unit)
  | .assign xs => some (insertAll lt [] xs, .unit)
  | .size => some (l, .num l.length)

def run (lt : κ → κ → Bool) (dflt : ν) : List (κ × ν) → List (Op κ ν) → Option (List (κ × ν) × List (Out ν))
  | l, [] => some (l, [])
  | l, op :: ops =>
    match step lt dflt l op with
    | none => none
    | some r => (run lt dflt r.1 ops).map (fun q => (q.1, r.2 :: q.2))

end
end Verif.OrderedMap.Spec
