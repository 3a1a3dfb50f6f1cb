import Verif.Order.Basic
/-
Model of `flat_map` (stingraykit/collection/flat_map.h) and `flat_set` (flat_set.h; the same algorithms without mapped value: ν = Unit):
a vector of pairs kept sorted by binary search. An iterator is its position, `end()` the length. `std::lower_bound`/`upper_bound`/`equal_range`
by their library contract. Not modelled: reserve, allocators, moves, and writing to keys through a mutable iterator.
-/
namespace Verif.Flat
open Verif.Order

section
variable {κ ν : Type}

/-- `lower_bound`: flat_map.h:288-289 / flat_set.h:226-227. -/
def lower (lt : κ → κ → Bool) (c : List (κ × ν)) (k : κ) : Nat := lowerBound lt Prod.fst c k

/-- `upper_bound`: flat_map.h:291-292 / flat_set.h:229-230 (library contract: the first position after the key). -/
def upper (lt : κ → κ → Bool) (c : List (κ × ν)) (k : κ) : Nat := (c.takeWhile (fun e => !lt k e.1)).length

/-- The test `result == end() || _cmp(value, *result)`: flat_map.h:143, 183, 228 / flat_set.h:124, 169. -/
def endOrBefore (lt : κ → κ → Bool) (c : List (κ × ν)) (k : κ) (i : Nat) : Bool :=
  match c[i]? with
  | none => true
  | some e => lt k e.1

/-- The test `hint == begin() || _cmp(*(hint - 1), value)`: flat_map.h:198, 237 / flat_set.h:139, 178. -/
def beginOrAfter (lt : κ → κ → Bool) (c : List (κ × ν)) (k : κ) (i : Nat) : Bool :=
  match i with
  | 0 => true
  | j + 1 => match c[j]? with
    | none => false
    | some e => lt e.1 k

/-- `_container.insert(pos, value)`.  For flat_map.h 126-292 and flat_set.h 88-230. -/
def vecInsert (c : List (κ × ν)) (i : Nat) (x : κ × ν) : List (κ × ν) := c.take i ++ x :: c.drop i

/-- `insert(value)`, `emplace`: flat_map.h:180-194, 223-231 / flat_set.h:121-135, 164-172. -/
def insert (lt : κ → κ → Bool) (c : List (κ × ν)) (k : κ) (v : ν) : List (κ × ν) × Nat × Bool :=
  if endOrBefore lt c k (lower lt c k) then (vecInsert c (lower lt c k) (k, v), lower lt c k, true)
  else (c, lower lt c k, false)

/-- `insert(hint, value)`, `emplace_hint`: flat_map.h:196-208, 233-240 / flat_set.h:137-149, 174-181. -/
def insertHint (lt : κ → κ → Bool) (c : List (κ × ν)) (i : Nat) (k : κ) (v : ν) : List (κ × ν) × Nat :=
  if beginOrAfter lt c k i && endOrBefore lt c k i then (vecInsert c i (k, v), i)
  else ((insert lt c k v).1, (insert lt c k v).2.1)

/-- `insert(first, last)`: flat_map.h:210-218 / flat_set.h:151-159. -/
def insertAll (lt : κ → κ → Bool) : List (κ × ν) → List (κ × ν) → List (κ × ν)
  | c, [] => c
  | c, (k, v) :: l => insertAll lt (insert lt c k v).1 l

/-- `operator[]`: flat_map.h:140-154; the container it leaves and the position of the reference it returns. -/
def index (lt : κ → κ → Bool) (dflt : ν) (c : List (κ × ν)) (k : κ) : List (κ × ν) × Nat :=
  if endOrBefore lt c k (lower lt c k) then (vecInsert c (lower lt c k) (k, dflt), lower lt c k) else (c, lower lt c k)

/-- `find(key)`: flat_map.h:269-283 / flat_set.h:207-221. -/
def find (lt : κ → κ → Bool) (c : List (κ × ν)) (k : κ) : Nat :=
  match c[lower lt c k]? with
  | none => lower lt c k
  | some e => if lt k e.1 then c.length else lower lt c k

/-- `count(key)`: flat_map.h:266-267 / flat_set.h:204-205. -/
def count (lt : κ → κ → Bool) (c : List (κ × ν)) (k : κ) : Nat := if find lt c k = c.length then 0 else 1

/-- `at(key)`: flat_map.h:126-138; `none` is the key-not-found exception. -/
def at' (lt : κ → κ → Bool) (c : List (κ × ν)) (k : κ) : Option ν :=
  if find lt c k = c.length then none else c[find lt c k]?.map (·.2)

/-- `erase(pos)`: flat_map.h:242-246 / flat_set.h:183-184; `none` is undefined behaviour. -/
def eraseAt (c : List (κ × ν)) (i : Nat) : Option (List (κ × ν)) := if i < c.length then some (c.eraseIdx i) else none

/-- `erase(first, last)`: flat_map.h:248-249 / flat_set.h:186-187 (`std::vector::erase` of `n` elements from `i`). -/
def eraseRange (c : List (κ × ν)) (i n : Nat) : Option (List (κ × ν)) := if i + n ≤ c.length then some (c.take i ++ c.drop (i + n)) else none

/-- `erase(key)`: flat_map.h:251-258 / flat_set.h:189-196. -/
def eraseKey (lt : κ → κ → Bool) (c : List (κ × ν)) (k : κ) : Option (List (κ × ν) × Nat) :=
  if find lt c k = c.length then some (c, 0) else (eraseAt c (find lt c k)).map (fun c' => (c', 1))

/-- Calls; iterators are positions.  For flat_map.h 126-292 and flat_set.h 88-230. -/
inductive Op (κ ν : Type) where
  | insert (k : κ) (v : ν)
  | insertHint (i : Nat) (k : κ) (v : ν)
  | insertAll (l : List (κ × ν))
  | indexSet (k : κ) (v : ν)
  | indexGet (k : κ)
  | find (k : κ)
  | count (k : κ)
  | at (k : κ)
  | lower (k : κ)
  | upper (k : κ)
  | eraseAt (i : Nat)
  | eraseRange (i n : Nat)
  | eraseKey (k : κ)
  | clear
  | assign (l : List (κ × ν))
  | size
  deriving DecidableEq, Repr

/-- What a call returns, flat_map.h 126-292 and flat_set.h 88-230. -/
inductive Out (ν : Type) where
  | unit
  | ins (pos : Nat) (fresh : Bool)
  | pos (i : Nat)
  | num (n : Nat)
  | val (v : Option ν)
  deriving DecidableEq, Repr

/-- One call; `none` is undefined behaviour. `indexSet` is `m[k] = v` (flat_map.h:140-154), `assign` is assignment from an initializer list
(117-122 / flat_set.h:88-93), `clear` 178 / 119. -/
def step (lt : κ → κ → Bool) (dflt : ν) (c : List (κ × ν)) : Op κ ν → Option (List (κ × ν) × Out ν)
  | .insert k v => some ((insert lt c k v).1, .ins (insert lt c k v).2.1 (insert lt c k v).2.2)
  | .insertHint i k v => if c.length < i then none else some ((insertHint lt c i k v).1, .pos (insertHint lt c i k v).2)
  | .insertAll l => some (insertAll lt c l, .unit)
  | .indexSet k v => some ((index lt dflt c k).1.modify (index lt dflt c k).2 (fun e => (e.1, v)), .unit)
  | .indexGet k => some ((index lt dflt c k).1, .val ((index lt dflt c k).1[(index lt dflt c k).2]?.map (·.2)))
  | .find k => some (c, .pos (find lt c k))
  | .count k => some (c, .num (count lt c k))
  | .at k => some (c, .val (at' lt c k))
  | .lower k => some (c, .pos (lower lt c k))
  | .upper k => some (c, .pos (upper lt c k))
  | .eraseAt i => (eraseAt c i).map (fun c' => (c', .pos i))
  | .eraseRange i n => (eraseRange c i n).map (fun c' => (c', .pos i))
  | .eraseKey k => (eraseKey lt c k).map (fun r => (r.1, .num r.2))
  | .clear => some ([], .unit)
  | .assign l => some (insertAll lt [] l, .unit)
  | .size => some (c, .num c.length)

/-- One step after another, for histories of flat_map.h 126-292 and flat_set.h 88-230. -/
def run (lt : κ → κ → Bool) (dflt : ν) : List (κ × ν) → List (Op κ ν) → Option (List (κ × ν) × List (Out ν))
  | c, [] => some (c, [])
  | c, op :: ops =>
    match step lt dflt c op with
    | none => none
    | some r => (run lt dflt r.1 ops).map (fun q => (q.1, r.2 :: q.2))

end
end Verif.Flat
