import Verif.Order.Basic
/-
Model of `ordered_map` (stingraykit/collection/ordered_map.h) and `ordered_set` (ordered_set.h, the same structure without mapped value: ν = Unit).

A value entry lives in the list `_ordered`; `_sorted` is a `std::set` of pointers to the entries, ordered by key. An entry is identified by the
number of its allocation (`id`), a pointer in `_sorted` carries that id and the (immutable) key of the entry it points to. An iterator into the
list is its position, `end()` is the length. `std::set::lower_bound`/`find` by their library contract (`Order.lowerBound`). Not modelled:
allocation failure (the roll-back at 329-335/390-396), the move operations, allocators.
-/
namespace Verif.OrderedMap
open Verif.Order

section
variable {κ ν : Type}

/-- ordered_map.h:60-70 / ordered_set.h:58-68 (`OrderedIt`/`SortedIt` are the positions of `id` in the two containers). -/
structure Entry (κ ν : Type) where
  id : Nat
  key : κ
  val : ν
  deriving DecidableEq, Repr

/-- An element of `_sorted` (ordered_map.h:56): a pointer to an entry. -/
structure Ptr (κ : Type) where
  id : Nat
  key : κ
  deriving DecidableEq, Repr

/-- ordered_map.h:156-158 / ordered_set.h:132-134; `next` numbers the allocations. -/
structure State (κ ν : Type) where
  ordered : List (Entry κ ν)
  sorted : List (Ptr κ)
  next : Nat
  deriving DecidableEq, Repr

/-- ordered_map.h:161-162. -/
def empty : State κ ν := ⟨[], [], 0⟩

/-- `_sorted.find(key)`: ordered_map.h:334 / ordered_set.h:284; also the test made on the lower bound in 356-358, 367-369 / 306-308. -/
def locate (lt : κ → κ → Bool) (s : State κ ν) (k : κ) : Option (Ptr κ) :=
  match s.sorted[lowerBound lt Ptr.key s.sorted k]? with
  | none => none
  | some p => if lt k p.key then none else some p

/-- `(*it)->OrderedIt`: the list position of an entry.  For ordered_map.h 56-399 and ordered_set.h 58-338. -/
def posOf (s : State κ ν) (id : Nat) : Nat := s.ordered.findIdx (fun e => e.id == id)

/-- `DoInsertAtPos`: ordered_map.h:385-399 / ordered_set.h:324-338. -/
def insertAtPos (lt : κ → κ → Bool) (s : State κ ν) (i : Nat) (k : κ) (v : ν) : State κ ν :=
  ⟨s.ordered.take i ++ ⟨s.next, k, v⟩ :: s.ordered.drop i,
   s.sorted.take (lowerBound lt Ptr.key s.sorted k) ++ ⟨s.next, k⟩ :: s.sorted.drop (lowerBound lt Ptr.key s.sorted k), s.next + 1⟩

/-- `DoInsertValue`/`DoInsertEntry`: ordered_map.h:364-383 / ordered_set.h:303-322; `i` is the position given as hint. -/
def insertAt (lt : κ → κ → Bool) (s : State κ ν) (i : Nat) (k : κ) (v : ν) : State κ ν × Nat × Bool :=
  match locate lt s k with
  | some p => (s, posOf s p.id, false)
  | none => (insertAtPos lt s i k v, i, true)

/-- `insert(value)`: ordered_map.h:264-268 / ordered_set.h:220-224. -/
def insert (lt : κ → κ → Bool) (s : State κ ν) (k : κ) (v : ν) : State κ ν × Nat × Bool := insertAt lt s s.ordered.length k v

/-- `insert(first, last)`: ordered_map.h:276-281 / ordered_set.h:232-237. -/
def insertAll (lt : κ → κ → Bool) : State κ ν → List (κ × ν) → State κ ν
  | s, [] => s
  | s, (k, v) :: l => insertAll lt (insert lt s k v).1 l

/-- `operator[]` (through `DoInsertKey`) followed by an assignment to the reference: ordered_map.h:232-236, 353-362. -/
def indexSet (lt : κ → κ → Bool) (dflt : ν) (s : State κ ν) (k : κ) (v : ν) : State κ ν :=
  { (insertAt lt s s.ordered.length k dflt).1 with
    ordered := (insertAt lt s s.ordered.length k dflt).1.ordered.modify (insertAt lt s s.ordered.length k dflt).2.1 (fun e => { e with val := v }) }

/-- `operator[]` read through: the value and the state it leaves (ordered_map.h:232-236, 353-362). -/
def indexGet (lt : κ → κ → Bool) (dflt : ν) (s : State κ ν) (k : κ) : State κ ν × Option ν :=
  ((insertAt lt s s.ordered.length k dflt).1,
   (insertAt lt s s.ordered.length k dflt).1.ordered[(insertAt lt s s.ordered.length k dflt).2.1]?.map Entry.val)

/-- `find(key)`: ordered_map.h:332-342 / ordered_set.h:282-292. -/
def find (lt : κ → κ → Bool) (s : State κ ν) (k : κ) : Nat :=
  match locate lt s k with
  | some p => posOf s p.id
  | none => s.ordered.length

/-- `count(key)`: ordered_map.h:329-330 / ordered_set.h:279-280. -/
def count (lt : κ → κ → Bool) (s : State κ ν) (k : κ) : Nat := if find lt s k = s.ordered.length then 0 else 1

/-- `at(key)`: ordered_map.h:218-230; `none` is the key-not-found exception. -/
def at' (lt : κ → κ → Bool) (s : State κ ν) (k : κ) : Option ν :=
  if find lt s k = s.ordered.length then none else s.ordered[find lt s k]?.map Entry.val

/-- `erase(pos)`: ordered_map.h:294-304 / ordered_set.h:250-254; `none` is undefined behaviour (position not dereferenceable). -/
def eraseAt (s : State κ ν) (i : Nat) : Option (State κ ν) :=
  match s.ordered[i]? with
  | none => none
  | some e => some ⟨s.ordered.eraseIdx i, s.sorted.eraseP (fun p => p.id == e.id), s.next⟩

/-- `erase(first, last)`: ordered_map.h:306-311 / ordered_set.h:256-261; `n` is the distance. -/
def eraseRange : State κ ν → Nat → Nat → Option (State κ ν)
  | s, _, 0 => some s
  | s, i, n + 1 => match eraseAt s i with
    | none => none
    | some s' => eraseRange s' i n

/-- `erase(key)`: ordered_map.h:313-321 / ordered_set.h:263-271. -/
def eraseKey (lt : κ → κ → Bool) (s : State κ ν) (k : κ) : Option (State κ ν × Nat) :=
  if find lt s k = s.ordered.length then some (s, 0)
  else match eraseAt s (find lt s k) with
    | none => none
    | some s' => some (s', 1)

/-- `clear()`: ordered_map.h:258-262 / ordered_set.h:214-218. -/
def clear (s : State κ ν) : State κ ν := ⟨[], [], s.next⟩

/-- Iteration from `begin()` to `end()`: ordered_map.h:112-123, 238-244. -/
def contents (s : State κ ν) : List (κ × ν) := s.ordered.map (fun e => (e.key, e.val))

/-- Assignment from a list or from another container with the given contents: ordered_map.h:202-214 / ordered_set.h:178-190. -/
def assign (lt : κ → κ → Bool) (s : State κ ν) (l : List (κ × ν)) : State κ ν := insertAll lt (clear s) l

/-- Assignment from itself: `clear()` runs before `other` is read (ordered_map.h:202-207 / ordered_set.h:178-183). -/
def assignSelf (lt : κ → κ → Bool) (s : State κ ν) : State κ ν := insertAll lt (clear s) (contents (clear s))

/-- The copy constructors: ordered_map.h:182-188, 177-180, 172-175 / ordered_set.h:158-164; `dflt` is `Compare()`. -/
def copy (dflt : κ → κ → Bool) (s : State κ ν) : State κ ν := insertAll dflt empty (contents s)

/-- Calls. `iterator` arguments are positions, as they would be obtained by walking from `begin()`.  For ordered_map.h 56-399 and ordered_set.h 58-338. -/
inductive Op (κ ν : Type) where
  | insert (k : κ) (v : ν)
  | insertHint (i : Nat) (k : κ) (v : ν)
  | insertAll (l : List (κ × ν))
  | indexSet (k : κ) (v : ν)
  | indexGet (k : κ)
  | find (k : κ)
  | count (k : κ)
  | at (k : κ)
  | eraseAt (i : Nat)
  | eraseRange (i n : Nat)
  | eraseKey (k : κ)
  | clear
  | assign (l : List (κ × ν))
  | size
  deriving DecidableEq, Repr

/-- What a call returns, ordered_map.h 56-399 and ordered_set.h 58-338. -/
inductive Out (ν : Type) where
  | unit
  | ins (pos : Nat) (fresh : Bool)
  | pos (i : Nat)
  | num (n : Nat)
  | val (v : Option ν)
  deriving DecidableEq, Repr

/-- One call; `none` is undefined behaviour (an iterator that is not valid for the call).  For ordered_map.h 56-399 and ordered_set.h 58-338. -/
def step (lt : κ → κ → Bool) (dflt : ν) (s : State κ ν) : Op κ ν → Option (State κ ν × Out ν)
  | .insert k v => some ((insert lt s k v).1, .ins (insert lt s k v).2.1 (insert lt s k v).2.2)
  | .insertHint i k v =>
    if s.ordered.length < i then none
    else some ((insertAt lt s i k v).1, .pos (insertAt lt s i k v).2.1)
  | .insertAll l => some (insertAll lt s l, .unit)
  | .indexSet k v => some (indexSet lt dflt s k v, .unit)
  | .indexGet k => some ((indexGet lt dflt s k).1, .val (indexGet lt dflt s k).2)
  | .find k => some (s, .pos (find lt s k))
  | .count k => some (s, .num (count lt s k))
  | .at k => some (s, .val (at' lt s k))
  | .eraseAt i => (eraseAt s i).map (fun s' => (s', .pos i))
  | .eraseRange i n => (eraseRange s i n).map (fun s' => (s', .pos i))
  | .eraseKey k => (eraseKey lt s k).map (fun r => (r.1, .num r.2))
  | .clear => some (clear s, .unit)
  | .assign l => some (assign lt s l, .unit)
  | .size => some (s, .num s.ordered.length)

/-- A history from a given state: the state reached and the result of every call.  For ordered_map.h 56-399 and ordered_set.h 58-338. -/
def run (lt : κ → κ → Bool) (dflt : ν) : State κ ν → List (Op κ ν) → Option (State κ ν × List (Out ν))
  | s, [] => some (s, [])
  | s, op :: ops =>
    match step lt dflt s op with
    | none => none
    | some r => (run lt dflt r.1 ops).map (fun q => (q.1, r.2 :: q.2))

end
end Verif.OrderedMap
