import Verif.Common
/-
Model of `DataJoiner` and `DataJoinerIterator` (stingraykit/collection/DataJoiner.h): a non-empty tuple of byte containers presented as one sequence.
An iterator is the index of a container and a position in it. `ForIf` (metaprogramming) calls the functor for index 0, 1, … while it returns true and
returns true if all calls did. `difference_type` is `Int` (no overflow: the theorems bound sizes and movements), conversion to `size_t` wraps.
-/
namespace Verif.Joiner

section
variable {α : Type}

/-- The variant `_iterator`: DataJoiner.h:65, 77. -/
structure It where
  which : Nat
  off : Nat
  deriving DecidableEq, Repr

/-- `GetDistanceFromBegin`: DataJoiner.h:148-171; `none` is the exception "Unknown index!". -/
def getDist : List (List α) → Nat → It → Option Nat
  | [], _, _ => none
  | c :: cs, i, it => if it.which ≠ i then (getDist cs (i + 1) it).map (c.length + ·) else some it.off

/-- The loop of `SetDistanceFromBegin` with `AdvanceFunctor`: DataJoiner.h:173-195; left: what remains of the offset, right: the new iterator. -/
def setDist : List (List α) → Nat → Nat → Nat ⊕ It
  | [], _, diff => .inl diff
  | c :: cs, i, diff => if diff ≥ c.length then setDist cs (i + 1) (diff - c.length) else .inr ⟨i, diff⟩

/-- `CreateEnd`, also used when the offset is the total size: DataJoiner.h:104-108, 198-199. -/
def endIt (parts : List (List α)) : It := ⟨parts.length - 1, (parts.getLastD []).length⟩

/-- `SetDistanceFromBegin`: DataJoiner.h:193-201; `none` is "Offset is too big!". -/
def setDistance (parts : List (List α)) (offset : Nat) : Option It :=
  match setDist parts 0 offset with
  | .inr it => some it
  | .inl 0 => some (endIt parts)
  | .inl (_ + 1) => none

/-- `CreateBegin`: DataJoiner.h:96-102. -/
def beginIt (parts : List (List α)) : Option It := setDistance parts 0

/-- `advance`, also `++`, `--`, `+=`, `-=`, `+`, `-`: DataJoiner.h:88-91 and iterator_base.h:69-123. -/
def advance (parts : List (List α)) (it : It) (d : Int) : Option It :=
  match getDist parts 0 it with
  | none => none
  | some p => setDistance parts (((p : Int) + d) % (2 ^ 64 : Int)).toNat

/-- `distance_to`: DataJoiner.h:92. -/
def distanceTo (parts : List (List α)) (a b : It) : Option Int :=
  match getDist parts 0 b, getDist parts 0 a with
  | some q, some p => some ((q : Int) - p)
  | _, _ => none

/-- `equal`, `operator ==`: DataJoiner.h:86. -/
def equal (parts : List (List α)) (a b : It) : Option Bool := (distanceTo parts a b).map (fun d => decide (d = 0))

/-- `operator <`: iterator_base.h:136. -/
def less (parts : List (List α)) (a b : It) : Option Bool := (distanceTo parts a b).map (fun d => decide (d > 0))

/-- `dereference`: DataJoiner.h:85, 118-122; `none`: no element there (undefined behaviour). -/
def deref (parts : List (List α)) (it : It) : Option α :=
  match parts[it.which]? with
  | none => none
  | some c => c[it.off]?

/-- `size()`: DataJoiner.h:229-234, 245-253. -/
def size : List (List α) → Nat
  | [] => 0
  | c :: cs => c.length + size cs

/-- `ApplyToIntervals(from, to, visitor)` restricted to containers from index `i`: DataJoiner.h:110-145; the list of intervals the visitor is given. -/
def intervals : List (List α) → Nat → It → It → List (List α)
  | [], _, _, _ => []
  | c :: cs, i, a, b =>
    (if a.which ≤ i ∧ i ≤ b.which then
      (if (if a.which = i then a.off else 0) ≠ (if b.which = i then b.off else c.length) then
        [(c.drop (if a.which = i then a.off else 0)).take ((if b.which = i then b.off else c.length) - (if a.which = i then a.off else 0))]
      else [])
    else []) ++ intervals cs (i + 1) a b

/-- A movement of an iterator; after an exception the iterator is unchanged (DataJoiner.h:188, 199 assign only on success). -/
def move (parts : List (List α)) (it : It) (d : Int) : It := (advance parts it d).getD it

/-- A program that moves one iterator.  For DataJoiner.h 65-253. -/
def moves (parts : List (List α)) : It → List Int → It
  | it, [] => it
  | it, d :: ds => moves parts (move parts it d) ds

end
end Verif.Joiner
