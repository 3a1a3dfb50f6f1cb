import Verif.Common
/-
Models of `RefCounter`, `RefCountingValue`, `RefCountingMap`, `RefCountingSet` (stingraykit/collection/RefCount*.h). The user's callbacks are part of
a call: whether they return or throw. A `std::map` is the list of its entries, at most one per key, order not used. Incrementing a counter is
not wrapped (2^64 references); decrementing zero wraps.
-/
namespace Verif.RefCount

/-- `--x` on a `size_t`.  For RefCountingMap.h 25-155 and RefCountingSet.h 24-98. -/
def dec (n : Nat) : Nat := if n = 0 then 2 ^ 64 - 1 else n - 1

section
variable {κ ν : Type} [DecidableEq κ]

/-- An entry of the map: RefCountingMap.h:25-37 (RefCountingSet.h:24 with ν = Unit). -/
structure Entry (κ ν : Type) where
  key : κ
  refs : Nat
  val : ν
  deriving DecidableEq, Repr

/-- `_impl.find(key)`.  For RefCountingMap.h 25-155 and RefCountingSet.h 24-98. -/
def mfind (m : List (Entry κ ν)) (k : κ) : Option (Entry κ ν) := m.find? (fun e => decide (e.key = k))

/-- The calls, RefCountingMap.h 25-155 and RefCountingSet.h 24-98. -/
inductive Op (κ ν : Type) where
  /-- the callback returns a value, or throws -/
  | add (k : κ) (r : Option ν)
  /-- the callback returns or throws -/
  | erase (k : κ) (ok : Bool)
  /-- the callback never throws -/
  | clear
  deriving DecidableEq, Repr

/-- What a call returns, RefCountingMap.h 25-155 and RefCountingSet.h 24-98. -/
inductive Out (κ ν : Type) where
  /-- was the callback called; the value at the returned iterator, `none` after an exception -/
  | add (called : Bool) (val : Option ν)
  /-- the value the callback was called with; the number returned, `none` after an exception -/
  | erase (called : Option ν) (n : Option Nat)
  /-- the calls of the callback -/
  | clear (calls : List (κ × ν))
  deriving DecidableEq, Repr

/-- Replace the reference count stored with a key.  For RefCountingMap.h 25-155 and RefCountingSet.h 24-98. -/
def setRefs (m : List (Entry κ ν)) (k : κ) (n : Nat) : List (Entry κ ν) := m.map (fun e => if e.key = k then { e with refs := n } else e)

/-- `add(key, doAddFunc)`: RefCountingMap.h:110-121 / RefCountingSet.h:52-64. -/
def add (m : List (Entry κ ν)) (k : κ) (r : Option ν) : List (Entry κ ν) × Out κ ν :=
  match mfind m k with
  | some e => (setRefs m k (e.refs + 1), .add false (some e.val))
  | none => match r with
    | none => (m, .add true none)
    | some v => (m ++ [⟨k, 1, v⟩], .add true (some v))

/-- `erase(key, doRemoveFunc)`: RefCountingMap.h:123-136 / RefCountingSet.h:66-79; `erase(iterator, …)` is the same for a key that is present
(RefCountingMap.h:138-147 / RefCountingSet.h:81-90). -/
def erase (m : List (Entry κ ν)) (k : κ) (ok : Bool) : List (Entry κ ν) × Out κ ν :=
  match mfind m k with
  | none => (m, .erase none (some 0))
  | some e =>
    if 0 < dec e.refs then (setRefs m k (dec e.refs), .erase none (some 1))
    else if ok then (m.filter (fun x => decide (x.key ≠ k)), .erase (some e.val) (some 1))
    else (setRefs m k (dec e.refs), .erase (some e.val) none)

/-- `count(key)`: RefCountingMap.h:104-108 / RefCountingSet.h:46-50. -/
def count (m : List (Entry κ ν)) (k : κ) : Nat :=
  match mfind m k with
  | some e => e.refs
  | none => 0

/-- One call; `clear(doRemoveFunc)`: RefCountingMap.h:149-155 / RefCountingSet.h:92-98. -/
def step (m : List (Entry κ ν)) : Op κ ν → List (Entry κ ν) × Out κ ν
  | .add k r => add m k r
  | .erase k ok => erase m k ok
  | .clear => ([], .clear (m.map (fun e => (e.key, e.val))))

/-- The map after a history.  For RefCountingMap.h 25-155 and RefCountingSet.h 24-98. -/
def after : List (Entry κ ν) → List (Op κ ν) → List (Entry κ ν)
  | m, [] => m
  | m, op :: ops => after (step m op).1 ops

end

section
variable {ν : Type}

/-- `RefCountingValue`: RefCountingValue.h:19-21 (`RefCounter`, RefCounter.h:18-19, with ν = Unit and no stored value). -/
structure Val (ν : Type) where
  refs : Nat
  value : Option ν
  deriving DecidableEq, Repr

/-- The calls, RefCountingMap.h 25-155 and RefCountingSet.h 24-98. -/
inductive VOp (ν : Type) where
  | set (r : Option ν)
  | release (ok : Bool)
  | reset
  deriving DecidableEq, Repr

/-- What a call returns, RefCountingMap.h 25-155 and RefCountingSet.h 24-98. -/
inductive VOut (ν : Type) where
  /-- callback called; the value referred to by the result, `none` after an exception -/
  | set (called : Bool) (val : Option ν)
  /-- the value the callback was called with; the result, `none` after an exception -/
  | release (called : Option ν) (res : Option Bool)
  | reset (called : Option ν)
  /-- dereferencing an empty optional -/
  | broken
  deriving DecidableEq, Repr

/-- One call: `set` RefCountingValue.h:29-37 / RefCounter.h:27-34, `release` 45-58 / 36-46, `reset` (callback not throwing) 60-70 / 48-55. -/
def vstep (s : Val ν) : VOp ν → Val ν × VOut ν
  | .set r =>
    if s.refs = 0 then
      match r with
      | none => (s, .set true none)
      | some v => (⟨1, some v⟩, .set true (some v))
    else match s.value with
      | none => (s, .broken)
      | some v => (⟨s.refs + 1, some v⟩, .set false (some v))
  | .release ok =>
    if s.refs = 0 then (s, .release none (some false))
    else if s.refs - 1 = 0 then
      match s.value with
      | none => (s, .broken)
      | some v => if ok then (⟨0, none⟩, .release (some v) (some true)) else (⟨0, some v⟩, .release (some v) none)
    else (⟨s.refs - 1, s.value⟩, .release none (some true))
  | .reset =>
    if s.refs = 0 then (s, .reset none)
    else match s.value with
      | none => (s, .broken)
      | some v => (⟨0, none⟩, .reset (some v))

/-- The value after a history; a helper of the model of RefCountingMap.h 25-155 and RefCountingSet.h 24-98. -/
def vafter : Val ν → List (VOp ν) → Val ν
  | s, [] => s
  | s, op :: ops => vafter (vstep s op).1 ops

end
end Verif.RefCount
