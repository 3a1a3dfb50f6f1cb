import Verif.Common
/-
Model of `bimap<left_collection_type, right_collection_type>` (stingraykit/collection/bimap.h) over `std::map`s. A map is the list of its entries
(at most one per key; order not used).
-/
namespace Verif.Bimap

section
variable {α β : Type} [DecidableEq α] [DecidableEq β]

/-- `std::map::find`.  For bimap.h 20-76. -/
def mfind (m : List (α × β)) (k : α) : Option β := (m.find? (fun e => decide (e.1 = k))).map (·.2)

/-- `std::map::insert`: does nothing if the key is present.  For bimap.h 20-76. -/
def minsert (m : List (α × β)) (k : α) (v : β) : List (α × β) := if (mfind m k).isSome then m else m ++ [(k, v)]

/-- `std::map::erase(key)`.  For bimap.h 20-76. -/
def merase (m : List (α × β)) (k : α) : List (α × β) := m.filter (fun e => decide (e.1 ≠ k))

/-- bimap.h:20, 71-72. -/
structure State (α β : Type) where
  left : List (α × β)
  right : List (β × α)
  deriving DecidableEq, Repr

/-- The calls, bimap.h 20-76. -/
inductive Op (α β : Type) where
  | leftInsert (k : α) (v : β)
  | rightInsert (v : β) (k : α)
  | leftErase (k : α)
  | rightErase (v : β)
  | leftFind (k : α)
  | rightFind (v : β)
  | size
  | clear
  deriving DecidableEq, Repr

/-- What a call returns, bimap.h 20-76. -/
inductive Out (α β : Type) where
  | unit
  | left (k : Option α)
  | right (v : Option β)
  | num (n : Nat)
  deriving DecidableEq, Repr

/-- `left_insert`: bimap.h:46-50. -/
def leftInsert (s : State α β) (k : α) (v : β) : State α β := ⟨minsert s.left k v, minsert s.right v k⟩
/-- `right_insert`: bimap.h:46-50. -/
def rightInsert (s : State α β) (v : β) (k : α) : State α β := ⟨minsert s.left k v, minsert s.right v k⟩

/-- `left_erase(key)`: bimap.h:52-66. -/
def leftErase (s : State α β) (k : α) : State α β :=
  match mfind s.left k with
  | none => s
  | some v => ⟨merase s.left k, merase s.right v⟩

/-- `right_erase(key)`: bimap.h:52-66. -/
def rightErase (s : State α β) (v : β) : State α β :=
  match mfind s.right v with
  | none => s
  | some k => ⟨merase s.left k, merase s.right v⟩

/-- One call (bimap.h:40-66, 74-76). -/
def step (s : State α β) : Op α β → State α β × Out α β
  | .leftInsert k v => (leftInsert s k v, .unit)
  | .rightInsert v k => (rightInsert s v k, .unit)
  | .leftErase k => (leftErase s k, .unit)
  | .rightErase v => (rightErase s v, .unit)
  | .leftFind k => (s, .right (mfind s.left k))
  | .rightFind v => (s, .left (mfind s.right v))
  | .size => (s, .num s.left.length)
  | .clear => (⟨[], []⟩, .unit)

/-- One step after another, for histories of bimap.h 20-76. -/
def run : State α β → List (Op α β) → State α β × List (Out α β)
  | s, [] => (s, [])
  | s, op :: ops => ((run (step s op).1 ops).1, (step s op).2 :: (run (step s op).1 ops).2)

end
end Verif.Bimap
