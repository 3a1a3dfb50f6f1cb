import Verif.Cache.Model
/-
Model of `TwoQueueCache`: /repo/stingraykit/collection/TwoQueueCache.h, on top of the `QueueCache` model.
The signal connections made in the constructor (44-46) are synchronous calls: each pair evicted from `_inQueue` is `Set` into
`_outQueue`; what `_outQueue` and `_hotCache` evict is reported to the user. Handlers of the user do not call back.
-/
namespace Verif.TwoQueue
open Verif.Cache

section
variable {K V : Type} [DecidableEq K]

/-- TwoQueueCache.h:29-36. -/
structure State (K V : Type) where
  inQueue : Cache.State K V
  outQueue : Cache.State K V
  hot : Cache.State K V

/-- Constructor, TwoQueueCache.h:39-47. -/
def init (capIn capOut capHot : Nat) : State K V :=
  { inQueue := Cache.init capIn, outQueue := Cache.init capOut, hot := Cache.init capHot }

/-- The handler connected at line 44, run for every pair evicted from `_inQueue`, and line 45 for what it evicts in turn.  Of TwoQueueCache.h 29-82. -/
def spill (sm : V → Nat) (out : Cache.State K V) : List (K × V) → Option (Cache.State K V × List (K × V))
  | [] => some (out, [])
  | (k, v) :: rest =>
    match Cache.set sm out k v with
    | none => none
    | some (out', ev) =>
      match spill sm out' rest with
      | none => none
      | some (out'', ev') => some (out'', ev ++ ev')

/-- `TryGet`, TwoQueueCache.h:49-61. Third component: pairs reported through `OnEvicted`. -/
def tryGet (sm : V → Nat) (s : State K V) (k : K) : Option (State K V × Option V × List (K × V)) :=
  match Cache.tryGet .lru s.hot k with
  | (hot', some v) => some ({ s with hot := hot' }, some v, [])
  | (hot', none) =>
    match Cache.tryGet .fifo s.inQueue k with
    | (in', some v) => some ({ s with hot := hot', inQueue := in' }, some v, [])
    | (in', none) =>
      match Cache.tryGet .fifo s.outQueue k with
      | (out', none) => some ({ s with hot := hot', inQueue := in', outQueue := out' }, none, [])
      | (out', some v) =>
        match Cache.remove sm out' k with
        | none => none
        | some (out'', _) =>
          match Cache.set sm hot' k v with
          | none => none
          | some (hot'', ev) => some ({ s with hot := hot'', inQueue := in', outQueue := out'' }, some v, ev)

/-- `Set`, TwoQueueCache.h:63-69. -/
def set (sm : V → Nat) (s : State K V) (k : K) (v : V) : Option (State K V × List (K × V)) :=
  match Cache.remove sm s.hot k with
  | none => none
  | some (hot', removed) =>
    match (if removed then some s.outQueue else (Cache.remove sm s.outQueue k).map (·.1)) with
    | none => none
    | some out' =>
      match Cache.set sm s.inQueue k v with
      | none => none
      | some (in', spilled) =>
        match spill sm out' spilled with
        | none => none
        | some (out'', ev) => some ({ s with hot := hot', inQueue := in', outQueue := out'' }, ev)

/-- `Remove`, TwoQueueCache.h:71-72. -/
def remove (sm : V → Nat) (s : State K V) (k : K) : Option (State K V × Bool) :=
  match Cache.remove sm s.hot k with
  | none => none
  | some (hot', true) => some ({ s with hot := hot' }, true)
  | some (hot', false) =>
    match Cache.remove sm s.outQueue k with
    | none => none
    | some (out', true) => some ({ s with hot := hot', outQueue := out' }, true)
    | some (out', false) =>
      match Cache.remove sm s.inQueue k with
      | none => none
      | some (in', b) => some ({ s with hot := hot', outQueue := out', inQueue := in' }, b)

/-- `Clear`, TwoQueueCache.h:74-79. -/
def clear (s : State K V) : State K V :=
  { s with hot := Cache.clear s.hot, outQueue := Cache.clear s.outQueue, inQueue := Cache.clear s.inQueue }

/-- `GetSize`, TwoQueueCache.h:81-82. -/
def getSize (s : State K V) : Int := Cache.getSize s.hot + Cache.getSize s.inQueue + Cache.getSize s.outQueue

/-- What the user sees of one call.  For TwoQueueCache.h 29-82. -/
structure Event (K V : Type) where
  op : Op K V
  /-- value obtained (`TryGet`) -/
  result : Option V
  /-- flag returned (`TryGet`, `Remove`) -/
  flag : Bool
  /-- pairs reported through `OnEvicted` during the call -/
  evicted : List (K × V)
  sizeAfter : Int
  deriving DecidableEq

/-- One step, TwoQueueCache.h 29-82. -/
def step (sm : V → Nat) (s : State K V) : Op K V → Option (State K V × Event K V)
  | .set k v => (set sm s k v).map fun r => (r.1, ⟨.set k v, none, true, r.2, getSize r.1⟩)
  | .get k => (tryGet sm s k).map fun r => (r.1, ⟨.get k, r.2.1, r.2.1.isSome, r.2.2, getSize r.1⟩)
  | .remove k => (remove sm s k).map fun r => (r.1, ⟨.remove k, none, r.2, [], getSize r.1⟩)
  | .clear => let s' := clear s; some (s', ⟨.clear, none, true, [], getSize s'⟩)

/-- One step after another, for histories of TwoQueueCache.h 29-82. -/
def runFrom (sm : V → Nat) (s : State K V) : List (Op K V) → Option (State K V × List (Event K V))
  | [] => some (s, [])
  | op :: ops =>
    match step sm s op with
    | none => none
    | some (s', e) =>
      match runFrom sm s' ops with
      | none => none
      | some (s'', es) => some (s'', e :: es)

/-- Observable trace of a history on a fresh cache; `none` if an internal check failed.  For TwoQueueCache.h 29-82. -/
def run (sm : V → Nat) (capIn capOut capHot : Nat) (ops : List (Op K V)) : Option (List (Event K V)) :=
  (runFrom sm (init capIn capOut capHot : State K V) ops).map (·.2)

end
end Verif.TwoQueue
