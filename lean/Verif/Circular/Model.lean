import Verif.Ring.Model
/-
Model of `CircularBufferBase` / `MemoryCircularBuffer` (/repo/stingraykit/io/CircularBufferBase.h, MemoryCircularBuffer.h).

Simplifications: bytes are elements of an arbitrary type; `size_t` is `Nat`; logging is dropped; every public call holds `_mutex`
(lines 92, 157, 181, 206), so a history is a sequence of calls. The offsets, the wrap flag and the storage are the record `Ring`
of Verif/Ring/Model.lean (fields 41, 42, 44).
-/
namespace Verif.Circular
open Verif.Ring

/-- `CircularBufferBase<DiscardOnOverflow>`, CircularBufferBase.h:29-46. -/
structure Circ (α : Type) where
  ring : Ring α
  locked : Nat
  discard : Bool
  deriving DecidableEq

/-- Failures which the caller sees as exceptions (nothing is changed), and undefined behaviour.  For CircularBufferBase.h 29-120. -/
inductive Fail
  /-- `BufferIsFullException`, line 62 -/
  | full
  /-- `STINGRAYKIT_CHECK(_lockedDataSize == 0)`, lines 55 and 158 -/
  | locked
  /-- `memcpy` outside of the storage, MemoryCircularBuffer.h:36 -/
  | ub
  deriving DecidableEq

namespace Circ
variable {α : Type}

/-- Constructors, CircularBufferBase.h:119-120, MemoryCircularBuffer.h:45. -/
def create (discard : Bool) (storage : List α) : Circ α := ⟨Ring.create storage, 0, discard⟩

/-- `GetSize`, 149-150.  Of CircularBufferBase.h 29-120. -/
def getSize (c : Circ α) : Nat :=
  if c.ring.contiguous then c.ring.writeOffset - c.ring.readOffset else c.ring.storageSize - c.ring.readOffset + c.ring.writeOffset

/-- `GetFreeSize`, 152-153.  Of CircularBufferBase.h 29-120. -/
def getFree (c : Circ α) : Nat :=
  if c.ring.contiguous then c.ring.storageSize - c.ring.writeOffset + c.ring.readOffset else c.ring.readOffset - c.ring.writeOffset

/-- `GetAllData`, 125-147.  Of CircularBufferBase.h 29-120. -/
def getAllData (c : Circ α) : List α :=
  if c.ring.contiguous then slice c.ring.storage c.ring.readOffset (c.ring.writeOffset - c.ring.readOffset)
  else slice c.ring.storage c.ring.readOffset (c.ring.storageSize - c.ring.readOffset) ++ slice c.ring.storage 0 c.ring.writeOffset

/-- `DoPush`, 67-77, with `WriteToStorage` of MemoryCircularBuffer.h:33-37. -/
def doPush (r : Ring α) (data : List α) : Except Fail (Ring α) :=
  if r.writeOffset + data.length ≤ r.storageSize then
    .ok ({ r with storage := splice r.storage r.writeOffset data }.advanceWrite data.length)
  else .error .ub

/-- `ReleaseData`, 90-116 (`DoPop`, 79-88, is `advanceRead`).  Of CircularBufferBase.h 29-120. -/
def releaseData (c : Circ α) (size : Nat) : Circ α :=
  if c.ring.contiguous || decide (size ≤ c.ring.storageSize - c.ring.readOffset) then
    { c with ring := c.ring.advanceRead size, locked := 0 }
  else
    { c with ring := (c.ring.advanceRead (c.ring.storageSize - c.ring.readOffset)).advanceRead (size - (c.ring.storageSize - c.ring.readOffset)), locked := 0 }

/-- `CheckDataSize`, 48-65: the buffer after the discarding and the data to push.  Of CircularBufferBase.h 29-120. -/
def checkDataSize (c : Circ α) (data : List α) : Except Fail (Circ α × List α) :=
  if c.getFree < data.length then
    if c.discard then
      if c.locked = 0 then
        .ok (c.releaseData (min data.length c.ring.storageSize - c.getFree), data.drop (data.length - min data.length c.ring.storageSize))
      else .error .locked
    else .error .full
  else .ok (c, data)

/-- `Push`, 188-195.  Of CircularBufferBase.h 29-120. -/
def pushChecked (c : Circ α) (data : List α) : Except Fail (Circ α) :=
  if c.ring.contiguous && decide (c.ring.storageSize - c.ring.writeOffset < data.length) then
    match doPush c.ring (data.take (c.ring.storageSize - c.ring.writeOffset)) with
    | .error e => .error e
    | .ok r =>
      match doPush r (data.drop (c.ring.storageSize - c.ring.writeOffset)) with
      | .error e => .error e
      | .ok r' => .ok { c with ring := r' }
  else
    match doPush c.ring data with
    | .error e => .error e
    | .ok r => .ok { c with ring := r }

/-- `Push`, 179-202.  Of CircularBufferBase.h 29-120. -/
def push (c : Circ α) (data : List α) : Except Fail (Circ α) :=
  match c.checkDataSize data with
  | .error e => .error e
  | .ok (c', d) => c'.pushChecked d

/-- `Pop`, 155-177: the buffer and the offset and size of the reserved data.  Of CircularBufferBase.h 29-120. -/
def pop (c : Circ α) (size : Nat) : Except Fail (Circ α × Nat × Nat) :=
  if c.locked = 0 then
    if c.ring.contiguous then
      .ok ({ c with locked := min size (c.ring.writeOffset - c.ring.readOffset) }, c.ring.readOffset, min size (c.ring.writeOffset - c.ring.readOffset))
    else
      .ok ({ c with locked := min size (c.ring.storageSize - c.ring.readOffset) }, c.ring.readOffset, min size (c.ring.storageSize - c.ring.readOffset))
  else .error .locked

/-- `Clear`, 204-223.  Of CircularBufferBase.h 29-120. -/
def clear (c : Circ α) : Circ α :=
  if c.ring.readOffset + c.locked < c.ring.storageSize then
    { c with ring := { c.ring with writeOffset := c.ring.readOffset + c.locked } }
  else
    { c with ring := { c.ring with writeOffset := c.ring.readOffset + c.locked - c.ring.storageSize } }

end Circ

/-- A buffer and its user, who holds at most one `CircularDataReserver` (ICircularBuffer.h:30-49): offset and size of its data. -/
structure Sys (α : Type) where
  circ : Circ α
  held : Option (Nat × Nat)
  deriving DecidableEq

/-- The calls, CircularBufferBase.h 29-120. -/
inductive Op (α : Type)
  | push (data : List α)
  /-- `reserver = Pop(size)` -/
  | pop (size : Nat)
  /-- look at the data of the reserver and destroy it -/
  | release
  deriving DecidableEq

/-- What a call returns, CircularBufferBase.h 29-120. -/
inductive Out (α : Type)
  | done
  | bytes (b : List α)
  | failed (e : Fail)
  deriving DecidableEq

/-- A call with its result, in the histories of CircularBufferBase.h 29-120. -/
structure Event (α : Type) where
  op : Op α
  out : Out α
  size : Nat
  free : Nat
  all : List α
  deriving DecidableEq

section
variable {α : Type}

/-- One call; `none`: the user broke the protocol (reserve while holding an *empty* reserver, release without reserver).  For CircularBufferBase.h 29-120. -/
def step (s : Sys α) : Op α → Option (Sys α × Out α)
  | .push d =>
    match s.circ.push d with
    | .error e => some (s, .failed e)
    | .ok c => some ({ s with circ := c }, .done)
  | .pop n =>
    match s.held with
    | some (_, 0) => none
    | some (off, len + 1) =>
      match s.circ.pop n with
      | .error e => some (s, .failed e)
      | .ok (c, off', len') => some (⟨c, some (off', len')⟩, .bytes (slice c.ring.storage off' len'))
    | none =>
      match s.circ.pop n with
      | .error e => some (s, .failed e)
      | .ok (c, off', len') => some (⟨c, some (off', len')⟩, .bytes (slice c.ring.storage off' len'))
  | .release =>
    match s.held with
    | none => none
    | some (off, len) => some (⟨s.circ.releaseData len, none⟩, .bytes (slice s.circ.ring.storage off len))

/-- One step after another, for histories of CircularBufferBase.h 29-120. -/
def runFrom (s : Sys α) : List (Op α) → Option (Sys α × List (Event α))
  | [] => some (s, [])
  | op :: ops =>
    match step s op with
    | none => none
    | some (s', out) =>
      match runFrom s' ops with
      | none => none
      | some (s'', t) => some (s'', ⟨op, out, s'.circ.getSize, s'.circ.getFree, s'.circ.getAllData⟩ :: t)

/-- A history on a fresh buffer: final state and observable trace.  For CircularBufferBase.h 29-120. -/
def run (discard : Bool) (storage : List α) (ops : List (Op α)) : Option (Sys α × List (Event α)) :=
  runFrom ⟨Circ.create discard storage, none⟩ ops

end
end Verif.Circular
