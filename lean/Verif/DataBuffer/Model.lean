import Verif.Ring.Model
/-
Model of `DataBuffer` = `BufferedDataConsumer` + `BufferedDataSource` over `SharedCircularBuffer`
(/repo/stingraykit/io/DataBuffer.h, BufferedDataConsumer.{h,cpp}, BufferedDataSource.{h,cpp}, SharedCircularBuffer.h).

Every step below is the code between two points at which the buffer mutex is released; steps of the producers, the reader and the
controlling threads interleave arbitrarily.  `Process` is split in three steps (until the unlock, the `memcpy`, the push after relocking),
`Read` in two (until the unlock, after the consumer returned).  `SharedWriteSynchronizer` (SharedCircularBuffer.h:166-218) lets only one
`Process` in at a time: a second one is blocked (step disabled).  A blocking wait is an outcome: the call returns without data after it.

Simplifications: bytes are elements of an arbitrary type, `size_t` is `Nat`; logging dropped; the consumer is an arbitrary environment
whose answer is the parameter of the step `consumed`; its only obligation is not to claim more bytes than it was offered.
-/
namespace Verif.DataBuffer
open Verif.Ring

/-- Constructor parameters, DataBuffer.h:20-33, 42. -/
structure Config where
  inputPacketSize : Nat
  outputPacketSize : Nat
  requiredFreeSpace : Nat
  discardOnOverflow : Bool
  deriving DecidableEq

/-- The checks of the constructors, BufferedDataConsumer.h:42-45, BufferedDataSource.h:31-32. -/
def Config.Valid (c : Config) (storageSize : Nat) : Prop :=
  c.inputPacketSize ≠ 0 ∧ storageSize % c.inputPacketSize = 0 ∧ c.requiredFreeSpace ≤ storageSize ∧
  c.outputPacketSize ≠ 0 ∧ storageSize % c.outputPacketSize = 0

instance (c : Config) (n : Nat) : Decidable (c.Valid n) := by unfold Config.Valid; infer_instance

/-- A `Process` call in its unlocked section: write window, the bytes to store, whether the `memcpy` happened.  For SharedCircularBuffer.h 27-218, BufferedDataConsumer.cpp 18-50 and BufferedDataSource.cpp 16-43. -/
structure Writer (α : Type) where
  offset : Nat
  bytes : List α
  copied : Bool
  deriving DecidableEq

/-- A `Read` call in its unlocked section: read window given to the consumer.  For SharedCircularBuffer.h 27-218, BufferedDataConsumer.cpp 18-50 and BufferedDataSource.cpp 16-43. -/
structure Reader where
  offset : Nat
  size : Nat
  deriving DecidableEq

/-- `SharedCircularBuffer`, SharedCircularBuffer.h:27-36 (`_activeRead`/`_activeWrites` are `reader.isSome`/`writer.isSome`).
`ε`: exceptions. -/
structure Sys (α ε : Type) where
  ring : Ring α
  eod : Bool
  exc : Option ε
  writer : Option (Writer α)
  reader : Option Reader
  deriving DecidableEq

/-- The state after construction, SharedCircularBuffer.h 27-218, BufferedDataConsumer.cpp 18-50 and BufferedDataSource.cpp 16-43. -/
def Sys.create {α ε : Type} (storage : List α) : Sys α ε := ⟨Ring.create storage, false, none, none, none⟩

/-- The calls, SharedCircularBuffer.h 27-218, BufferedDataConsumer.cpp 18-50 and BufferedDataSource.cpp 16-43. -/
inductive Op (α ε : Type)
  /-- `Process(data)` until it returns or unlocks -/
  | process (data : List α)
  /-- `memcpy` -/
  | copy
  /-- `w.Push`, `Process` returns -/
  | pushed
  /-- `Read` until it returns or unlocks -/
  | read
  /-- the consumer returned this value / threw -/
  | consumed (k : Option Nat)
  | endOfData
  | setException (e : ε)
  | clear
  deriving DecidableEq

/-- What a call returns, SharedCircularBuffer.h 27-218, BufferedDataConsumer.cpp 18-50 and BufferedDataSource.cpp 16-43. -/
inductive Out (α ε : Type)
  /-- `Process` returned the size `n` without storing, because the size is not a multiple of the packet size -/
  | misaligned (n : Nat)
  /-- `Process` reported overflow of `n` bytes and returned `n` -/
  | overflow (n : Nat)
  /-- `Process` returned -/
  | returned (n : Nat)
  | inProgress
  /-- bytes offered to the consumer -/
  | offered (b : List α)
  /-- the bytes in the window at the time when the consumer returned -/
  | seen (b : List α)
  | waiting
  /-- `consumer.EndOfData` called -/
  | gotEod
  /-- the stored exception was rethrown -/
  | thrown (e : ε)
  /-- `InvalidOperationException` -/
  | refused
  | done
  deriving DecidableEq

section
variable {α ε : Type}

/-- One step; `none`: not possible in this state (or the consumer claims too much; or a `CHECK` of the underlying buffer fails).  For SharedCircularBuffer.h 27-218, BufferedDataConsumer.cpp 18-50 and BufferedDataSource.cpp 16-43. -/
def step (c : Config) (s : Sys α ε) : Op α ε → Option (Sys α ε × Out α ε)
  -- BufferedDataConsumer.cpp:18-50
  | .process d =>
    match s.writer with
    | some _ => none
    | none =>
      if d.length % c.inputPacketSize ≠ 0 then some (s, .misaligned d.length)
      else if s.eod || s.exc.isSome then some (s, .refused)
      else if s.ring.writeSize / c.inputPacketSize * c.inputPacketSize = 0 ∨ s.ring.freeSize < c.requiredFreeSpace then
        if c.discardOnOverflow then some (s, .overflow d.length) else some (s, .returned 0)
      else
        some ({ s with writer := some ⟨s.ring.writeOffset,
          d.take (min d.length (s.ring.writeSize / c.inputPacketSize * c.inputPacketSize)), false⟩ }, .inProgress)
  -- line 49
  | .copy =>
    match s.writer with
    | some ⟨off, b, false⟩ => some ({ s with ring := { s.ring with storage := splice s.ring.storage off b }, writer := some ⟨off, b, true⟩ }, .done)
    | _ => none
  -- lines 52-55
  | .pushed =>
    match s.writer with
    | some ⟨_, b, true⟩ =>
      match s.ring.push b.length with
      | none => none
      | some r => some ({ s with ring := r, writer := none }, .returned b.length)
    | _ => none
  -- BufferedDataSource.cpp:16-43
  | .read =>
    match s.reader with
    | some _ => some (s, .refused)
    | none =>
      if s.ring.readSize / c.outputPacketSize * c.outputPacketSize = 0 then
        match s.exc with
        | some e => some (s, .thrown e)
        | none => if s.eod then some (s, .gotEod) else some (s, .waiting)
      else
        some ({ s with reader := some ⟨s.ring.readOffset, s.ring.readSize / c.outputPacketSize * c.outputPacketSize⟩ },
          .offered (slice s.ring.storage s.ring.readOffset (s.ring.readSize / c.outputPacketSize * c.outputPacketSize)))
  -- lines 44-57
  | .consumed k =>
    match s.reader with
    | none => none
    | some ⟨off, n⟩ =>
      match k with
      | none => some ({ s with reader := none }, .seen (slice s.ring.storage off n))
      | some k =>
        if n < k then none
        else if k = 0 then some ({ s with reader := none }, .seen (slice s.ring.storage off n))
        else
          match s.ring.pop (if k % c.outputPacketSize ≠ 0 then n else k) with
          | none => none
          | some r => some ({ s with ring := r, reader := none }, .seen (slice s.ring.storage off n))
  -- SharedCircularBuffer.h:77-83
  | .endOfData => if s.exc.isSome then some (s, .refused) else some ({ s with eod := true }, .done)
  -- SharedCircularBuffer.h:85-91
  | .setException e => if s.eod then some (s, .refused) else some ({ s with exc := some e }, .done)
  -- SharedCircularBuffer.h:93-103
  | .clear =>
    if s.reader.isSome || s.writer.isSome then some (s, .refused)
    else some ({ s with ring := s.ring.clear, eod := false, exc := none }, .done)

/-- A call with its result, in the histories of SharedCircularBuffer.h 27-218, BufferedDataConsumer.cpp 18-50 and BufferedDataSource.cpp 16-43. -/
structure Event (α ε : Type) where
  op : Op α ε
  out : Out α ε
  /-- `GetDataSize()` after the step -/
  dataSize : Nat
  /-- `HasEndOfDataOrException()` after the step -/
  finished : Bool
  deriving DecidableEq

/-- One step after another, for histories of SharedCircularBuffer.h 27-218, BufferedDataConsumer.cpp 18-50 and BufferedDataSource.cpp 16-43. -/
def runFrom (c : Config) (s : Sys α ε) : List (Op α ε) → Option (Sys α ε × List (Event α ε))
  | [] => some (s, [])
  | op :: ops =>
    match step c s op with
    | none => none
    | some (s', out) =>
      match runFrom c s' ops with
      | none => none
      | some (s'', t) => some (s'', ⟨op, out, s'.ring.dataSize, s'.eod || s'.exc.isSome⟩ :: t)

/-- One step after another, for histories of SharedCircularBuffer.h 27-218, BufferedDataConsumer.cpp 18-50 and BufferedDataSource.cpp 16-43. -/
def run (c : Config) (storage : List α) (ops : List (Op α ε)) : Option (Sys α ε × List (Event α ε)) :=
  runFrom c (Sys.create storage) ops

end
end Verif.DataBuffer
