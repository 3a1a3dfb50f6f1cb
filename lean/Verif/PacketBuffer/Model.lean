import Verif.Ring.Model
/-
Model of `PacketBuffer` (/repo/stingraykit/io/PacketBuffer.h).

Every step is the code between two points at which `_bufferMutex` is released; steps of producers and of the reader interleave
arbitrarily. `_writeMutex` (line 82) admits one `Process` at a time (step disabled otherwise). One reader thread (the code does not guard
against two). Simplifications: bytes and metadata are elements of arbitrary types, `size_t` is `Nat`; logging dropped; waiting is an outcome.
-/
namespace Verif.PacketBuffer
open Verif.Ring

/-- A packet: bytes and metadata (IDataSource.h:208-223). -/
structure Packet (α μ : Type) where
  data : List α
  metadata : μ
  deriving DecidableEq

/-- `Process` in its unlocked section: write position, packet, whether the `memcpy` happened.  For PacketBuffer.h 36-150. -/
structure Writer (α μ : Type) where
  offset : Nat
  packet : Packet α μ
  copied : Bool
  deriving DecidableEq

/-- `Read` in its unlocked section: position, size and metadata of the packet offered.  For PacketBuffer.h 36-150. -/
structure Reader (μ : Type) where
  offset : Nat
  size : Nat
  metadata : μ
  deriving DecidableEq

/-- Fields, PacketBuffer.h:36-47. -/
structure Sys (α μ : Type) where
  ring : Ring α
  /-- `_packetQueue`: size and metadata -/
  queue : List (Nat × μ)
  padding : Nat
  eod : Bool
  writer : Option (Writer α μ)
  reader : Option (Reader μ)
  deriving DecidableEq

section
variable {α μ : Type}

/-- Constructor, 50-53.  Of PacketBuffer.h 36-150. -/
def Sys.create (storage : List α) : Sys α μ := ⟨Ring.create storage, [], 0, false, none, none⟩

/-- The calls, PacketBuffer.h 36-150. -/
inductive Op (α μ : Type)
  | process (p : Packet α μ)
  | copy
  | pushed
  | read
  | consumed (processed : Bool)
  | endOfData
  | clear
  deriving DecidableEq

/-- What a call returns, PacketBuffer.h 36-150. -/
inductive Out (α μ : Type)
  /-- exception at line 80 -/
  | tooBig
  /-- `Process` returned true without storing (discard on overflow) -/
  | dropped
  /-- waited for room, `Process` returned false; or `Read` waited for data -/
  | waiting
  | inProgress
  /-- `Process` returned true -/
  | accepted
  | offered (p : Packet α μ)
  | seen (b : List α)
  | gotEod
  | done
  deriving DecidableEq

/-- `Writer::IsBufferEnd`, BithreadCircularBuffer.cpp:230-234. -/
def writerAtEnd (r : Ring α) : Bool := r.writeOffset + r.writeSize = r.storageSize

/-- `Reader::IsBufferEnd`, BithreadCircularBuffer.cpp:174-178. -/
def readerAtEnd (r : Ring α) : Bool := r.readOffset + r.readSize = r.storageSize

/-- `padding_size`, line 86.  Of PacketBuffer.h 36-150. -/
def paddingFor (r : Ring α) (n : Nat) : Nat := if r.writeSize < n && writerAtEnd r then r.writeSize else 0

/-- `fuel` iterations of the loop of `Clear`, 62-69.  Of PacketBuffer.h 36-150. -/
def drain : Nat → Ring α → Ring α
  | 0, r => r
  | fuel + 1, r => if r.readSize = 0 then r else drain fuel (r.advanceRead r.readSize)

/-- Skipping the padding, 144-150.  Of PacketBuffer.h 36-150. -/
def skipPadding (s : Sys α μ) : Option (Sys α μ) :=
  if s.ring.readSize = s.padding ∧ readerAtEnd s.ring = true then
    match s.ring.pop s.padding with
    | none => none
    | some r => some { s with ring := r, padding := 0 }
  else some s

/-- One step; `none`: disabled, or a `CHECK` (of the ring, or line 153) failed.  Of PacketBuffer.h 36-150. -/
def step (discard : Bool) (s : Sys α μ) : Op α μ → Option (Sys α μ × Out α μ)
  -- 77-110
  | .process p =>
    if s.ring.storageSize < p.data.length then some (s, .tooBig)
    else
      match s.writer with
      | some _ => none
      | none =>
        if s.ring.freeSize < paddingFor s.ring p.data.length + p.data.length then
          if discard then some (s, .dropped) else some (s, .waiting)
        else if paddingFor s.ring p.data.length ≠ 0 then
          match s.ring.push (paddingFor s.ring p.data.length) with
          | none => none
          | some r => some ({ s with ring := r, padding := paddingFor s.ring p.data.length, writer := some ⟨r.writeOffset, p, false⟩ }, .inProgress)
        else some ({ s with writer := some ⟨s.ring.writeOffset, p, false⟩ }, .inProgress)
  -- 110
  | .copy =>
    match s.writer with
    | some ⟨off, p, false⟩ =>
      some ({ s with ring := { s.ring with storage := splice s.ring.storage off p.data }, writer := some ⟨off, p, true⟩ }, .done)
    | _ => none
  -- 112-118
  | .pushed =>
    match s.writer with
    | some ⟨_, p, true⟩ =>
      match s.ring.push p.data.length with
      | none => none
      | some r => some ({ s with ring := r, queue := s.queue ++ [(p.data.length, p.metadata)], writer := none }, .accepted)
    | _ => none
  -- 128-157
  | .read =>
    match s.reader with
    | some _ => none
    | none =>
      match s.queue with
      | [] => if s.eod then some (s, .gotEod) else some (s, .waiting)
      | (n, md) :: _ =>
        match skipPadding s with
        | none => none
        | some s' =>
          if n ≤ s'.ring.readSize then
            some ({ s' with reader := some ⟨s'.ring.readOffset, n, md⟩ }, .offered ⟨slice s'.ring.storage s'.ring.readOffset n, md⟩)
          else none
  -- 160-165
  | .consumed ok =>
    match s.reader with
    | none => none
    | some ⟨off, n, _⟩ =>
      if ok then
        match s.ring.pop n with
        | none => none
        | some r => some ({ s with ring := r, queue := s.queue.tail, reader := none }, .seen (slice s.ring.storage off n))
      else some ({ s with reader := none }, .seen (slice s.ring.storage off n))
  -- 121-126
  | .endOfData => some ({ s with eod := true }, .done)
  -- 59-75 (not while a `Read` is in its unlocked section: see `clear_during_read_is_ub`)
  | .clear =>
    match s.reader with
    | some _ => none
    | none => some ({ s with ring := drain 2 s.ring, queue := [], padding := 0, eod := false }, .done)

/-- A call with its result, in the histories of PacketBuffer.h 36-150. -/
structure Event (α μ : Type) where
  op : Op α μ
  out : Out α μ
  deriving DecidableEq

/-- One step after another, for histories of PacketBuffer.h 36-150. -/
def runFrom (discard : Bool) (s : Sys α μ) : List (Op α μ) → Option (Sys α μ × List (Event α μ))
  | [] => some (s, [])
  | op :: ops =>
    match step discard s op with
    | none => none
    | some (s', out) =>
      match runFrom discard s' ops with
      | none => none
      | some (s'', t) => some (s'', ⟨op, out⟩ :: t)

/-- One step after another, for histories of PacketBuffer.h 36-150. -/
def run (discard : Bool) (storage : List α) (ops : List (Op α μ)) : Option (Sys α μ × List (Event α μ)) :=
  runFrom discard (Sys.create storage) ops

/-- Is the step blocked or against the protocol (as opposed to failing a check)?.  For PacketBuffer.h 36-150. -/
def disabled (s : Sys α μ) : Op α μ → Bool
  | .process _ => s.writer.isSome
  | .copy => match s.writer with | some ⟨_, _, false⟩ => false | _ => true
  | .pushed => match s.writer with | some ⟨_, _, true⟩ => false | _ => true
  | .read => s.reader.isSome
  | .consumed _ => s.reader.isNone
  | .endOfData => false
  | .clear => s.reader.isSome

end
end Verif.PacketBuffer
