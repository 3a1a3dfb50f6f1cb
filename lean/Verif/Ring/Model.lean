/-
Model of `BithreadCircularBuffer` (/repo/stingraykit/io/BithreadCircularBuffer.{h,cpp}).

Simplifications: bytes are elements of an arbitrary type `α`; `size_t` is `Nat` (subtractions are shown not to underflow by the
invariant); a `ByteData` window is represented by its offset and length inside the storage.
The buffer is used by one writer and one reader thread. The code touching the offsets (`Push`, `Pop`, `Read`, `Write`) runs under
the owner's lock (see SharedCircularBuffer.h), but the bytes are copied into / out of the windows outside of it: therefore obtaining
a window, filling it, and pushing are separate steps which interleave arbitrarily with the reader's steps.
-/
namespace Verif.Ring

/-- `BithreadCircularBuffer::Impl`, BithreadCircularBuffer.cpp:18-21. -/
structure Ring (α : Type) where
  storage : List α
  writeOffset : Nat
  readOffset : Nat
  contiguous : Bool
  deriving DecidableEq

section
variable {α : Type}

/-- The bytes `[off, off + n)` of the storage.  For BithreadCircularBuffer.cpp 18-234. -/
def slice (l : List α) (off n : Nat) : List α := (l.drop off).take n

/-- Copying `data` into the storage at `off` (the caller ensures that it fits).  For BithreadCircularBuffer.cpp 18-234. -/
def splice (l : List α) (off : Nat) (data : List α) : List α := l.take off ++ data ++ l.drop (off + data.length)

namespace Ring

/-- Constructor, BithreadCircularBuffer.cpp:24-28. -/
def create (storage : List α) : Ring α := ⟨storage, 0, 0, true⟩

/-- `GetStorageSize`, 39-40.  Of BithreadCircularBuffer.cpp 18-234. -/
def storageSize (r : Ring α) : Nat := r.storage.length

/-- `GetDataSize`, 31-32.  Of BithreadCircularBuffer.cpp 18-234. -/
def dataSize (r : Ring α) : Nat :=
  if r.contiguous then r.writeOffset - r.readOffset else r.storageSize - r.readOffset + r.writeOffset

/-- `GetFreeSize`, 35-36.  Of BithreadCircularBuffer.cpp 18-234. -/
def freeSize (r : Ring α) : Nat := r.storageSize - r.dataSize

/-- Size of the window returned by `Write`, 47-51; it starts at `_writeOffset`.  Of BithreadCircularBuffer.cpp 18-234. -/
def writeSize (r : Ring α) : Nat :=
  if r.contiguous then r.storageSize - r.writeOffset else r.readOffset - r.writeOffset

/-- `Push`, 54-64, without the check (also `CircularBufferBase::DoPush`, CircularBufferBase.h:70-76). -/
def advanceWrite (r : Ring α) (n : Nat) : Ring α :=
  if r.writeOffset + n = r.storageSize then { r with writeOffset := 0, contiguous := !r.contiguous }
  else { r with writeOffset := r.writeOffset + n }

/-- `Push`, 54-64; `none`: `IndexOutOfRangeException` at line 56.  Of BithreadCircularBuffer.cpp 18-234. -/
def push (r : Ring α) (n : Nat) : Option (Ring α) :=
  if r.writeOffset + n ≤ r.storageSize then some (r.advanceWrite n) else none

/-- Size of the window returned by `Read`, 67-71; it starts at `_readOffset`.  Of BithreadCircularBuffer.cpp 18-234. -/
def readSize (r : Ring α) : Nat :=
  if r.contiguous then r.writeOffset - r.readOffset else r.storageSize - r.readOffset

/-- `Pop`, 74-84, without the check (also `CircularBufferBase::DoPop`, CircularBufferBase.h:79-88). -/
def advanceRead (r : Ring α) (n : Nat) : Ring α :=
  if r.readOffset + n = r.storageSize then { r with readOffset := 0, contiguous := !r.contiguous }
  else { r with readOffset := r.readOffset + n }

/-- `Pop`, 74-84; `none`: `IndexOutOfRangeException` at line 76.  Of BithreadCircularBuffer.cpp 18-234. -/
def pop (r : Ring α) (n : Nat) : Option (Ring α) :=
  if r.readOffset + n ≤ r.storageSize then some (r.advanceRead n) else none

/-- `Clear`, 87-92.  Of BithreadCircularBuffer.cpp 18-234. -/
def clear (r : Ring α) : Ring α := { r with writeOffset := 0, readOffset := 0, contiguous := true }

end Ring

/-- One writer and one reader using the buffer. `writer`: offset and length of the window obtained from `Write()` and the bytes
copied to its start so far; `reader`: offset and length of the window obtained from `Read()`.  For BithreadCircularBuffer.cpp 18-234. -/
structure Sys (α : Type) where
  ring : Ring α
  writer : Option (Nat × Nat × List α)
  reader : Option (Nat × Nat)

/-- The state after construction, BithreadCircularBuffer.cpp 18-234. -/
def Sys.create (storage : List α) : Sys α := ⟨Ring.create storage, none, none⟩

/-- The calls, BithreadCircularBuffer.cpp 18-234. -/
inductive Op (α : Type)
  /-- `Writer w = buffer.Write()` -/
  | startWrite
  /-- copy bytes into the window -/
  | fill (data : List α)
  /-- `w.Push(n)` -/
  | push (n : Nat)
  /-- `Reader r = buffer.Read()` -/
  | startRead
  /-- copy the first `n` bytes out of the window, then `r.Pop(n)` -/
  | pop (n : Nat)
  | clear
  deriving DecidableEq

/-- Why a step did not happen: the user broke the protocol, or a `STINGRAYKIT_CHECK` failed.  For BithreadCircularBuffer.cpp 18-234. -/
inductive Fail
  | misuse
  | check
  deriving DecidableEq

/-- Observable outcome of a step.  For BithreadCircularBuffer.cpp 18-234. -/
inductive Out (α : Type)
  /-- size of the write window -/
  | window (n : Nat)
  /-- bytes seen in the read window / copied out before the pop -/
  | bytes (b : List α)
  | done
  deriving DecidableEq

/-- A call with its result, in the histories of BithreadCircularBuffer.cpp 18-234. -/
structure Event (α : Type) where
  op : Op α
  out : Out α
  dataSize : Nat
  freeSize : Nat
  deriving DecidableEq

/-- One step of the system. Protocol obligations of the user (else `misuse`): a window is obtained before it is filled, pushed or
popped; no more bytes are filled than the window holds; no more are pushed than filled; no more are popped than the window holds;
`Clear` only while no window is outstanding.  For BithreadCircularBuffer.cpp 18-234. -/
def step (s : Sys α) : Op α → Except Fail (Sys α × Out α)
  | .startWrite =>
    match s.writer with
    | some _ => .error .misuse
    | none => .ok ({ s with writer := some (s.ring.writeOffset, s.ring.writeSize, []) }, .window s.ring.writeSize)
  | .fill data =>
    match s.writer with
    | none => .error .misuse
    | some (off, len, _) =>
      if data.length ≤ len then
        .ok ({ s with ring := { s.ring with storage := splice s.ring.storage off data }, writer := some (off, len, data) }, .done)
      else .error .misuse
  | .push n =>
    match s.writer with
    | none => .error .misuse
    | some (_, _, filled) =>
      if n ≤ filled.length then
        match s.ring.push n with
        | none => .error .check
        | some r => .ok ({ s with ring := r, writer := none }, .done)
      else .error .misuse
  | .startRead =>
    match s.reader with
    | some _ => .error .misuse
    | none => .ok ({ s with reader := some (s.ring.readOffset, s.ring.readSize) },
        .bytes (slice s.ring.storage s.ring.readOffset s.ring.readSize))
  | .pop n =>
    match s.reader with
    | none => .error .misuse
    | some (off, len) =>
      if n ≤ len then
        match s.ring.pop n with
        | none => .error .check
        | some r => .ok ({ s with ring := r, reader := none }, .bytes (slice s.ring.storage off n))
      else .error .misuse
  | .clear =>
    match s.writer, s.reader with
    | none, none => .ok ({ s with ring := s.ring.clear }, .done)
    | _, _ => .error .misuse

/-- One step after another, for histories of BithreadCircularBuffer.cpp 18-234. -/
def runFrom (s : Sys α) : List (Op α) → Except Fail (Sys α × List (Event α))
  | [] => .ok (s, [])
  | op :: ops =>
    match step s op with
    | .error e => .error e
    | .ok (s', out) =>
      match runFrom s' ops with
      | .error e => .error e
      | .ok (s'', t) => .ok (s'', ⟨op, out, s'.ring.dataSize, s'.ring.freeSize⟩ :: t)

/-- Observable trace of a history on a fresh buffer over the given storage.  For BithreadCircularBuffer.cpp 18-234. -/
def run (storage : List α) (ops : List (Op α)) : Except Fail (List (Event α)) :=
  match runFrom (Sys.create storage) ops with
  | .error e => .error e
  | .ok (_, t) => .ok t

end
end Verif.Ring
