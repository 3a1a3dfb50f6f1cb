/-
Model of `ReadAll`, `CheckedReadAll`, `ReadToEnd` (stingraykit/io/IInputByteStream.h 27-73) and `WriteAll`, `CheckedWriteAll`
(stingraykit/io/IOutputByteStream.h 27-48) for streams and tokens of any kind.

A stream is a state with a `Read` and a `Write`; both may do less than they are asked for, and may throw.  Time is counted in looks at the token
and calls of the stream, so that the token may be cancelled between any two of them.  Fuel (the number of rounds) is bounded by the size of the data
in `readAll` and `writeAll`, and is a parameter in `readToEnd`, which does not end on an endless stream.
-/
namespace Verif.Stream.All

/-- A stream and a token, IInputByteStream.h 18-23, IOutputByteStream.h 18-23.  `none`: the call throws. -/
structure Env (σ : Type) where
  /-- `Read(data, token)` at some time, of a stream in some state, for so many bytes: the bytes put into `data` -/
  read : Nat → σ → Nat → Option (List Nat × σ)
  /-- `Write(data, token)`: the number it returns -/
  write : Nat → σ → List Nat → Option (Nat × σ)
  cancelled : Nat → Bool
  timedOut : Nat → Bool

/-- What a call ends with, IInputByteStream.h 43-48 and 52-73. -/
inductive Out (α : Type) where
  | ok (a : α)
  /-- an exception of the stream -/
  | thrown
  | operationCancelled
  | timeout
  | inputOutput (done : Nat)
  | argument
  /-- out of fuel -/
  | stuck
  deriving DecidableEq

/-- What `ReadAll` has reached: time, stream, the buffer, the number of bytes.  IInputByteStream.h 30-31. -/
structure Got (σ : Type) where
  time : Nat
  stream : σ
  buffer : List Nat
  total : Nat
  deriving DecidableEq

/-- `if (token)`, ICancellationToken.h 41 (not cancelled and not timed out). -/
def Env.alive {σ : Type} (E : Env σ) (t : Nat) : Bool := !E.cancelled t && !E.timedOut t

/-- Bytes written into a buffer at an offset, as `Read` does with IInputByteStream.h 34 `ByteData(data, total)`. -/
def put (buffer : List Nat) (off : Nat) (c : List Nat) : List Nat := buffer.take off ++ c ++ buffer.drop (off + c.length)

/-- The loop of `ReadAll`, IInputByteStream.h 32-36.  `last`: `readed`. -/
def readLoop {σ : Type} (E : Env σ) : Nat → Nat → σ → List Nat → Nat → Option Nat → Out (Got σ)
  | 0, _, _, _, _, _ => .stuck
  | m + 1, t, s, buffer, total, last =>
    if E.alive t ∧ total < buffer.length ∧ last ≠ some 0 then
      match E.read (t + 1) s (buffer.length - total) with
      | none => .thrown
      | some (c, s') => readLoop E m (t + 2) s' (put buffer total c) (total + c.length) (some c.length)
    else .ok ⟨t + 1, s, buffer, total⟩

/-- `ReadAll`, IInputByteStream.h 28-39. -/
def readAll {σ : Type} (E : Env σ) (t : Nat) (s : σ) (buffer : List Nat) : Out (Got σ) := readLoop E (buffer.length + 2) t s buffer 0 none

/-- `STINGRAYKIT_CHECK_CANCELLATION`, ICancellationToken.h 51-55. -/
def check {σ α : Type} (E : Env σ) (t : Nat) (a : Out α) : Out α :=
  if E.cancelled t then .operationCancelled else if E.timedOut (t + 1) then .timeout else a

/-- `CheckedReadAll`, IInputByteStream.h 43-48: the buffer afterwards. -/
def checkedReadAll {σ : Type} (E : Env σ) (t : Nat) (s : σ) (buffer : List Nat) : Out (σ × List Nat) :=
  match readAll E t s buffer with
  | .ok g => check E g.time (if g.total = buffer.length then .ok (g.stream, g.buffer) else .inputOutput g.total)
  | .thrown => .thrown
  | _ => .stuck

/-- The loop of `ReadToEnd`, IInputByteStream.h 59-72.  `RequireSize` keeps the bytes, ByteData.h 211-216. -/
def toEndLoop {σ : Type} (E : Env σ) : Nat → Nat → σ → List Nat → Nat → Out (σ × List Nat)
  | 0, _, _, _, _ => .stuck
  | m + 1, t, s, buffer, offset =>
    if E.alive t then
      match readAll E (t + 1) s (buffer.drop offset) with
      | .ok g =>
        if g.total = (buffer.drop offset).length then
          toEndLoop E m g.time g.stream (buffer.take offset ++ g.buffer ++ List.replicate buffer.length 0) (offset + g.total)
        else check E g.time (.ok (g.stream, (buffer.take offset ++ g.buffer).take (offset + g.total)))
      | .thrown => .thrown
      | _ => .stuck
    else check E (t + 1) (.ok (s, buffer.take offset))

/-- `ReadToEnd`, IInputByteStream.h 52-73. -/
def readToEnd {σ : Type} (E : Env σ) (fuel : Nat) (t : Nat) (s : σ) (initialSize : Nat) : Out (σ × List Nat) :=
  if initialSize = 0 then .argument else toEndLoop E fuel t s (List.replicate initialSize 0) 0

/-- The loop of `WriteAll`, IOutputByteStream.h 32-36: time, stream, total. -/
def writeLoop {σ : Type} (E : Env σ) (data : List Nat) : Nat → Nat → σ → Nat → Option Nat → Out (Nat × σ × Nat)
  | 0, _, _, _, _ => .stuck
  | m + 1, t, s, total, last =>
    if E.alive t ∧ total < data.length ∧ last ≠ some 0 then
      match E.write (t + 1) s (data.drop total) with
      | none => .thrown
      | some (n, s') => writeLoop E data m (t + 2) s' (total + n) (some n)
    else .ok (t + 1, s, total)

/-- `WriteAll`, IOutputByteStream.h 28-39. -/
def writeAll {σ : Type} (E : Env σ) (t : Nat) (s : σ) (data : List Nat) : Out (Nat × σ × Nat) := writeLoop E data (data.length + 2) t s 0 none

/-- `CheckedWriteAll`, IOutputByteStream.h 43-48. -/
def checkedWriteAll {σ : Type} (E : Env σ) (t : Nat) (s : σ) (data : List Nat) : Out σ :=
  match writeAll E t s data with
  | .ok (t', s', n) => check E t' (if n = data.length then .ok s' else .inputOutput n)
  | .thrown => .thrown
  | _ => .stuck

end Verif.Stream.All
