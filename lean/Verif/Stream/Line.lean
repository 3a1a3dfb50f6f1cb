import Verif.Stream.Mem
/-
Models of `ReadLine` (stingraykit/io/IByteStream.h), `PipeReader::ReadLine` (io/PipeReader.cpp) and `BufferedPipe` (io/BufferedPipe.cpp), and property C58.
Characters are their codes: `\n` is 10, `\r` is 13.
-/
namespace Verif.Stream.Line

/-! ## Specification -/
namespace Spec

/-- A line has no line ending inside.  For IByteStream.h 28-60, PipeReader.cpp 27-56 and BufferedPipe.cpp 13-43. -/
def Plain (l : List Nat) : Prop := ∀ c ∈ l, c ≠ 10 ∧ c ≠ 13

/-- `rest` begins with the line `l`, and `tail` is what comes after its terminator: `\n`, `\r\n`, a `\r` not followed by `\n`, or the end of the data.  For IByteStream.h 28-60, PipeReader.cpp 27-56 and BufferedPipe.cpp 13-43. -/
def Split (rest l tail : List Nat) : Prop :=
  rest ≠ [] ∧ Plain l ∧ (rest = l ++ 10 :: tail ∨ rest = l ++ 13 :: 10 :: tail ∨ (rest = l ++ 13 :: tail ∧ tail.head? ≠ some 10) ∨ (rest = l ∧ tail = []))

end Spec

/-! ## ReadLine over a seekable stream -/

/-- What `ReadLine` gives back.  For IByteStream.h 28-60, PipeReader.cpp 27-56 and BufferedPipe.cpp 13-43. -/
inductive Res
  | line (r : Option (List Nat))
  | cancelled
  deriving DecidableEq, Repr

/-- A one byte `Read` of a stream of bytes at a position; it may also come back empty handed, at will (`short`).  For IByteStream.h 28-60, PipeReader.cpp 27-56 and BufferedPipe.cpp 13-43. -/
def read1 (data : List Nat) (pos : Nat) (short : Bool) : Option Nat := if short then none else data[pos]?

/-- The outcome of reading after a `\r`: IByteStream.h:47-54. The new position: past a `\n`, and back by one (`Seek(-1, Current)`) from any other byte. -/
def afterCr (data : List Nat) (pos : Nat) (short : Bool) : Nat :=
  match read1 data pos short with
  | none => pos
  | some b => if b = 10 then pos + 1 else (pos + 1) - 1

/-- The loop of `ReadLine`: IByteStream.h:33-57. `tok t` says whether the token still holds when it is asked for the `t`-th time, `short t` whether the `t`-th `Read` comes back
empty handed. The result is the text (if any) and the position; at most `fuel` rounds. -/
def loop (data : List Nat) (tok short : Nat → Bool) : Nat → Nat → Nat → Option (List Nat) → Option (List Nat) × Nat × Nat
  | 0, t, pos, acc => (acc, pos, t)
  | fuel + 1, t, pos, acc =>
    if tok t = false then (acc, pos, t)
    else match read1 data pos (short t) with
      | none => (acc, pos, t + 1)
      | some b =>
        if b = 10 then (some (acc.getD []), pos + 1, t + 1)
        else if b = 13 then (some (acc.getD []), afterCr data (pos + 1) (short (t + 1)), t + 2)
        else loop data tok short fuel (t + 1) (pos + 1) (some (acc.getD [] ++ [b]))

/-- `ReadLine`: IByteStream.h:28-60, with the cancellation check at the end. -/
def readLine (data : List Nat) (tok short : Nat → Bool) (pos : Nat) : Res × Nat :=
  if tok (loop data tok short (data.length - pos + 1) 0 pos none).2.2 = false then (.cancelled, (loop data tok short (data.length - pos + 1) 0 pos none).2.1)
  else (.line (loop data tok short (data.length - pos + 1) 0 pos none).1, (loop data tok short (data.length - pos + 1) 0 pos none).2.1)

/-- Reading on until there is no more line.  For IByteStream.h 28-60, PipeReader.cpp 27-56 and BufferedPipe.cpp 13-43. -/
def readAll (data : List Nat) : Nat → Nat → List (List Nat)
  | 0, _ => []
  | fuel + 1, pos => match readLine data (fun _ => true) (fun _ => false) pos with
    | (.line (some l), p) => l :: readAll data fuel p
    | _ => []

/-! ## PipeReader -/

/-- How a pipe ends after the bytes that are in it: it is closed (`PipeClosedException`), or the read is cancelled.  For IByteStream.h 28-60, PipeReader.cpp 27-56 and BufferedPipe.cpp 13-43. -/
inductive End
  | closed
  | cancelled
  deriving DecidableEq, Repr

/-- What `PipeReader::ReadLine` does.  For IByteStream.h 28-60, PipeReader.cpp 27-56 and BufferedPipe.cpp 13-43. -/
inductive PRes
  | line (l : List Nat)
  | closed
  | cancelled
  | notSupported
  deriving DecidableEq, Repr

/-- What ends the line when `ReadByte` throws: PipeReader.cpp:49-55. -/
def atEnd (e : End) (acc : List Nat) : PRes :=
  match e with
  | .closed => if acc = [] then .closed else .line acc
  | .cancelled => .cancelled

/-- `PipeReader::ReadLine`: PipeReader.cpp:27-56, over the bytes still to come from the pipe; the result and the bytes left in it. -/
def pipeLine (e : End) : List Nat → List Nat → PRes × List Nat
  | [], acc => (atEnd e acc, [])
  | b :: bs, acc =>
    if b = 10 then (.line acc, bs)
    else if b = 13 then
      match bs with
      | [] => (atEnd e acc, [])
      | n :: bs' => if n = 10 then (.line acc, bs') else (.notSupported, bs')
    else pipeLine e bs (acc ++ [b])

/-! ## BufferedPipe -/

/-- `BufferedPipe`: BufferedPipe.cpp:13-15, with the bytes still to come from the pipe below and the size of the buffer. -/
structure BPipe where
  source : List Nat
  size : Nat
  buffer : List Nat
  offset : Nat
  filled : Nat
  deriving DecidableEq, Repr

namespace BPipe

/-- The state after construction, IByteStream.h 28-60, PipeReader.cpp 27-56 and BufferedPipe.cpp 13-43. -/
def create (source : List Nat) (size : Nat) : BPipe := ⟨source, size, List.replicate size 0, 0, 0⟩

/-- The copying part of `Read`: BufferedPipe.cpp:30-34. -/
def take (s : BPipe) (n : Nat) : List Nat × BPipe :=
  ((s.buffer.drop s.offset).take (min (s.filled - s.offset) n), { s with offset := s.offset + min (s.filled - s.offset) n })

/-- `Read`: BufferedPipe.cpp:18-35. `grant` is how many bytes the pipe below gives (at most the buffer and at most what it has). -/
def read (s : BPipe) (grant n : Nat) : List Nat × BPipe :=
  if s.offset = s.filled then
    if min grant (min s.size s.source.length) = 0 then ([], s)
    else take ⟨s.source.drop (min grant (min s.size s.source.length)), s.size,
      s.source.take (min grant (min s.size s.source.length)) ++ s.buffer.drop (min grant (min s.size s.source.length)), 0, min grant (min s.size s.source.length)⟩ n
  else take s n

/-- `Peek`: BufferedPipe.cpp:42-43. -/
def peek (s : BPipe) (below : Bool) : Bool := s.offset != s.filled || below

/-- A sequence of reads, each with what the pipe below grants.  For IByteStream.h 28-60, PipeReader.cpp 27-56 and BufferedPipe.cpp 13-43. -/
def reads (s : BPipe) : List (Nat × Nat) → List Nat × BPipe
  | [] => ([], s)
  | (g, n) :: rest => ((read s g n).1 ++ (reads (read s g n).2 rest).1, (reads (read s g n).2 rest).2)

/-- The bytes read from the pipe below and not yet handed out.  For IByteStream.h 28-60, PipeReader.cpp 27-56 and BufferedPipe.cpp 13-43. -/
def pending (s : BPipe) : List Nat := (s.buffer.take s.filled).drop s.offset

end BPipe
end Verif.Stream.Line
