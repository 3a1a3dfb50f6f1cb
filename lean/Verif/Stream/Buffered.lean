import Verif.Stream.Mem
/-
Model of `BufferedStream` (stingraykit/io/BufferedStream.h) over an arbitrary seekable byte stream. The stream underneath is a byte array with a position; a read returns
at least one byte unless it is at the end or nothing is asked for, but possibly fewer than asked for (the `i`-th read at most `lim i + 1`); `strict` streams reject
seeking beyond the end (as `MemoryByteStream`), the others allow it (as files). A cancelled token ends the reading loop after any number of rounds.
`none`: copying from outside the buffer (undefined behaviour).
-/
namespace Verif.Stream

/-- The environment: kind of the stream underneath, size of the buffer and alignment given to the constructor.  For BufferedStream.h 26-112. -/
structure Env where
  strict : Bool
  lim : Nat → Nat
  cap : Nat
  align : Nat

/-- The stream underneath; `reads` counts the reads.  For BufferedStream.h 26-112. -/
structure File where
  content : List Nat
  pos : Nat
  reads : Nat
  deriving DecidableEq, Repr

namespace File

/-- Read, BufferedStream.h 26-112. -/
def read (e : Env) (f : File) (n : Nat) : List Nat × File :=
  ((f.content.drop f.pos).take (min n (e.lim f.reads + 1)), ⟨f.content, f.pos + ((f.content.drop f.pos).take (min n (e.lim f.reads + 1))).length, f.reads + 1⟩)

/-- Writing beyond the end fills the gap with zeroes.  For BufferedStream.h 26-112. -/
def write (f : File) (d : List Nat) : File :=
  ⟨overwrite (f.content ++ List.replicate (f.pos - f.content.length) 0) f.pos d, f.pos + d.length, f.reads⟩

/-- Seek, BufferedStream.h 26-112. -/
def seek (e : Env) (f : File) (off : Int) (m : Mode) : Except Err File :=
  if Spec.origin f.content.length f.pos m + off < 0 then .error .outOfRange
  else if e.strict = true ∧ Spec.origin f.content.length f.pos m + off > f.content.length then .error .notImplemented
  else .ok { f with pos := (Spec.origin f.content.length f.pos m + off).toNat }

end File

/-- `BufferedStream`: BufferedStream.h:26-33. -/
structure Buf where
  file : File
  buffer : List Nat
  size : Nat
  offset : Nat
  inOffset : Nat
  deriving DecidableEq, Repr

namespace Buf

/-- The constructor: BufferedStream.h:36-38 (an alignment that does not divide the buffer size is rejected; see `Spec.EnvOk`). The stream underneath is at its
beginning. -/
def create (e : Env) (content : List Nat) : Buf := ⟨⟨content, 0, 0⟩, List.replicate e.cap 0, 0, 0, 0⟩

/-- `Tell`: BufferedStream.h:91-92. -/
def tell (s : Buf) : Nat := s.offset + s.inOffset

/-- `SeekStream`: BufferedStream.h:105-112. -/
def seekStream (e : Env) (s : Buf) (off : Nat) : Except Err Buf :=
  match s.file.seek e (e.align * (off / e.align) : Nat) .begin with
  | .error x => .error x
  | .ok f => .ok ⟨f, s.buffer, 0, e.align * (off / e.align), off - e.align * (off / e.align)⟩

/-- `SeekInBuffer`: BufferedStream.h:95-103. -/
def seekInBuffer (s : Buf) (off : Nat) : Option Buf :=
  if s.offset ≤ off ∧ off - s.offset < s.size then some { s with inOffset := off - s.offset } else none

/-- `Seek` to an absolute offset: BufferedStream.h:77-80. A negative offset becomes a huge unsigned one, which is not in the buffer and which the stream underneath
rejects as negative. -/
def seekAbs (e : Env) (s : Buf) (off : Int) : Except Err Buf :=
  if off < 0 then .error .outOfRange
  else match s.seekInBuffer off.toNat with
    | some s' => .ok s'
    | none => s.seekStream e off.toNat

/-- `Seek`: BufferedStream.h:70-89. -/
def seek (e : Env) (s : Buf) (off : Int) : Mode → Except Err Buf
  | .begin => s.seekAbs e off
  | .current => s.seekAbs e (off + s.tell)
  | .end_ => match s.file.seek e off .end_ with
    | .error x => .error x
    | .ok f => match ({ s with file := f } : Buf).seekInBuffer f.pos with
      | some s' => match f.seek e s.offset .begin with
        | .error x => .error x
        | .ok f' => .ok { s' with file := f' }
      | none => ({ s with file := f } : Buf).seekStream e f.pos

/-- Refilling the buffer: BufferedStream.h:49-51. -/
def refill (e : Env) (s : Buf) : Except Err Buf :=
  match (if s.size ≠ 0 then s.seekStream e s.tell else .ok s) with
  | .error x => .error x
  | .ok s' => .ok ⟨(s'.file.read e e.cap).2, (s'.file.read e e.cap).1 ++ s'.buffer.drop (s'.file.read e e.cap).1.length, (s'.file.read e e.cap).1.length, s'.offset, s'.inOffset⟩

/-- `_bufferSize - _inBufferOffset` as a `size_t`.  For BufferedStream.h 26-112. -/
def available (s : Buf) : Nat := if s.inOffset ≤ s.size then s.size - s.inOffset else 2 ^ 64 + s.size - s.inOffset

/-- The copy: BufferedStream.h:55-56. -/
def copy (s : Buf) (want : Nat) : Option (List Nat × Buf) :=
  if s.inOffset + min want s.available ≤ s.buffer.length then
    some ((s.buffer.drop s.inOffset).take (min want s.available), { s with inOffset := s.inOffset + min want s.available })
  else none

/-- The loop of `Read`: BufferedStream.h:45-57; `n` rounds until the token is cancelled, `want` bytes still to read. -/
def readLoop (e : Env) : Nat → Buf → Nat → Option (Except Err (List Nat × Buf))
  | 0, s, _ => some (.ok ([], s))
  | n + 1, s, want =>
    if want = 0 then some (.ok ([], s))
    else if s.size = 0 ∨ s.inOffset = s.size then
      match s.refill e with
      | .error x => some (.error x)
      | .ok s' =>
        if s'.size = 0 ∨ s'.inOffset = s'.size then some (.ok ([], s'))
        else match s'.copy want with
          | none => none
          | some (b, s2) => match readLoop e n s2 (want - b.length) with
            | some (.ok (b', s3)) => some (.ok (b ++ b', s3))
            | r => r
    else match s.copy want with
      | none => none
      | some (b, s2) => match readLoop e n s2 (want - b.length) with
        | some (.ok (b', s3)) => some (.ok (b ++ b', s3))
        | r => r

/-- `Write`: BufferedStream.h:61-68. -/
def write (e : Env) (s : Buf) (d : List Nat) : Except Err (Nat × Buf) :=
  match (if s.inOffset ≠ s.size ∨ s.size ≠ 0 then s.file.seek e s.tell .begin else .ok s.file) with
  | .error x => .error x
  | .ok f => match ({ s with file := f.write d } : Buf).seekStream e (s.tell + d.length) with
    | .error x => .error x
    | .ok s' => .ok (d.length, s')

/-- The calls, BufferedStream.h 26-112. -/
inductive Op where
  | read (n rounds : Nat) | write (d : List Nat) | seek (off : Int) (m : Mode) | tell
  deriving Repr

/-- One step, BufferedStream.h 26-112. -/
def step (e : Env) (s : Buf) : Op → Option (Buf × Mem.Out)
  | .read n rounds => match s.readLoop e rounds n with
    | none => none
    | some (.error x) => some (s, .err x)
    | some (.ok r) => some (r.2, .bytes r.1)
  | .write d => match s.write e d with
    | .error x => some (s, .err x)
    | .ok r => some (r.2, .num r.1)
  | .seek off m => match s.seek e off m with
    | .error x => some (s, .err x)
    | .ok s' => some (s', .unit)
  | .tell => some (s, .num s.tell)

end Buf

/-! ### Specification: the unbuffered stream -/

/-- What the calls do on the bytes `c` with position `p`: a read returns all the bytes asked for or up to the end (`m` of them if it was cancelled after fewer rounds
than bytes asked for). -/
inductive Spec.BufStep (strict : Bool) : List Nat → Nat → Buf.Op → List Nat → Nat → Mem.Out → Prop
  | read (c p n rounds m) : m ≤ ((c.drop p).take n).length → (n < rounds → m = ((c.drop p).take n).length) →
      BufStep strict c p (.read n rounds) c (p + m) (.bytes ((c.drop p).take m))
  | write (c p d) : BufStep strict c p (.write d) ((c ++ List.replicate (p - c.length) 0).take p ++ d ++ c.drop (p + d.length)) (p + d.length) (.num d.length)
  | seek (c p off m) (q : Nat) : (q : Int) = origin c.length p m + off → (strict = true → q ≤ c.length) → BufStep strict c p (.seek off m) c q .unit
  | seekBad (c p off m e) : origin c.length p m + off < 0 ∨ (strict = true ∧ origin c.length p m + off > (c.length : Int)) → BufStep strict c p (.seek off m) c p (.err e)
  | tell (c p) : BufStep strict c p .tell c p (.num p)

/-- What the constructor checks. -/
def Spec.EnvOk (e : Env) : Prop := 0 < e.cap ∧ 0 < e.align ∧ e.cap % e.align = 0

end Verif.Stream
