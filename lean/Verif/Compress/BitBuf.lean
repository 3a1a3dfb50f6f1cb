import Verif.Compress.Coder

/-!
# The bit buffers of the PPM compressor (C70)

Model of `stingraykit/compression/ppm/PpmCompressor.h:22-91` (`BitsToBytesBuffer`, bits in, bytes out), `PpmDecompressor.h:20-77` (`BytesToBitsBuffer`, bytes in, bits out),
`PpmCompressor.h:128-166` and `PpmDecompressor.h:137-148`. A byte is eight bits, the highest first; a buffer of `n` bytes is a function from bit positions, of which `8 * n` may be used.
-/

namespace Verif.Compress

/-- The ways in which the code of PpmCompressor.h 22-166 and PpmDecompressor.h 20-148 can fail. -/
inductive BErr where
  | full          -- the caller adds a bit although there is no free space
  | empty         -- the caller takes a bit although there is no data
  | tooMuch       -- the consumer says that it took more than it was offered
  | outOfRange    -- an access outside the array
  deriving DecidableEq, Repr

/-- The state of a buffer: PpmCompressor.h:28-31, PpmDecompressor.h:26-29. -/
structure Buf where
  data : Nat → Bool
  w : Nat
  r : Nat
  cont : Bool

/-- PpmCompressor.h:34-37. The constructor of the other buffer does not write the array (PpmDecompressor.h:32-35): `junk`. -/
def Buf.init (junk : Nat → Bool) : Buf := ⟨junk, 0, 0, true⟩

/-- `GetDataSizeBits`: PpmCompressor.h:39-40, PpmDecompressor.h:37-38. Wrapping at 2^64 is not modelled: the differences are not negative in the states that are considered. -/
def Buf.size (n : Nat) (s : Buf) : Nat := if s.cont then s.w - s.r else 8 * n - s.r + s.w

/-- `GetFreeSizeBits`, in `size_t`: PpmCompressor.h:42-43, PpmDecompressor.h:40-41. -/
def Buf.free (n : Nat) (s : Buf) : Nat := (8 * n + 18446744073709551616 - s.size n) % 18446744073709551616

/-- `AddBit`: PpmCompressor.h:45-55. -/
def Buf.addBit (n : Nat) (s : Buf) (b : Bool) : Except BErr Buf :=
  if s.w < 8 * n then
    .ok ⟨fun i => if i = s.w then s.data i || b else s.data i, if s.w + 1 = 8 * n then 0 else s.w + 1, s.r, if s.w + 1 = 8 * n then !s.cont else s.cont⟩
  else .error .outOfRange

/-- The number of bytes that the consumer is offered: PpmCompressor.h:78. -/
def Buf.offer (n : Nat) (s : Buf) : Nat := if s.cont then s.w / 8 - s.r / 8 else n - s.r / 8

/-- The bits of the first `k` bytes from the read position on: PpmCompressor.h:79. -/
def Buf.bits (s : Buf) (k : Nat) : List Bool := (List.range (8 * k)).map fun i => s.data (s.r + i)

/-- What happens after the consumer took `k` bytes: PpmCompressor.h:81-88. -/
def Buf.took (n : Nat) (s : Buf) (k : Nat) : Buf :=
  ⟨fun i => if s.r ≤ i ∧ i < s.r + 8 * k then false else s.data i, s.w, if s.r + 8 * k = 8 * n then 0 else s.r + 8 * k, if s.r + 8 * k = 8 * n then !s.cont else s.cont⟩

/-- The loop of `EndOfData` with the numbers of bytes that the consumer takes (it takes at most what is offered): PpmCompressor.h:65-68. The last component is `none` if the consumer will be
called once more. -/
def Buf.drain (n : Nat) : List Nat → Buf → Buf × List Bool × Option Bool
  | [], s => (s, [], if s.size n = 0 then some true else none)
  | k :: ks, s =>
    if s.size n = 0 then (s, [], some true)
    else if min k (s.offer n) = 0 then (s.took n 0, [], some false)
    else ((Buf.drain n ks (s.took n (min k (s.offer n)))).1, s.bits (min k (s.offer n)) ++ (Buf.drain n ks (s.took n (min k (s.offer n)))).2.1, (Buf.drain n ks (s.took n (min k (s.offer n)))).2.2)

/-- `EndOfData`: PpmCompressor.h:62-69. -/
def Buf.endOfData (n : Nat) (ks : List Nat) (s : Buf) : Buf × List Bool × Option Bool := Buf.drain n ks ⟨s.data, (s.w + 7) / 8 * 8, s.r, s.cont⟩

/-- `GetBit`: PpmDecompressor.h:46-57. -/
def Buf.getBit (n : Nat) (s : Buf) : Except BErr (Bool × Buf) :=
  if s.r < 8 * n then .ok (s.data s.r, ⟨s.data, s.w, if s.r + 1 = 8 * n then 0 else s.r + 1, if s.r + 1 = 8 * n then !s.cont else s.cont⟩)
  else .error .outOfRange

/-- How many of `m` bytes `AddBytes` copies: PpmDecompressor.h:61-62. -/
def Buf.copySize (n m : Nat) (s : Buf) : Nat := min m (if s.cont then n - s.w / 8 else s.r / 8 - s.w / 8)

/-- `AddBytes` of the bytes whose bits are `bits`: PpmDecompressor.h:59-72. -/
def Buf.addBytes (n : Nat) (bits : List Bool) (s : Buf) : Except BErr (Nat × Buf) :=
  if s.w + 8 * s.copySize n (bits.length / 8) ≤ 8 * n then
    .ok (s.copySize n (bits.length / 8), ⟨fun i => if s.w ≤ i ∧ i < s.w + 8 * s.copySize n (bits.length / 8) then bits.getD (i - s.w) false else s.data i,
      if s.w + 8 * s.copySize n (bits.length / 8) = 8 * n then 0 else s.w + 8 * s.copySize n (bits.length / 8), s.r,
      if s.w + 8 * s.copySize n (bits.length / 8) = 8 * n then !s.cont else s.cont⟩)
  else .error .outOfRange

/-- `ProcessInput`: PpmDecompressor.h:137-148, with a bound on the number of rounds. -/
def Buf.processInput (n : Nat) : Nat → List Bool → Buf → Except BErr (Nat × Buf)
  | 0, _, s => .ok (0, s)
  | fuel + 1, bits, s =>
    if bits.length / 8 ≠ 0 ∧ s.free n / 8 ≠ 0 then
      match s.addBytes n bits with
      | .error e => .error e
      | .ok (k, s') => if k = 0 then .ok (0, s') else match Buf.processInput n fuel (bits.drop (8 * k)) s' with
        | .error e => .error e
        | .ok (k', s'') => .ok (k + k', s'')
    else .ok (0, s)

/-! ### Histories -/

/-- The calls, PpmCompressor.h 22-166 and PpmDecompressor.h 20-148. -/
inductive OutOp where
  | add (b : Bool)
  | take (k : Nat)

/-- A history of the buffer of the compressor: the state, the bits that were added and the bits that the consumer took.  For PpmCompressor.h 22-166 and PpmDecompressor.h 20-148. -/
structure OutRun where
  s : Buf
  added : List Bool
  taken : List Bool

/-- The state after construction, PpmCompressor.h 22-166 and PpmDecompressor.h 20-148. -/
def OutRun.init : OutRun := ⟨Buf.init (fun _ => false), [], []⟩

/-- One step, PpmCompressor.h 22-166 and PpmDecompressor.h 20-148. -/
def OutRun.step (n : Nat) (x : OutRun) : OutOp → Except BErr OutRun
  | .add b =>
    if x.added.length - x.taken.length < 8 * n then
      match x.s.addBit n b with
      | .error e => .error e
      | .ok s' => .ok ⟨s', x.added ++ [b], x.taken⟩
    else .error .full
  | .take k => if k ≤ x.s.offer n then .ok ⟨x.s.took n k, x.added, x.taken ++ x.s.bits k⟩ else .error .tooMuch

/-- One step after another, for histories of PpmCompressor.h 22-166 and PpmDecompressor.h 20-148. -/
def OutRun.run (n : Nat) : OutRun → List OutOp → Except BErr OutRun
  | x, [] => .ok x
  | x, o :: os => match x.step n o with
    | .error e => .error e
    | .ok y => OutRun.run n y os

/-- The calls, PpmCompressor.h 22-166 and PpmDecompressor.h 20-148. -/
inductive InOp where
  | bytes (bits : List Bool)
  | get

/-- A history of the buffer of the decompressor: the state, the bits of the bytes that were accepted, the bits that were read.  For PpmCompressor.h 22-166 and PpmDecompressor.h 20-148. -/
structure InRun where
  s : Buf
  accepted : List Bool
  read : List Bool

/-- The state after construction, PpmCompressor.h 22-166 and PpmDecompressor.h 20-148. -/
def InRun.init (junk : Nat → Bool) : InRun := ⟨Buf.init junk, [], []⟩

/-- One step, PpmCompressor.h 22-166 and PpmDecompressor.h 20-148. -/
def InRun.step (n : Nat) (x : InRun) : InOp → Except BErr InRun
  | .bytes bits => match x.s.addBytes n bits with
    | .error e => .error e
    | .ok (k, s') => .ok ⟨s', x.accepted ++ bits.take (8 * k), x.read⟩
  | .get =>
    if x.read.length < x.accepted.length then
      match x.s.getBit n with
      | .error e => .error e
      | .ok (b, s') => .ok ⟨s', x.accepted, x.read ++ [b]⟩
    else .error .empty

/-- One step after another, for histories of PpmCompressor.h 22-166 and PpmDecompressor.h 20-148. -/
def InRun.run (n : Nat) : InRun → List InOp → Except BErr InRun
  | x, [] => .ok x
  | x, o :: os => match x.step n o with
    | .error e => .error e
    | .ok y => InRun.run n y os

/-! ### The compressor around its buffer -/

/-- `ConsumeData` with a consumer that takes at least one byte of those that are offered, with a bound on the number of rounds: PpmCompressor.h:160-166. -/
def consumeData (n room : Nat) : List Nat → Buf → Option (List Nat × Buf × List Bool)
  | [], s => if s.free n < room then none else some ([], s, [])
  | k :: ks, s =>
    if s.free n < room then
      match consumeData n room ks (s.took n (min (k + 1) (s.offer n))) with
      | none => none
      | some (ks', s', out) => some (ks', s', s.bits (min (k + 1) (s.offer n)) ++ out)
    else some (k :: ks, s, [])

/-- `AddBit` for all bits of a symbol: PpmCompressor.h:157-158. -/
def addBits (n : Nat) : List Bool → Buf → Except BErr Buf
  | [], s => .ok s
  | b :: bs, s => match s.addBit n b with
    | .error e => .error e
    | .ok s' => addBits n bs s'

/-- `Encode` for one symbol after the other, where `syms` are the bits that the coder gives for each: PpmCompressor.h:141-152. -/
def encodeSyms (n room : Nat) : List (List Bool) → List Nat → Buf → Option (List Nat × Buf × List Bool)
  | [], ks, s => some (ks, s, [])
  | bs :: rest, ks, s => match consumeData n room ks s with
    | none => none
    | some (ks', s', out) => match addBits n bs s' with
      | .error _ => none
      | .ok s'' => match encodeSyms n room rest ks' s'' with
        | none => none
        | some (ks'', s3, out') => some (ks'', s3, out ++ out')

end Verif.Compress
