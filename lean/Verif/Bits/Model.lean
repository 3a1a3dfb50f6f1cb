/-
Model of `BasicBitsGetter`, `BasicBitsSetter` (stingraykit/BitsGetter.h) and `BasicBitStream` (stingraykit/io/BitStream.h) over fixed-size byte data.
Bytes are numbers below 256; `w` is the width in bits of the unsigned type the value is shifted in (`ShiftableT`), arithmetic is truncated to it.
Template parameters (`OffsetBits`, `SizeBits`) are ordinary parameters.
-/
namespace Verif.Bits

/-- `mask<T>(len)`: BitsGetter.h:125-128, 259-262. -/
def mask (w len : Nat) : Nat := if len ≥ w then 2 ^ w - 1 else 2 ^ len - 1

/-- The loop of the masked getter: BitsGetter.h:153-169, at most `n` rounds; `none`: read outside the data (undefined behaviour). -/
def getLoop (w : Nat) (buf : List Nat) : Nat → Nat → Nat → Nat → Nat → Option Nat
  | 0, _, _, _, result => some result
  | n + 1, cur, msb, count, result =>
    if count = 0 then some result
    else match buf[cur]? with
      | none => none
      | some b =>
        if count ≤ msb then some (result ||| (((b % 2 ^ w) >>> (msb - count)) &&& mask w count))
        else getLoop w buf n (cur + 1) 8 (count - msb) ((result ||| (((b % 2 ^ w) &&& mask w msb) <<< (count - msb))) % 2 ^ w)

/-- The loop of the getter for whole bytes: BitsGetter.h:205-208. -/
def getBytes (w : Nat) (buf : List Nat) : Nat → Nat → Nat → Option Nat
  | 0, _, result => some result
  | n + 1, pos, result => match buf[pos]? with
    | none => none
    | some b => getBytes w buf n (pos + 1) (((result <<< 8) ||| b) % 2 ^ w)

/-- `UseMasks`: BitsGetter.h:117, 251. -/
def useMasks (off size : Nat) : Bool := decide (off % 8 ≠ 0) || decide (size % 8 ≠ 0)

/-- Size in bytes of `MinimalTypeSelector<SizeBits>::ValueT`: BitsGetter.h:38-39. -/
def minimalBytes (size : Nat) : Nat :=
  if (size + 7) / 8 > 4 then 8 else if (size + 7) / 8 > 2 then 4 else if (size + 7) / 8 > 1 then 2 else 1

/-- `SwappableType<MinimalT>::Swap`, the portable loop: BitsGetter.h:76-85. -/
def swapLoop (m v : Nat) : Nat → Nat
  | 0 => 0
  | i + 1 => swapLoop m v i ||| (((v >>> (8 * i)) % 256) <<< (8 * (m - 1 - i)))

/-- The byte order of the stream, BitsGetter.h 38-350 and BitStream.h 47-287. -/
def swap (m v : Nat) : Nat := swapLoop m v m

/-- Reading a field: BitsGetter.h:134-173, 189-213. Left: `IndexOutOfRangeException`; right `none`: undefined behaviour. -/
def get (big : Bool) (w : Nat) (buf : List Nat) (off size : Nat) : Except Unit (Option Nat) :=
  if buf.length < (off + size + 7) / 8 then .error ()
  else .ok (((if useMasks off size then getLoop w buf (size + 1) (off / 8) (8 - off % 8) size 0 else getBytes w buf (size / 8) (off / 8) 0)).map
    (fun r => if big then r else swap (minimalBytes size) (((r <<< (8 * minimalBytes size - size)) % 2 ^ w) % 2 ^ (8 * minimalBytes size))))

/-- `_buf[cur] &= ~clear; _buf[cur] |= put` on a byte; only the low eight bits of the masks matter.  For BitsGetter.h 38-350 and BitStream.h 47-287. -/
def merge (b clear put : Nat) : Nat := ((b &&& (255 ^^^ (clear % 256))) ||| (put % 256)) % 256

/-- The loop of the masked setter: BitsGetter.h:286-309. -/
def setLoop (w : Nat) (v : Nat) : Nat → List Nat → Nat → Nat → Nat → Option (List Nat)
  | 0, buf, _, _, _ => some buf
  | n + 1, buf, cur, msb, count =>
    if count = 0 then some buf
    else match buf[cur]? with
      | none => none
      | some b =>
        if count ≤ msb then
          some (buf.set cur (merge b ((mask w count) <<< (msb - count)) ((v <<< (msb - count)) &&& ((mask w count) <<< (msb - count)))))
        else setLoop w v n (buf.set cur (merge b (mask w msb) ((v >>> (count - msb)) &&& mask w msb))) (cur + 1) 8 (count - msb)

/-- The loop of the setter for whole bytes: BitsGetter.h:345-349. -/
def setBytes : Nat → Nat → Nat → List Nat → Option (List Nat)
  | 0, _, _, buf => some buf
  | i + 1, off, v, buf => if off + i < buf.length then setBytes i off (v >>> 8) (buf.set (off + i) (v % 256)) else none

/-- Writing a field: BitsGetter.h:268-310, 325-350. -/
def set (big : Bool) (w : Nat) (buf : List Nat) (off size v : Nat) : Except Unit (Option (List Nat)) :=
  if buf.length < (off + size + 7) / 8 then .error ()
  else .ok (if useMasks off size then setLoop w (if big then v % 2 ^ w else swap (minimalBytes size) ((v % 2 ^ w) % 2 ^ (8 * minimalBytes size))) (size + 1) buf (off / 8) (8 - off % 8) size
    else setBytes (size / 8) (off / 8) (if big then v % 2 ^ w else swap (minimalBytes size) ((v % 2 ^ w) % 2 ^ (8 * minimalBytes size))) buf)

/-! ### `BasicBitStream` -/

/-- `_buf`, `_offset`: BitStream.h:136-137. -/
structure Stream where
  buf : List Nat
  off : Nat

/-- `DoWrite` and `BasicBitStreamReadProxy` use the data from byte `offset >> 3` on and `offset & 7` as bit offset: BitStream.h:47-62, 272-287.
The rest of the data is unchanged. -/
def doRead (big : Bool) (w : Nat) (s : Stream) (size off : Nat) : Except Unit (Option Nat) := get big w (s.buf.drop (off / 8)) (off % 8) size

/-- Writing of one field, BitsGetter.h 38-350 and BitStream.h 47-287. -/
def doWrite (big : Bool) (w : Nat) (s : Stream) (size off v : Nat) : Except Unit (Option (List Nat)) :=
  match set big w (s.buf.drop (off / 8)) (off % 8) size v with
  | .error e => .error e
  | .ok none => .ok none
  | .ok (some l) => .ok (some (s.buf.take (off / 8) ++ l))

/-- The calls, BitsGetter.h 38-350 and BitStream.h 47-287. -/
inductive Op where
  | read (w size : Nat) | peek (w size : Nat) | write (w size v : Nat)
  /-- A deferred writer of `size` bits made at the current position and used at once or later: `reserve` advances, `writeAt` writes at its offset. -/
  | reserve (size : Nat) | writeAt (w size off v : Nat)
  | seek (bits : Nat) | skip (bits : Nat)
  | position | atEnd | canRead (bits : Nat)

/-- What a call returns, BitsGetter.h 38-350 and BitStream.h 47-287. -/
inductive Out where
  | unit | value (v : Nat) | bool (b : Bool) | throws | undefined
  deriving DecidableEq, Repr

/-- The public methods: BitStream.h:86-100, 146-160, 252-262. The read proxy advances the offset before the conversion may throw; the writer only after the
write. -/
def step (big : Bool) (s : Stream) : Op → Stream × Out
  | .read w size => (⟨s.buf, s.off + size⟩, match doRead big w s size s.off with
    | .ok (some v) => .value v
    | .ok none => .undefined
    | .error _ => .throws)
  | .peek w size => (s, match doRead big w s size s.off with
    | .ok (some v) => .value v
    | .ok none => .undefined
    | .error _ => .throws)
  | .write w size v => match doWrite big w s size s.off v with
    | .ok (some l) => (⟨l, s.off + size⟩, .unit)
    | .ok none => (s, .undefined)
    | .error _ => (s, .throws)
  | .reserve size => (⟨s.buf, s.off + size⟩, .unit)
  | .writeAt w size off v => match doWrite big w s size off v with
    | .ok (some l) => (⟨l, s.off⟩, .unit)
    | .ok none => (s, .undefined)
    | .error _ => (s, .throws)
  | .seek bits => (⟨s.buf, bits⟩, .unit)
  | .skip bits => (⟨s.buf, s.off + bits⟩, .unit)
  | .position => (s, .value s.off)
  | .atEnd => (s, .bool (decide (s.off / 8 ≥ s.buf.length)))
  | .canRead bits => (s, .bool (decide (s.off + bits ≤ s.buf.length * 8)))

/-- One step after another, for histories of BitsGetter.h 38-350 and BitStream.h 47-287. -/
def run (big : Bool) : Stream → List Op → Stream × List Out
  | s, [] => (s, [])
  | s, op :: ops => ((run big (step big s op).1 ops).1, (step big s op).2 :: (run big (step big s op).1 ops).2)

end Verif.Bits
