/-
Model of `ArithmeticCoder` and `ArithmeticDecoder` (stingraykit/compression/ArithmeticCoder.h, ArithmeticDecoder.h). Property C68.
The `u32` registers are natural numbers with the operations of the code and a reduction modulo 2^32 where a value could leave the type. `_underflowBits` is not reduced (2^32 pending bits).
The bits are a list for the coder and a sequence `Nat → Bool` for the decoder, which reads beyond the end.
-/
namespace Verif.Compress

/-- The ways in which the code of ArithmeticCoder.h 24-76 and ArithmeticDecoder.h 25-71 can fail. -/
inductive Err where
  | argument    -- `ArgumentException`
  | zeroRange   -- "Range is zero!" of the coder; a division by zero in the decoder
  | endless     -- a loop did not end within 40 rounds: a theorem shows that this does not happen
  deriving DecidableEq, Repr

/-- Truncation to 32 bits, as in the `u32` variables of ArithmeticCoder.h 24-76 and ArithmeticDecoder.h 25-71. -/
def w32 (v : Nat) : Nat := v % 4294967296

/-- ArithmeticCoder.h:75, 76; ArithmeticDecoder.h:70, 71. -/
def firstBit (v : Nat) : Bool := (v &&& 0x40000000) != 0
/-- Test of the second highest bit, ArithmeticCoder.h 24-76 and ArithmeticDecoder.h 25-71. -/
def secondBit (v : Nat) : Bool := (v &&& 0x20000000) != 0

/-- `Shift` of both registers: ArithmeticCoder.h:71, 72; ArithmeticDecoder.h:65, 66. -/
def shiftLow (v : Nat) : Nat := w32 (v <<< 1) &&& 0x7FFFFFFF
/-- New upper bound after a shift, ArithmeticCoder.h 24-76 and ArithmeticDecoder.h 25-71. -/
def shiftHigh (v : Nat) : Nat := (w32 (v <<< 1) &&& 0x7FFFFFFF) ||| 1

/-- The variables of the coder, ArithmeticCoder.h 24-76 and ArithmeticDecoder.h 25-71. -/
structure Enc where
  low : Nat
  high : Nat
  under : Nat
  deriving DecidableEq, Repr

/-- ArithmeticCoder.h:24. -/
def Enc.init : Enc := ⟨0, 0x7FFFFFFF, 0⟩

/-- The loop of `Encode`: ArithmeticCoder.h:35-54; the bits are given to the consumer in this order. -/
def encLoop : Nat → Enc → Except Err (Enc × List Bool)
  | 0, _ => .error .endless
  | n + 1, e =>
    if firstBit e.low = firstBit e.high then
      match encLoop n ⟨shiftLow e.low, shiftHigh e.high, 0⟩ with
      | .error x => .error x
      | .ok (e', bs) => .ok (e', firstBit e.low :: (List.replicate e.under (!firstBit e.low) ++ bs))
    else if secondBit e.low = true ∧ secondBit e.high = false then
      encLoop n ⟨shiftLow (e.low &&& 0x1FFFFFFF), shiftHigh (e.high ||| 0x20000000), e.under + 1⟩
    else .ok (e, [])

/-- Rounds of the loop, ArithmeticCoder.h 24-76 and ArithmeticDecoder.h 25-71. -/
def loopRounds : Nat := 40

/-- `Encode`: ArithmeticCoder.h:28-55. -/
def encode (e : Enc) (lo hi sc : Nat) : Except Err (Enc × List Bool) :=
  if lo < hi ∧ hi ≤ sc then
    if (e.high - e.low + 1) / sc = 0 then .error .zeroRange
    else encLoop loopRounds ⟨w32 (e.low + (e.high - e.low + 1) / sc * lo), w32 (e.low + (e.high - e.low + 1) / sc * hi - 1), e.under⟩
  else .error .argument

/-- `EndOfData`: ArithmeticCoder.h:58-66. -/
def encEndLoop : Nat → Nat → Nat → Except Err (List Bool)
  | 0, _, _ => .error .endless
  | n + 1, low, high =>
    if low ≠ high then
      match encEndLoop n (shiftLow low) (shiftLow high) with
      | .error x => .error x
      | .ok bs => .ok (firstBit low :: bs)
    else .ok []

/-- The registers after the loop of `EndOfData`: ArithmeticCoder.h:61-65. -/
def encEndRegs : Nat → Nat → Nat → Except Err (Nat × Nat)
  | 0, _, _ => .error .endless
  | n + 1, low, high => if low ≠ high then encEndRegs n (shiftLow low) (shiftLow high) else .ok (low, high)

/-- The end of the code, ArithmeticCoder.h 24-76 and ArithmeticDecoder.h 25-71. -/
def encEnd (e : Enc) : Except Err (List Bool) := encEndLoop loopRounds e.low e.high

/-- The variables of the decoder, ArithmeticCoder.h 24-76 and ArithmeticDecoder.h 25-71. -/
structure Dec where
  low : Nat
  high : Nat
  code : Nat
  pos : Nat      -- how many bits were read
  deriving DecidableEq, Repr

/-- `_code = (_code << 1) | f()`, repeated: ArithmeticDecoder.h:28-29. -/
def readBits (src : Nat → Bool) : Nat → Nat → Nat → Nat
  | 0, _, code => code
  | n + 1, pos, code => readBits src n (pos + 1) (w32 (code <<< 1) ||| (src pos).toNat)

/-- ArithmeticDecoder.h:25-30. -/
def Dec.init (src : Nat → Bool) : Dec := ⟨0, 0x7FFFFFFF, readBits src 31 0 0, 31⟩

/-- `GetProbability`: ArithmeticDecoder.h:32-36. -/
def Dec.prob (d : Dec) (sc : Nat) : Except Err Nat :=
  if sc = 0 ∨ (d.high - d.low + 1) / sc = 0 then .error .zeroRange else .ok (w32 (d.code + 4294967296 - d.low) / ((d.high - d.low + 1) / sc))

/-- `Shift`: ArithmeticDecoder.h:63-68. -/
def Dec.shift (src : Nat → Bool) (d : Dec) : Dec := ⟨shiftLow d.low, shiftHigh d.high, (w32 (d.code <<< 1) &&& 0x7FFFFFFF) ||| (src d.pos).toNat, d.pos + 1⟩

/-- The loop of `SymbolDecoded`: ArithmeticDecoder.h:45-58. -/
def decLoop (src : Nat → Bool) : Nat → Dec → Except Err Dec
  | 0, _ => .error .endless
  | n + 1, d =>
    if firstBit d.low = firstBit d.high then decLoop src n (d.shift src)
    else if secondBit d.low = true ∧ secondBit d.high = false then
      decLoop src n (Dec.shift src ⟨d.low &&& 0x1FFFFFFF, d.high ||| 0x20000000, d.code ^^^ 0x20000000, d.pos⟩)
    else .ok d

/-- `SymbolDecoded`: ArithmeticDecoder.h:39-59. -/
def Dec.decoded (src : Nat → Bool) (d : Dec) (lo hi sc : Nat) : Except Err Dec :=
  if lo < hi ∧ hi ≤ sc then
    decLoop src loopRounds ⟨w32 (d.low + (d.high - d.low + 1) / sc * lo), w32 (d.low + (d.high - d.low + 1) / sc * hi - 1), d.code, d.pos⟩
  else .error .argument

/-- The part `[lo, hi)` of a scale that stands for a symbol.  For ArithmeticCoder.h 24-76 and ArithmeticDecoder.h 25-71. -/
structure Part where
  lo : Nat
  hi : Nat
  scale : Nat
  deriving DecidableEq, Repr

/-- Encodes one after the other.  For ArithmeticCoder.h 24-76 and ArithmeticDecoder.h 25-71. -/
def encodeAll (e : Enc) : List Part → Except Err (Enc × List Bool)
  | [] => .ok (e, [])
  | p :: ps => match encode e p.lo p.hi p.scale with
    | .error x => .error x
    | .ok (e', bs) => match encodeAll e' ps with
      | .error x => .error x
      | .ok (e'', bs') => .ok (e'', bs ++ bs')

/-- The coder: everything and `EndOfData`.  For ArithmeticCoder.h 24-76 and ArithmeticDecoder.h 25-71. -/
def compress (ps : List Part) : Except Err (List Bool) := match encodeAll Enc.init ps with
  | .error x => .error x
  | .ok (e, bs) => match encEnd e with
    | .error x => .error x
    | .ok bs' => .ok (bs ++ bs')

/-! ### What the properties are about -/

/-- The sequence begins with these bits from position `n` on. -/
def Spec.Begins (src : Nat → Bool) (n : Nat) (bs : List Bool) : Prop := ∀ i b, bs[i]? = some b → src (n + i) = b

/-- The decoder finds the parts: the probability that it gets for the scale of each part is inside the part, and telling it that part leads to a state where the same holds for the rest. -/
def Spec.Finds (src : Nat → Bool) : Dec → List Part → Prop
  | _, [] => True
  | d, p :: ps => (∃ x, d.prob p.scale = .ok x ∧ p.lo ≤ x ∧ x < p.hi) ∧ ∃ d', d.decoded src p.lo p.hi p.scale = .ok d' ∧ Spec.Finds src d' ps

end Verif.Compress
