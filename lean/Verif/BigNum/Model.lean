/-
Model of `BigUnsignedInteger` (stingraykit/BigNum.h, stingraykit/BigNum.cpp). A number is its list of blocks `_units`, least significant first; a block is a
number below `2 ^ w`, where `w` is the width of `BlockType` in bits. Block arithmetic is modulo `2 ^ w`. Loops that walk over several vectors with a running
index are modelled as recursions over the lists from that index on. `none`: an access outside a vector (undefined behaviour) or a loop that does not
terminate. The copies made when an argument is the receiver itself are not modelled: functions are pure here.
-/
namespace Verif.BigNum

/-- The ways in which the code of BigNum.cpp 31-597 can fail. -/
inductive Err where
  | tooLarge         -- "subtrahend too large"
  | negative         -- "Negative result in unsigned calculation"
  | divisionByZero   -- `InvalidOperationException`
  | badDigit         -- `ArgumentException`
  | notImplemented   -- `NotImplementedException`
  deriving DecidableEq, Repr

/-- `ZapLeadingZeroes`: BigNum.cpp:51-55. -/
def zap (l : List Nat) : List Nat := (l.reverse.dropWhile (fun x => x == 0)).reverse

/-- The constructor from a primitive type not wider than a block: BigNum.h:56-61. -/
def ofNat (n : Nat) : List Nat := [n]

/-- `ToPrimitive<T>` for an unsigned type of `t` bits: BigNum.h:63-76. -/
def toPrimitive (t : Nat) : List Nat → Except Err Nat
  | [] => .ok 0
  | [x] => if x % 2 ^ t = x then .ok (x % 2 ^ t) else .error .notImplemented
  | _ => .error .notImplemented

/-- `GetShiftedBlock`: BigNum.cpp:114-119. -/
def shiftedBlock (w : Nat) (num : List Nat) (i bits : Nat) : Nat :=
  (if i = 0 ∨ bits = 0 then 0 else num.getD (i - 1) 0 >>> (w - bits)) ||| (if i = num.length then 0 else (num.getD i 0 <<< bits) % 2 ^ w)

/-- The blocks `GetShiftedBlock(num, j, bits)` for `j` from `from` to `num.size()`.  For BigNum.cpp 31-597. -/
def shiftedFrom (w : Nat) (num : List Nat) (start bits : Nat) : List Nat := (List.range (num.length + 1 - start)).map (fun k => shiftedBlock w num (start + k) bits)

/-- The carry loops: BigNum.cpp:164-169 and 298-303 (`++block; carry = block == 0`). -/
def carryUp (w : Nat) : List Nat → Bool → Option (List Nat × Bool)
  | us, false => some (us, false)
  | [], true => some ([], true)
  | u :: us, true => (carryUp w us (decide ((u + 1) % 2 ^ w = 0))).map (fun r => ((u + 1) % 2 ^ w :: r.1, r.2))

/-- One block of an addition with carry: BigNum.cpp:153-161, 287-295. -/
def addBlock (w u d : Nat) (c : Bool) : Nat × Bool :=
  if c then (((u + d) % 2 ^ w + 1) % 2 ^ w, decide ((u + d) % 2 ^ w < u) || decide (((u + d) % 2 ^ w + 1) % 2 ^ w = 0))
  else ((u + d) % 2 ^ w, decide ((u + d) % 2 ^ w < u))

/-- Addition of `ds` to the blocks `us`, then the carry loop: BigNum.cpp:151-169, 285-303. The carry left at the end is returned. -/
def addBlocks (w : Nat) : List Nat → List Nat → Bool → Option (List Nat × Bool)
  | us, [], c => carryUp w us c
  | [], _ :: _, _ => none
  | u :: us, d :: ds, c => (addBlocks w us ds (addBlock w u d c).2).map (fun r => ((addBlock w u d c).1 :: r.1, r.2))

/-- `Add`: BigNum.cpp:122-178. -/
def add (w : Nat) (a b : List Nat) : Option (List Nat) :=
  if a = [] then some b
  else if b = [] then some a
  else (addBlocks w (if a.length < b.length then b else a) (if a.length < b.length then a else b) false).map
    (fun r => if r.2 then r.1 ++ [1] else r.1)

/-- The borrow loops: BigNum.cpp:217-221, 429-433, at most `lim` blocks. -/
def borrowDown (w : Nat) : List Nat → Bool → Nat → Option (List Nat × Bool)
  | us, false, _ => some (us, false)
  | us, true, 0 => some (us, true)
  | [], true, _ + 1 => none
  | u :: us, true, lim + 1 => (borrowDown w us (decide (u = 0)) lim).map (fun r => ((u + 2 ^ w - 1) % 2 ^ w :: r.1, r.2))

/-- One block of a subtraction with borrow: BigNum.cpp:206-214, 418-426. -/
def subBlock (w u d : Nat) (b : Bool) : Nat × Bool :=
  if b then (((u + 2 ^ w - d) % 2 ^ w + 2 ^ w - 1) % 2 ^ w, decide ((u + 2 ^ w - d) % 2 ^ w > u) || decide ((u + 2 ^ w - d) % 2 ^ w = 0))
  else ((u + 2 ^ w - d) % 2 ^ w, decide ((u + 2 ^ w - d) % 2 ^ w > u))

/-- Subtraction of `ds` from the blocks `us`, then the borrow loop, which stops after `lim` blocks in total.  For BigNum.cpp 31-597. -/
def subBlocks (w : Nat) : List Nat → List Nat → Bool → Nat → Option (List Nat × Bool)
  | us, [], b, lim => borrowDown w us b lim
  | [], _ :: _, _, _ => none
  | u :: us, d :: ds, b, lim => (subBlocks w us ds (subBlock w u d b).2 (lim - 1)).map (fun r => ((subBlock w u d b).1 :: r.1, r.2))

/-- `Subtract`: BigNum.cpp:181-233. -/
def sub (w : Nat) (a b : List Nat) : Option (Except Err (List Nat)) :=
  if b = [] then some (.ok a)
  else if ¬ b.length ≤ a.length then some (.error .tooLarge)
  else (subBlocks w a b false a.length).map (fun r => if r.2 then .error .negative else .ok (zap r.1))

/-- The body of the loop over the bits of block `index` of the first factor: BigNum.cpp:268-303. -/
def mulBit (w : Nat) (a b : List Nat) (index i2 : Nat) (us : List Nat) : Option (List Nat) :=
  if a.getD index 0 &&& ((1 <<< i2) % 2 ^ w) = 0 then some us
  else match addBlocks w (us.drop index) (shiftedFrom w b 0 i2) false with
    | some (r, false) => some (us.take index ++ r)
    | _ => none

/-- The inner loop: BigNum.cpp:266-304, bits `i2` from 0 to `n - 1`. -/
def mulBits (w : Nat) (a b : List Nat) (index : Nat) : Nat → List Nat → Option (List Nat)
  | 0, us => some us
  | n + 1, us => (mulBits w a b index n us).bind (mulBit w a b index n)

/-- The outer loop: BigNum.cpp:264-305, the first `n` blocks. -/
def mulLoop (w : Nat) (a b : List Nat) : Nat → List Nat → Option (List Nat)
  | 0, us => some us
  | n + 1, us => (mulLoop w a b n us).bind (mulBits w a b n w)

/-- `Multiply`: BigNum.cpp:236-308. -/
def mul (w : Nat) (a b : List Nat) : Option (List Nat) :=
  if a = [] ∨ b = [] then some []
  else (mulLoop w a b a.length (List.replicate (a.length + b.length) 0)).map zap

/-- The body of the inner loop of `DivideWithRemainder`: BigNum.cpp:413-453. State: blocks of the remainder and of the quotient. -/
def divBit (w : Nat) (d : List Nat) (orig index i2 : Nat) (s : List Nat × List Nat) : Option (List Nat × List Nat) :=
  match subBlocks w (s.1.drop index) (shiftedFrom w d 0 i2) false (orig - index) with
  | none => none
  | some (r, true) => some s
  | some (r, false) => some (s.1.take index ++ r, s.2.set index (s.2.getD index 0 ||| ((1 <<< i2) % 2 ^ w)))

/-- The inner loop: BigNum.cpp:402-454, bits `n - 1` down to 0. -/
def divBits (w : Nat) (d : List Nat) (orig index : Nat) : Nat → List Nat × List Nat → Option (List Nat × List Nat)
  | 0, s => some s
  | n + 1, s => (divBit w d orig index n s).bind (divBits w d orig index n)

/-- The outer loop: BigNum.cpp:397-455, blocks `n - 1` down to 0. -/
def divLoop (w : Nat) (d : List Nat) (orig : Nat) : Nat → List Nat × List Nat → Option (List Nat × List Nat)
  | 0, s => some s
  | n + 1, s => (divBits w d orig n w (s.1, s.2.set n 0)).bind (divLoop w d orig n)

/-- `DivideWithRemainder`: BigNum.cpp:311-459. Result: remainder and quotient. -/
def divMod (w : Nat) (a d : List Nat) : Option (List Nat × List Nat) :=
  if d = [] then some (a, [])
  else if a.length < d.length then some (a, [])
  else (divLoop w d a.length (a.length - d.length + 1) (a ++ [0], List.replicate (a.length - d.length + 1) 0)).map (fun s => (zap s.1, zap s.2))

/-- `operator /`, `operator %`: BigNum.h:103-119. -/
def div (w : Nat) (a d : List Nat) : Option (Except Err (List Nat)) :=
  if d = [] then some (.error .divisionByZero) else (divMod w a d).map (fun s => .ok s.2)

/-- Remainder, BigNum.cpp 31-597. -/
def mod (w : Nat) (a d : List Nat) : Option (Except Err (List Nat)) :=
  if d = [] then some (.error .divisionByZero) else (divMod w a d).map (fun s => .ok s.1)

/-- `BitAnd`: BigNum.cpp:462-476. -/
def bitAnd (a b : List Nat) : List Nat := zap (List.zipWith (fun x y => x &&& y) a b)

/-- The tail appended by `BitOr` and `BitXor`: BigNum.cpp:492-495, 512-515. -/
def longerTail (a b : List Nat) : List Nat :=
  if a.length > min a.length b.length then a.drop (min a.length b.length)
  else if b.length > min a.length b.length then b.drop (min a.length b.length) else []

/-- `BitOr`: BigNum.cpp:479-496. -/
def bitOr (a b : List Nat) : List Nat := List.zipWith (fun x y => x ||| y) a b ++ longerTail a b

/-- `BitXor`: BigNum.cpp:499-517. -/
def bitXor (a b : List Nat) : List Nat := zap (List.zipWith (fun x y => x ^^^ y) a b ++ longerTail a b)

/-- `BitShiftLeft` for a non-negative number of bits: BigNum.cpp:536-547. -/
def shl (w : Nat) (a : List Nat) (bits : Nat) : List Nat := zap (List.replicate (bits / w) 0 ++ shiftedFrom w a 0 (bits % w))

/-- `CeilingDiv`: BigNum.cpp:31-34. -/
def ceilingDiv (a b : Nat) : Nat := (a + b - 1) / b

/-- `BitShiftRight` for a non-negative number of bits: BigNum.cpp:567-580. -/
def shr (w : Nat) (a : List Nat) (bits : Nat) : List Nat :=
  if ceilingDiv bits w ≥ a.length + 1 then []
  else zap (shiftedFrom w a (ceilingDiv bits w) (w * ceilingDiv bits w - bits))

/-- `operator <<`, `operator >>` with an `int`: BigNum.cpp:530-534, 561-565. -/
def shiftLeft (w : Nat) (a : List Nat) (bits : Int) : List Nat := if bits < 0 then shr w a (-bits).toNat else shl w a bits.toNat
/-- Right shift, BigNum.cpp 31-597. -/
def shiftRight (w : Nat) (a : List Nat) (bits : Int) : List Nat := if bits < 0 then shl w a (-bits).toNat else shr w a bits.toNat

/-- `operator <`: BigNum.cpp:584-597. -/
def less (a b : List Nat) : Bool :=
  if a.length < b.length then true
  else if a.length > b.length then false
  else (List.zip a b).any (fun p => decide (p.1 < p.2))

/-- `operator ==`, generated from `operator <`: BigNum.h:183. -/
def equal (a b : List Nat) : Bool := !less a b && !less b a

/-- The digit of a character: BigNum.cpp:78-85. -/
def digitOf (c : Nat) : Option Nat :=
  if c ≥ 0x30 ∧ c ≤ 0x39 then some (c - 0x30)
  else if c ≥ 0x41 ∧ c ≤ 0x5a then some (c - 0x41 + 10)
  else if c ≥ 0x61 ∧ c ≤ 0x7a then some (c - 0x61 + 10)
  else none

/-- One step of loading digits: BigNum.cpp:88-89, BigNum.h:198-199. -/
def pushDigit (w base : Nat) (us : List Nat) (v : Nat) : Option (List Nat) := (mul w us (ofNat base)).bind (fun t => add w t (ofNat v))

/-- `LoadFromString(source, base)`: BigNum.cpp:69-91. -/
def loadString (w base : Nat) : List Nat → List Nat → Option (Except Err (List Nat))
  | [], us => some (.ok us)
  | c :: s, us => match digitOf c with
    | none => some (.error .badDigit)
    | some v => if v < base then
        match pushDigit w base us v with
        | none => none
        | some us' => loadString w base s us'
      else some (.error .badDigit)

/-- `LoadFromString(source)`: BigNum.cpp:58-66: the prefixes `0x` and `0b` select the base. -/
def loadPrefixed (w : Nat) (s : List Nat) : Option (Except Err (List Nat)) :=
  if s.take 2 = [0x30, 0x78] then loadString w 16 (s.drop 2) []
  else if s.take 2 = [0x30, 0x62] then loadString w 2 (s.drop 2) []
  else loadString w 10 s []

/-- `LoadFromData`: BigNum.h:190-201. -/
def loadData (w : Nat) : List Nat → List Nat → Option (List Nat)
  | [], us => some us
  | c :: s, us => (pushDigit w 256 us c).bind (loadData w s)

/-- The loop of `Dump`: BigNum.cpp:103-108; digits least significant first; at most `n` rounds. -/
def dumpLoop (w base : Nat) : Nat → List Nat → Option (Except Err (List Nat))
  | 0, _ => none
  | n + 1, x =>
    if x = [] then some (.ok [])
    else match divMod w x (ofNat base) with
      | none => none
      | some (last, x') => match toPrimitive 8 last with
        | .error e => some (.error e)
        | .ok dgt => match dumpLoop w base n x' with
          | none => none
          | some (.error e) => some (.error e)
          | some (.ok ds) => some (.ok (dgt :: ds))

/-- `Dump`: BigNum.cpp:94-111. The number of rounds is at most one more than the number of bits. -/
def dump (w base : Nat) (x : List Nat) : Option (Except Err (List Nat)) := (dumpLoop w base (w * x.length + 2) x).map (fun r => r.map List.reverse)

/-- `ToString`: BigNum.cpp:39-48. -/
def toStr (w base : Nat) (x : List Nat) : Option (Except Err (List Nat)) :=
  (dump w base x).map (fun r => r.map (fun ds => if ds = [] then [0x30] else ds.map (fun v => if v < 10 then 0x30 + v else 0x41 + v - 10)))

end Verif.BigNum
