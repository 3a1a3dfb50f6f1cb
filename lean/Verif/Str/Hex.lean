import Verif.Str.Ints

/-
Model of string/Hex.h: conversion between integers or byte arrays and hexadecimal text.
-/
namespace Verif.Str

/-- The characters accepted by line 34 of Hex.h.  Of Hex.h 21-332. -/
def isHexChar (c : Char) : Bool :=
  (48 ≤ c.toNat && c.toNat ≤ 57) || (65 ≤ c.toNat && c.toNat ≤ 70) || (97 ≤ c.toNat && c.toNat ≤ 102)

/-- Hex.h 41-47: the value of a character; `ch &= ~0x20` is the upper-case letter. -/
def hexVal (c : Char) : Nat :=
  if 48 ≤ c.toNat && c.toNat ≤ 57 then c.toNat - 48
  else (c.toNat &&& 0xdf) - 65 + 10

/-- The loop of `FromHex<T>`, Hex.h 37-58; `first` is `index == 0`. -/
def fromHexLoop (hi : Nat) : Bool → List Char → Nat → Option Nat
  | _, [], result => some result
  | true, c :: cs, result => fromHexLoop hi false cs (result ||| hexVal c)
  | false, c :: cs, result =>
    if result ≤ hi >>> 4 then fromHexLoop hi false cs ((result <<< 4) ||| hexVal c) else none

/-- `FromHex<T>(string_view)` for integers, Hex.h 21-59; `hi` is the greatest value of `T`. -/
def fromHex (hi : Nat) (str : List Char) : Parsed :=
  if str.isEmpty then .argumentError
  else if str.all isHexChar then
    match fromHexLoop hi true str 0 with
    | some v => .ok v
    | none => .rangeError
  else .formatError

/-- The character of a nibble, Hex.h 142. -/
def hexChar (capital : Bool) (d : Nat) : Char :=
  if d > 9 then Char.ofNat (d + (if capital then 65 else 97) - 10) else Char.ofNat (d + 48)

/-- The loop of `ToHexImpl`, Hex.h 135-143; `left` is `maxWidth - index`. -/
def toHexLoop (maxWidth start : Nat) (capital : Bool) (value : Nat) : Nat → Bool → List Char
  | 0, _ => []
  | left + 1, seen =>
    if (seen || (value >>> (left * 4)) &&& 0xf != 0) || maxWidth - (left + 1) ≥ start || left = 0 then
      hexChar capital ((value >>> (left * 4)) &&& 0xf)
        :: toHexLoop maxWidth start capital value left (seen || (value >>> (left * 4)) &&& 0xf != 0)
    else toHexLoop maxWidth start capital value left (seen || (value >>> (left * 4)) &&& 0xf != 0)

/-- `ToHexImpl` for an integer of `bytes` bytes, Hex.h 121-144. -/
def toHex (bytes : Nat) (value width : Nat) (capital : Bool) : List Char :=
  if width > bytes * 2 then
    List.replicate (width - bytes * 2) '0' ++ toHexLoop (bytes * 2) 0 capital value (bytes * 2) false
  else toHexLoop (bytes * 2) (bytes * 2 - width) capital value (bytes * 2) false

/-- `ToHexImpl` for byte data, Hex.h 146-157. -/
def toHexBytes (data : List Nat) (width : Nat) (capital : Bool) : List Char :=
  List.replicate (width - data.length * 2) '0' ++ data.flatMap (fun b => toHex 1 b 2 capital)

/-- The pairs of characters read by `FromHex<ByteArray>`, Hex.h 82-83. -/
def fromHexPairs : List Char → Option (List Nat)
  | [] => some []
  | [_] => none
  | a :: b :: cs =>
    match fromHex 255 [a, b] with
    | .ok v => (fromHexPairs cs).map (v.toNat :: ·)
    | _ => none

/-- Hex.h 74-88 on the text after the prefix; an exception is `none`. -/
def fromHexBody (str : List Char) : Option (List Nat) :=
  if str.length % 2 = 1 then
    match str with
    | [] => none
    | a :: cs =>
      match fromHex 255 [a] with
      | .ok v => (fromHexPairs cs).map (v.toNat :: ·)
      | _ => none
  else fromHexPairs str

/-- `FromHex<ByteArray>`, Hex.h 62-89. -/
def fromHexBytes (str : List Char) : Option (List Nat) :=
  match str with
  | '0' :: 'x' :: cs => fromHexBody cs
  | _ => fromHexBody str

/-- `ShortHexDumpFormatter::ToString`, Hex.h 224-243; `(unsigned)src[index]` is four bytes wide. -/
def shortHexDump (data : List Nat) (limit : Nat) : List Char :=
  "{ ".toList ++ (data.take (min data.length limit)).flatMap (fun b => toHex 4 b 2 false ++ [' '])
    ++ (if min data.length limit < data.length then "... ".toList else []) ++ ['}']

/-- `ShortHexDump` of a container of bytes, Hex.h 318-332: the formatter is given the size already
cut to the limit. -/
def shortHexDumpOf (data : List Nat) (limit : Nat) : List Char :=
  shortHexDump (data.take (min limit data.length)) limit

end Verif.Str
