import Verif.Str.Ints
import Verif.Inplace.Model
/-
Model of `string_ostream` (string/string_stream.h, string_stream.cpp) over the model of `inplace_vector`.  What `snprintf` writes for floating point numbers and pointers is a
parameter.  `Reserve` (string_stream.h 104-110) only reserves memory and is not modelled.
-/
namespace Verif.Str.Stream

/-- A value that is inserted, string_stream.h 47-101. -/
inductive Val where
  | bool (b : Bool)
  | chr (c : Char)
  | int (t : IntTy) (v : Int)
  | text (s : List Char)
  /-- `const char*`: the bytes from the pointer to the end of its memory, or a null pointer -/
  | cstr (p : Option (List Char))
  /-- a floating point number or a pointer: what `snprintf` writes for it -/
  | printed (s : List Char)
deriving DecidableEq, Repr

/-- `InplaceCapacity`, string_stream.h 33. -/
def capacity : Nat := 256

/-- `Insert(string_view_type)`, string_stream.h 126-130. -/
def insertView (buf : Inplace.Vec Char) (s : List Char) : Option (Inplace.Vec Char) := Inplace.pushAll buf s

/-- The loop of `Insert(const char*)`, string_stream.h 119-120; `none` if there is no terminator in the memory. -/
def insertChars (buf : Inplace.Vec Char) : List Char → Option (Inplace.Vec Char)
  | [] => none
  | c :: cs =>
    if c.toNat = 0 then some buf
    else
      match Inplace.pushBack buf c with
      | none => none
      | some buf' => insertChars buf' cs

/-- The inserter made with `DECLARE_INSERT_PRINTF`, string_stream.cpp 65-74; a text that does not fit `buf[32]` would be read past its end. -/
def insertPrinted (buf : Inplace.Vec Char) (s : List Char) : Option (Inplace.Vec Char) := if s.length < 32 then insertView buf s else none

/-- Inserters of signed integers, string_stream.cpp 45-58, and unsigned ones, 38-43. -/
def insertInt (buf : Inplace.Vec Char) (t : IntTy) (v : Int) : Option (Inplace.Vec Char) :=
  if v < 0 then
    match Inplace.pushBack buf '-' with
    | none => none
    | some buf' =>
      (match insertIntegral 32 ((-(v % (t.hi - t.lo + 1))) % (t.hi - t.lo + 1)).toNat [] with
      | none => none
      | some ds => insertView buf' ds)
  else
    match insertIntegral 32 v.toNat [] with
    | none => none
    | some ds => insertView buf ds

/-- `operator <<`, string_stream.h 47-101, string_stream.cpp 16-87. -/
def insert (null : List Char) (buf : Inplace.Vec Char) : Val → Option (Inplace.Vec Char)
  | .bool b => insertView buf (if b then ['t', 'r', 'u', 'e'] else ['f', 'a', 'l', 's', 'e'])
  | .chr c => Inplace.pushBack buf c
  | .int t v => insertInt buf t v
  | .text s => insertView buf s
  | .cstr none => insertPrinted buf null
  | .cstr (some s) => insertChars buf s
  | .printed s => insertPrinted buf s

/-- A call, string_stream.h 42-101. -/
inductive Op where
  | insert (v : Val)
  | clear
deriving DecidableEq, Repr

/-- A history of calls; `none` is undefined behaviour.  For string_stream.h 38-101. -/
def run (null : List Char) (buf : Inplace.Vec Char) : List Op → Option (Inplace.Vec Char)
  | [] => some buf
  | .insert v :: ops =>
    (match insert null buf v with
    | none => none
    | some buf' => run null buf' ops)
  | .clear :: ops =>
    (match Inplace.clear buf with
    | none => none
    | some buf' => run null buf' ops)

/-- A new stream, string_stream.h 38. -/
def init : Inplace.Vec Char := Inplace.fresh capacity

/-- `empty()`, string_stream.h 40. -/
def empty (buf : Inplace.Vec Char) : Bool := Inplace.length buf == 0

/-- `str()`, string_stream.h 44-45: the string of what the iterators give; the inner `none` is an exception. -/
def str (buf : Inplace.Vec Char) : Option (List (Option Char)) := Inplace.iterate buf

end Verif.Str.Stream
