import Verif.Str.Ints
/-
Model of the enum classes: EnumToString.cpp 17-169, EnumToString.h 24-33 and the macro toolkit.h 70-78.
`int` and `s32` values are 32 bit words; a text is a list of characters.
-/
namespace Verif.EnumStr

/-- `int`, `s32`: EnumToString.cpp 21-27, EnumToString.h 27. -/
abbrev Val := BitVec 32

/-- `std::string`: EnumToString.cpp 21-27. -/
abbrev Text := List Char

/-! ### The values -/

/-- The initialiser of an enumerator: toolkit.h 70-78.  `auto`: none; `lit n`: a constant; `copy i`: the `i`-th enumerator; `plus i k`: the `i`-th
enumerator plus (or, with the opposite word, minus) a constant.  (Sums of two enumerators are not modelled.) -/
inductive Ini where
  | auto | lit (n : Val) | copy (i : Nat) | plus (i : Nat) (k : Val)
deriving DecidableEq, Repr

/-- `EnumValueHolder::Val`: EnumToString.h 24-31; `none` is `Uninitialized`, which is 0x7FFFFFFF00000000, so no `s32`. -/
abbrev Holder := Option Val

/-- The value of an initialiser expression, where the enumerators are local variables of type `EnumValueHolder`: EnumToString.h 28-33.  The sum of an uninitialised
holder and `k` is truncated to 32 bits: the low word of `Uninitialized` is zero. -/
def holderOf (hs : List Holder) : Ini → Holder
  | .auto => none
  | .lit n => some n
  | .copy i => (hs[i]?).getD none
  | .plus i k => some (((hs[i]?).getD none).getD 0 + k)

/-- The declarations `EnumValueHolder __VA_ARGS__;`: toolkit.h 74 (the list of line 75 repeats the same assignments). -/
def declare (hs : List Holder) : List Ini → List Holder
  | [] => hs
  | i :: r => declare (hs ++ [holderOf hs i]) r

/-- `Init`, first loop: EnumToString.cpp 137-144.  (Beyond `INT_MAX` the increment is undefined; the model wraps.) -/
def initValues (cur : Val) : List Holder → List Val
  | [] => []
  | h :: r => h.getD cur :: initValues (h.getD cur + 1) r

/-- `STINGRAYKIT_ENUM_VALUES(...)`: the values the map works with: toolkit.h 70-78 and EnumToString.cpp 137-144. -/
def enumValues (is : List Ini) : List Val := initValues 0 (declare [] is)

/-! ### The names -/

/-- `IsWhitespace`: EnumToString.cpp 34-35. -/
def isWs (c : Char) : Bool := c = ' ' || c = '\t' || c = '\n' || c = '\r'

/-- The characters of a name in the text of the macro: EnumToString.cpp 155. -/
def nameChar (c : Char) : Bool := !isWs c && c ≠ ',' && c ≠ '='

/-- `Init`, second loop: EnumToString.cpp 146-169: the names of `n` values; `none`: the text is exhausted (throws). -/
def parseNames : Nat → Text → Option (List Text)
  | 0, _ => some []
  | n + 1, s =>
    if s = [] then none
    else (parseNames n ((((s.dropWhile isWs).dropWhile nameChar).dropWhile (fun c => c ≠ ',')).drop 1)).map
      (fun r => (s.dropWhile isWs).takeWhile nameChar :: r)

/-! ### The maps -/

/-- `EnumToStringMapBase::Impl`: EnumToString.cpp 19-27.  `toStr` is ordered by the signed value; for `fromStr` only the lookup matters, it is kept in the
order of insertion. -/
structure Map where
  toStr : List (Val × Text)
  fromStr : List (Text × Val)
  values : List Val
deriving DecidableEq, Repr

/-- `_enumToStr.insert(...)`: EnumToString.cpp 162: nothing happens when the value is there. -/
def insertValue (v : Val) (n : Text) : List (Val × Text) → List (Val × Text)
  | [] => [(v, n)]
  | e :: r => if v.slt e.1 then (v, n) :: e :: r else if e.1.slt v then e :: insertValue v n r else e :: r

/-- `_strToEnum.find(...)`: EnumToString.cpp 99-101, 117-119. -/
def findName (m : List (Text × Val)) (n : Text) : Option Val := (m.find? (fun e => e.1 = n)).map (fun e => e.2)

/-- `_strToEnum.insert(...)`: EnumToString.cpp 163: nothing happens when the name is there. -/
def insertName (n : Text) (v : Val) (m : List (Text × Val)) : List (Text × Val) := if (findName m n).isSome then m else m ++ [(n, v)]

/-- `Init`, the two insertions of each round: EnumToString.cpp 149-165. -/
def fill (m : Map) : List (Val × Text) → Map
  | [] => m
  | e :: r => fill { m with toStr := insertValue e.1 e.2 m.toStr, fromStr := insertName e.2 e.1 m.fromStr } r

/-- `Init` given the names: EnumToString.cpp 135-169. -/
def build (vs : List Val) (ns : List Text) : Map := fill ⟨[], [], vs⟩ (vs.zip ns)

/-- `Init`: EnumToString.cpp 135-169 for the macro's arguments: toolkit.h 70-78. -/
def init (is : List Ini) (text : Text) : Option Map := (parseNames (enumValues is).length text).map (fun ns => build (enumValues is) ns)

/-! ### To text -/

/-- `result += "|"; result += name`: EnumToString.cpp 54-56. -/
def appendName (r n : Text) : Text := if r = [] then n else r ++ '|' :: n

/-- The condition under which an enumerator is named: EnumToString.cpp 49-51. -/
def wanted (val flagged e : Val) : Bool := e &&& val ≠ 0 && (e &&& ~~~val = 0) && e &&& ~~~flagged ≠ 0

/-- The loop over the enumerators: EnumToString.cpp 45-61: `flagged_val` and `result`. -/
def flagLoop (val : Val) : List (Val × Text) → Val → Text → Val × Text
  | [], f, r => (f, r)
  | e :: rest, f, r =>
    if wanted val f e.1 then
      if f ||| e.1 = val then (f ||| e.1, appendName r e.2) else flagLoop val rest (f ||| e.1) (appendName r e.2)
    else if f = val then (f, r) else flagLoop val rest f r

/-- `EnumToString`: EnumToString.cpp 39-71.  (The model of the integer output cannot fail: 10 digits are enough.) -/
def enumToString (m : Map) (val : Val) : Text :=
  match m.toStr.find? (fun e => e.1 = val) with
  | some e => e.2
  | none =>
    if (flagLoop val m.toStr 0 []).1 ≠ val then (Str.toText Str.u32 val.toNat).getD []
    else (flagLoop val m.toStr 0 []).2

/-! ### From text -/

/-- `isspace` of the "C" locale, skipped by `>>`: EnumToString.cpp 85, 91. -/
def isSpace (c : Char) : Bool := isWs c || c.toNat = 11 || c.toNat = 12

/-- The value of a text of digits, read by `s >> val`: EnumToString.cpp 85. -/
def readDigits (ds : Text) : Nat := ds.foldl (fun a c => a * 10 + (c.toNat - 48)) 0

/-- A text that begins with a digit: EnumToString.cpp 83-95.  (`s` is the text behind the whitespace.) -/
def readNumber (s : Text) : Option Val :=
  if readDigits (s.takeWhile Str.isDigit) < 2 ^ 32 && (s.dropWhile Str.isDigit).all isSpace then some (BitVec.ofNat 32 (readDigits (s.takeWhile Str.isDigit)))
  else none

/-- The characters of a name: EnumToString.cpp 111. -/
def tokenChar (c : Char) : Bool := !isWs c && c ≠ '|'

/-- One name: EnumToString.cpp 115-123: `none` throws. -/
def addName (m : List (Text × Val)) (tok : Text) (result : Val) : Option Val :=
  if tok = [] then some result else (findName m tok).map (fun v => result ||| v)

/-- The loop: EnumToString.cpp 103-127: whether there was a non-whitespace character, and the result; `none` throws.  The first argument bounds the number of rounds. -/
def orLoop (m : List (Text × Val)) : Nat → Text → Bool → Val → Option (Bool × Val)
  | 0, _, _, _ => none
  | n + 1, s, has, result =>
    if s = [] then some (has, result)
    else match addName m ((s.dropWhile isWs).takeWhile tokenChar) result with
      | none => none
      | some r =>
        if ((s.dropWhile isWs).dropWhile tokenChar).dropWhile isWs = [] then some (has || s.dropWhile isWs ≠ [], r)
        else orLoop m n ((((s.dropWhile isWs).dropWhile tokenChar).dropWhile isWs).drop 1) (has || s.dropWhile isWs ≠ []) r

/-- `EnumFromString` when the text does not begin with a digit: EnumToString.cpp 99-132. -/
def readNames (m : List (Text × Val)) (str : Text) : Option Val :=
  match findName m str with
  | some v => some v
  | none =>
    match orLoop m (str.length + 1) str false 0 with
    | some (true, v) => some v
    | _ => none

/-- `EnumFromString`: EnumToString.cpp 74-133. -/
def enumFromString (m : Map) (str : Text) : Option Val :=
  match str.dropWhile isWs with
  | [] => readNames m.fromStr str
  | c :: r => if Str.isDigit c then readNumber (c :: r) else readNames m.fromStr str

end Verif.EnumStr
