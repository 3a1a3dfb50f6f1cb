/-
Model of Mapper.h 17-245: tables of value mappings, used in both directions.  Values are integers (in C++ enumerations or integers).
A mapping to a value that cannot be made is `none` (the exception of `Fail`).
-/
namespace Verif.Util.Mapper

/-- One side of an entry, Mapper.h 47-101.  `Fail` (25-39) has no `Fits`: a program in which it is asked does not compile, so it fits nothing. -/
inductive Side where
  | range (start stop back : Int)     -- 50-59; `start < stop` is asserted (55)
  | bi (preferred other : Int)        -- 61-70
  | tri (preferred a b : Int)         -- 72-77
  | quad (preferred a b c : Int)      -- 79-84
  | multi (values : List Int)         -- 86-91, 41-45; the first is the preferred one
  | value (v : Int)                   -- 93-98
  | fail                              -- 100
deriving DecidableEq, Repr

/-- `MultiValue::Fits`, Mapper.h 89 and 44. -/
def fitsAny : List Int → Int → Bool
  | [], _ => false
  | p :: next, val => val = p || fitsAny next val

/-- `Fits`, Mapper.h 53-57, 64-68, 75, 82, 89, 96. -/
def Side.fits : Side → Int → Bool
  | .range start stop _, val => start ≤ val && val < stop
  | .bi p o, val => val = p || val = o
  | .tri p a b, val => val = p || val = a || val = b
  | .quad p a b c, val => val = p || val = a || val = b || val = c
  | .multi vs, val => fitsAny vs val
  | .value v, val => val = v
  | .fail, _ => false

/-- `GetValue`, Mapper.h 58, 69, 76, 83, 90, 97 and 28-29. -/
def Side.get : Side → Option Int
  | .range _ _ back => some back
  | .bi p _ => some p
  | .tri p _ _ => some p
  | .quad p _ _ _ => some p
  | .multi vs => vs.head?
  | .value v => some v
  | .fail => none

/-- `HasValue`, Mapper.h 22 and 30. -/
def Side.has : Side → Bool
  | .fail => false
  | _ => true

/-- `MappingsList` and `DefaultMapping`: pairs of a source and a destination, Mapper.h 103-115, 147, 158. -/
structure Table where
  list : List (Side × Side)
  default : Side × Side

/-- The first entry that fits, in one direction: `ForIf` over `DetailDoMap`, Mapper.h 106-115, 150 and 161. -/
def first (side : Side × Side → Side) (val : Int) : List (Side × Side) → Option (Side × Side)
  | [] => none
  | e :: es => if (side e).fits val then some e else first side val es

/-- `Map`, Mapper.h 144-153. -/
def Table.map (t : Table) (val : Int) : Option Int :=
  match first Prod.fst val t.list with
  | some e => e.2.get
  | none => t.default.2.get

/-- `Unmap`, Mapper.h 155-164. -/
def Table.unmap (t : Table) (val : Int) : Option Int :=
  match first Prod.snd val t.list with
  | some e => e.1.get
  | none => t.default.1.get

/-- `HasMapping`, Mapper.h 166-175. -/
def Table.hasMapping (t : Table) (val : Int) : Bool :=
  match first Prod.fst val t.list with
  | some e => e.2.has
  | none => t.default.2.has

/-- `HasBackMapping`, Mapper.h 177-186. -/
def Table.hasBackMapping (t : Table) (val : Int) : Bool :=
  match first Prod.snd val t.list with
  | some e => e.1.has
  | none => t.default.1.has

end Verif.Util.Mapper
