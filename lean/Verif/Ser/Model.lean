import Verif.Ser.Doc

/-!
# `ObjectOStream` and `ObjectIStream`

`serialization/Serialization.h`, `serialization/Serializer.h`, `serialization/Composite.h`.

The C++ templates choose a writer and a reader from the static type; `Ty` is the universe of those
types and every function below recurs on it.  Not modelled: objects that are stored by primary key
(a non-null `IObjectSerializator`), serialization of `IReadonlyList` and the other collection interfaces (they go through
`std::vector`), and the path recorded by `SettingsValueException`.
-/

namespace Verif.Ser

mutual
/-- The serializable types: TypeWriterImpl Serialization.h 53-101 and the overloads 299-488 -/
inductive Ty where
  /-- integers of the lists at Serialization.h 53-54 -/
  | int (signed : Bool) (bits : Nat)
  | bool
  | str
  /-- `std::vector<u8>`: Serialization.h 365-369 -/
  | bytes
  /-- `double`: Serialization.h 392-396 -/
  | double
  /-- `EmptyType`: Serialization.h 220-221 -/
  | empty
  /-- a class with `ToString` and `FromString`: Serialization.h 83-87 -/
  | rep (k : Nat)
  | opt (t : Ty)
  | pair (a b : Ty)
  /-- containers with `push_back`: Serialization.h 642-658 -/
  | vec (t : Ty)
  /-- `std::set`: Serialization.h 668-684 -/
  | set (t : Ty)
  /-- `std::map`: Serialization.h 806-818 -/
  | map (k v : Ty)
  /-- `std::map<std::string, V>`: Serialization.h 793-804 -/
  | strMap (v : Ty)
  | variant (as : Alts)
  /-- a class with `Serialize` and `Deserialize`: Serialization.h 288-297 -/
  | obj (fs : Fields)
  /-- `shared_ptr` to a non-polymorphic class: Serialization.h 299-315 -/
  | ptr (fs : Fields)
  /-- `shared_ptr` to a class created by the factory: Serialization.h 318-353 -/
  | poly (cs : Classes)
/-- The type list of a variant, not empty: Serialization.h 142-155 -/
inductive Alts where
  | one (t : Ty)
  | cons (t : Ty) (as : Alts)
/-- The properties that `Serialize` of a class writes, in order: `cons` as in Serialization.h 223-239 (also through
`MakeSerializer`, Composite.h 187-195, for members that are not optional), `opt` an optional member
through `MakeSerializer` and `MakeDeserializer` -/
inductive Fields where
  | nil
  | cons (name : Str) (t : Ty) (fs : Fields)
  | opt (name : Str) (t : Ty) (fs : Fields)
/-- The classes known to the factory context, with the names it gives them: Serialization.h 331-331, 728-728 -/
inductive Classes where
  | nil
  | cons (name : Str) (fs : Fields) (cs : Classes)
end

/-- The string-representable classes: value type, default, `ToString`, `FromString` (`none` when it throws) of
Serialization.h 85-86 -/
structure Env where
  C : Nat → Type
  dflt : (k : Nat) → C k
  toText : (k : Nat) → C k → Str
  ofText : (k : Nat) → Str → Option (C k)

mutual
/-- The values of a type; a double is a whole number here (simplification), a map is its sorted list of
entries, a shared pointer its pointee (Serialization.h 299-488) -/
def Ty.Val (E : Env) : Ty → Type
  | .int _ _ => Int
  | .bool => Bool
  | .str => Str
  | .bytes => List Nat
  | .double => Int
  | .empty => Unit
  | .rep k => E.C k
  | .opt t => Option (t.Val E)
  | .pair a b => a.Val E × b.Val E
  | .vec t => List (t.Val E)
  | .set t => List (t.Val E)
  | .map k v => List (k.Val E × v.Val E)
  | .strMap v => List (Str × v.Val E)
  | .variant as => as.Val E
  | .obj fs => fs.Val E
  | .ptr fs => Option (fs.Val E)
  | .poly cs => Option (cs.Val E)
/-- The values of a variant: Serialization.h 355-363 -/
def Alts.Val (E : Env) : Alts → Type
  | .one t => t.Val E
  | .cons t as => Sum (t.Val E) (as.Val E)
/-- The members of an object: Composite.h 187-195 -/
def Fields.Val (E : Env) : Fields → Type
  | .nil => Unit
  | .cons _ t fs => t.Val E × fs.Val E
  | .opt _ t fs => Option (t.Val E) × fs.Val E
/-- An object of one of the classes: Serialization.h 331-333 -/
def Classes.Val (E : Env) : Classes → Type
  | .nil => Empty
  | .cons _ fs cs => Sum (fs.Val E) (cs.Val E)
end

mutual
/-- `T()`: Serialization.h 152-152, 550-550, 647-647; members of `std::pair` are value-initialized -/
def Ty.dflt (E : Env) : (t : Ty) → t.Val E
  | .int _ _ => (0 : Int)
  | .bool => false
  | .str => ([] : Str)
  | .bytes => ([] : List Nat)
  | .double => (0 : Int)
  | .empty => ()
  | .rep k => E.dflt k
  | .opt _ => none
  | .pair a b => (a.dflt E, b.dflt E)
  | .vec _ => []
  | .set _ => []
  | .map _ _ => []
  | .strMap _ => []
  | .variant as => as.dflt E
  | .obj fs => fs.dflt E
  | .ptr _ => none
  | .poly _ => none
/-- A default-constructed variant holds its first alternative: variant of Serialization.h 733-740 -/
def Alts.dflt (E : Env) : (as : Alts) → as.Val E
  | .one t => t.dflt E
  | .cons t _ => .inl (t.dflt E)
/-- A default-constructed object: Composite.h 159-159 (numbers are not initialized there; they are read before use) -/
def Fields.dflt (E : Env) : (fs : Fields) → fs.Val E
  | .nil => ()
  | .cons _ t fs => (t.dflt E, fs.dflt E)
  | .opt _ _ fs => (none, fs.dflt E)
end

/-- A 64 bit signed integer from an unsigned one: `(s64)((u64)t)`, Serialization.h 79-79 -/
def toS64 (i : Int) : Int := (i + 2 ^ 63) % 2 ^ 64 - 2 ^ 63

/-- Conversion of an `s64` to an integer type: Serialization.h 73-73, 80-80 -/
def narrow (signed : Bool) (bits : Nat) (i : Int) : Int :=
  if signed then (i + 2 ^ (bits - 1)) % 2 ^ bits - 2 ^ (bits - 1) else i % 2 ^ bits

/-- The power of ten that `%lg` rounds to: FloatString.cpp 20-20 (six significant digits) -/
def gUnit : Nat → Nat → Nat
  | 0, _ => 1
  | fuel + 1, n => if n < 1000000 then 1 else 10 * gUnit fuel (n / 10)

/-- Nearest multiple, ties to the even one: the rounding of `snprintf` in FloatString.cpp 20-20 -/
def roundTo (u n : Nat) : Nat :=
  if n % u * 2 < u ∨ (n % u * 2 = u ∧ n / u % 2 = 0) then n / u * u else (n / u + 1) * u

/-- The number that the text of `FloatString(double)` denotes: FloatString.cpp 17-24, for whole numbers -/
def sixDigits (i : Int) : Int :=
  if i < 0 then -(roundTo (gUnit i.natAbs i.natAbs) i.natAbs : Nat) else (roundTo (gUnit i.natAbs i.natAbs) i.natAbs : Nat)

/-- Position of the alternative: `which()` in Serialization.h 359-359 -/
def Alts.which (E : Env) : (as : Alts) → as.Val E → Nat
  | .one _, _ => 0
  | .cons _ _, .inl _ => 0
  | .cons _ as, .inr v => as.which E v + 1

/-- `WritePropertyName`, if a name is given: Serialization.h 226-226 -/
def named : Option Str → List Ev
  | none => []
  | some n => [.name n]

mutual
/-- `ObjectOStream::Serialize(value)` without a name and `Serialize(name, value)` with one:
Serialization.h 205-239 and the `serialize` overloads 299-488 -/
def Ty.ser (E : Env) (nm : Option Str) : (t : Ty) → t.Val E → List Ev
  | .int signed _, (v : Int) => named nm ++ [.int (if signed then v else toS64 v)]
  | .bool, (v : Bool) => named nm ++ [.bool v]
  | .str, (v : Str) => named nm ++ [.str v]
  | .bytes, (v : List Nat) => named nm ++ [.bytes v]
  | .double, (v : Int) => named nm ++ [.float (sixDigits v)]
  | .empty, _ => []
  | .rep k, v => named nm ++ [.str (E.toText k v)]
  | .opt _, none => match nm with | none => [.null] | some _ => []
  | .opt t, some v => t.ser E nm v
  | .pair a b, v => named nm ++ .beginList :: a.ser E none v.1 ++ b.ser E none v.2 ++ [.endList]
  | .vec t, (v : List (t.Val E)) => named nm ++ .beginList :: v.flatMap (t.ser E none) ++ [.endList]
  | .set t, (v : List (t.Val E)) => named nm ++ .beginList :: v.flatMap (t.ser E none) ++ [.endList]
  | .map k w, (v : List (k.Val E × w.Val E)) =>
    named nm ++ .beginList ::
      v.flatMap (fun p => .beginList :: k.ser E none p.1 ++ w.ser E none p.2 ++ [.endList]) ++ [.endList]
  | .strMap w, (v : List (Str × w.Val E)) =>
    named nm ++ .beginList ::
      v.flatMap (fun p => .beginList :: [.str p.1] ++ w.ser E none p.2 ++ [.endList]) ++ [.endList]
  | .variant as, v =>
    named nm ++ .beginObj :: .name "index".toList :: .int (toS64 (as.which E v)) :: as.serObj E v ++ [.endObj]
  | .obj fs, v => named nm ++ .beginObj :: fs.ser E v ++ [.endObj]
  | .ptr _, none => named nm ++ [.null]
  | .ptr fs, some v => named nm ++ .beginObj :: fs.ser E v ++ [.endObj]
  | .poly _, none => named nm ++ [.null]
  | .poly cs, some v => named nm ++ .beginObj :: cs.ser E v ++ [.endObj]
/-- `VariantSerializeVisitor`: Serialization.h 115-120 -/
def Alts.serObj (E : Env) : (as : Alts) → as.Val E → List Ev
  | .one t, v => t.ser E (some "obj".toList) v
  | .cons t _, .inl v => t.ser E (some "obj".toList) v
  | .cons _ as, .inr v => as.serObj E v
/-- The body of `Serialize` of a class: Composite.h 184-188 or direct calls; an optional member that is null is
a null optional of `Serializer` (Serializer.h 97-106) and writes nothing -/
def Fields.ser (E : Env) : (fs : Fields) → fs.Val E → List Ev
  | .nil, _ => []
  | .cons n t fs, v => t.ser E (some n) v.1 ++ fs.ser E v.2
  | .opt n t fs, v => (match v.1 with | none => [] | some x => .name n :: t.ser E none x) ++ fs.ser E v.2
/-- The class name and the object: Serialization.h 333-350 -/
def Classes.ser (E : Env) : (cs : Classes) → cs.Val E → List Ev
  | .cons n fs _, .inl v => .name ".class".toList :: .str n :: fs.ser E v
  | .cons _ _ cs, .inr v => cs.ser E v
end

/-- `std::set::insert` / `std::map::insert` into the sorted sequence: an equivalent key keeps the old entry
(Serialization.h 675-675, 781-781, 790-790) -/
def insertBy {α κ : Type} (less : κ → κ → Bool) (key : α → κ) (x : α) : List α → List α
  | [] => [x]
  | y :: ys =>
    if less (key x) (key y) then x :: y :: ys
    else if less (key y) (key x) then y :: insertBy less key x ys
    else y :: ys

/-- The loop of `for_each` that stops at the first exception: Serialization.cpp 21-28 -/
def readAll {α : Type} (f : Doc → Option α) : List Doc → Option (List α)
  | [] => some []
  | d :: ds => (f d).bind fun x => (readAll f ds).map fun xs => x :: xs

/-- The loop of `for_each_kv`: Serialization.cpp 30-37 -/
def readAllKv {α : Type} (f : Doc → Option α) : List (Str × Doc) → Option (List (Str × α))
  | [] => some []
  | (n, d) :: ds => (f d).bind fun x => (readAllKv f ds).map fun xs => (n, x) :: xs

/-- Comparison of the keys of sets and maps: `std::less` of Serialization.h 675-675, 790-790 -/
abbrev Less (E : Env) := (t : Ty) → t.Val E → t.Val E → Bool

/-- A string: Serialization.cpp 47-48 -/
def strOf : Doc → Option Str
  | .str s => some s
  | _ => none

/-- `PairDeserializer`: Serialization.h 742-772; missing elements keep the old members -/
def readPair {α β : Type} (f : Doc → α → Option α) (g : Doc → β → Option β) (old : α × β) : List Doc → Option (α × β)
  | [] => some old
  | [a] => (f a old.1).map fun x => (x, old.2)
  | [a, b] => (f a old.1).bind fun x => (g b old.2).map fun y => (x, y)
  | a :: b :: _ :: _ => (f a old.1).bind fun _ => (g b old.2).bind fun _ => none

/-- A text as a string-representable object: Serialization.h 86-86 -/
def readRep (E : Env) (k : Nat) (s : Str) : Option (E.C k) :=
  if s = [] then some (E.dflt k) else E.ofText k s

/-- `GetTypeListLength`: Serialization.h 738-738 -/
def Alts.count : Alts → Nat
  | .one _ => 1
  | .cons _ as => as.count + 1

/-- `v = T()` for the alternative of the index; an unknown index changes nothing: Serialization.h 142-155, 738-738 -/
def Alts.setIndex (E : Env) : (as : Alts) → (i : Nat) → as.Val E → as.Val E
  | .one t, i, old => if i = 0 then t.dflt E else old
  | .cons t _, 0, _ => .inl (t.dflt E)
  | .cons _ as, i + 1, .inl v => if i < as.count then .inr (as.setIndex E i (as.dflt E)) else .inl v
  | .cons _ as, i + 1, .inr v => .inr (as.setIndex E i v)

mutual
/-- `ObjectIStream::Deserialize` into an object that holds `old`, of the root or of the property `src`, which may be
missing; `none` when it throws: Serialization.h 536-558, 560-569, 584-602, 604-923 -/
def Ty.deser (E : Env) (less : Less E) : (t : Ty) → (src : Option Doc) → t.Val E → Option (t.Val E)
  | .int signed bits, src, _ => src.bind fun d => (getInt d).map fun i => narrow signed bits i
  | .bool, src, _ => src.bind fun d => match d with | .bool b => some b | _ => none
  | .str, src, _ => src.bind strOf
  | .bytes, src, _ =>
    src.bind fun d => match d with
    | .bytes b => some b
    | .str s => unpack s
    | _ => none
  | .double, src, _ => src.bind fun d => match d with | .float n => some n | d => getInt d
  | .empty, _, old => some old
  | .rep k, src, _ => src.bind fun d => match d with | .str s => readRep E k s | _ => none
  | .opt _, none, _ => some none
  | .opt t, some d, _ => if isNull d then some none else (t.deser E less (some d) (t.dflt E)).map some
  | .pair a b, src, old =>
    src.bind fun d => (listOf d).bind (readPair (fun d => a.deser E less (some d)) (fun d => b.deser E less (some d)) old)
  | .vec t, src, _ => src.bind fun d => (listOf d).bind (readAll fun d => t.deser E less (some d) (t.dflt E))
  | .set t, src, _ =>
    src.bind fun d => (listOf d).bind fun ds =>
      (readAll (fun d => t.deser E less (some d) (t.dflt E)) ds).map fun xs =>
        xs.foldl (fun s x => insertBy (less t) id x s) []
  | .map k w, src, _ =>
    src.bind fun d => (listOf d).bind fun ds =>
      (readAll (fun d => (listOf d).bind
          (readPair (fun d => k.deser E less (some d)) (fun d => w.deser E less (some d)) (k.dflt E, w.dflt E))) ds).map
        fun xs => xs.foldl (fun s x => insertBy (less k) Prod.fst x s) []
  | .strMap w, src, _ =>
    src.bind fun d => match d with
    | .list ds =>
      (readAll (fun d => (listOf d).bind
          (readPair (fun d _ => strOf d) (fun d => w.deser E less (some d))
            (([] : Str), w.dflt E))) ds).map
        fun xs => xs.foldl (fun s x => insertBy (less .str) Prod.fst x s) []
    | d =>
      (mapOf d).bind fun ms =>
        (readAllKv (fun d => w.deser E less (some d) (w.dflt E)) ms).map
          fun xs => xs.foldl (fun s x => insertBy (less .str) Prod.fst x s) []
  | .variant as, src, old =>
    src.bind fun d => (mapOf d).bind fun ms => (find "index".toList ms).bind fun di => (getInt di).bind fun i =>
      as.deserObj E less (find "obj".toList ms) (as.setIndex E (narrow false 64 i).toNat old)
  | .obj fs, src, old => src.bind fun d => fs.deser E less d old
  | .ptr fs, src, _ => src.bind fun d => if isNull d then some none else (fs.deser E less d (fs.dflt E)).map some
  | .poly cs, src, _ =>
    src.bind fun d => if isNull d then some none
    else (mapOf d).bind fun ms => (find ".class".toList ms).bind fun dc =>
      match dc with
      | .str c => (cs.deser E less c d).map some
      | _ => none
/-- `VariantDeserializeVisitor` on the alternative held: Serialization.h 134-139 -/
def Alts.deserObj (E : Env) (less : Less E) : (as : Alts) → (src : Option Doc) → as.Val E → Option (as.Val E)
  | .one t, src, v => t.deser E less src v
  | .cons t _, src, .inl v => (t.deser E less src v).map .inl
  | .cons _ as, src, .inr v => (as.deserObj E less src v).map .inr
/-- The body of `Deserialize` of a class: Composite.h 191-195 or direct calls.  An optional member of a composite is
read through an optional of `OptionalDeserializationHelper` (Serializer.h 108-131, 196-208): when the property
is missing or null that optional is reset and the member is not written -/
def Fields.deser (E : Env) (less : Less E) : (fs : Fields) → Doc → fs.Val E → Option (fs.Val E)
  | .nil, _, old => some old
  | .cons n t fs, d, old =>
    (mapOf d).bind fun ms => (t.deser E less (find n ms) old.1).bind fun x =>
      (fs.deser E less d old.2).map fun y => (x, y)
  | .opt n t fs, d, old =>
    (mapOf d).bind fun ms =>
      (match find n ms with
        | none => some old.1
        | some p => if isNull p then some old.1 else (t.deser E less (some p) (t.dflt E)).map some).bind fun x =>
        (fs.deser E less d old.2).map fun y => (x, y)
/-- `_context->Create<T>(classname)` and `Deserialize`: Serialization.h 728-729; an unknown class name throws -/
def Classes.deser (E : Env) (less : Less E) : (cs : Classes) → Str → Doc → Option (cs.Val E)
  | .nil, _, _ => none
  | .cons n fs cs, c, d =>
    if c = n then (fs.deser E less d (fs.dflt E)).map .inl else (cs.deser E less c d).map .inr
end

/-- Smallest value of an integer type as an `s64`: IntegerDeserializer.h 32-32 -/
def lowest (signed : Bool) (bits : Nat) : Int := if signed then -2 ^ (bits - 1) else 0

/-- One more than the greatest value: IntegerDeserializer.h 33-33 -/
def pastEnd (signed : Bool) (bits : Nat) : Int := if signed then 2 ^ (bits - 1) - 1 + 1 else 2 ^ bits - 1 + 1

/-- `CheckedIntegerCaster`: IntegerDeserializer.h 26-37 -/
def checkedCast (signed : Bool) (bits : Nat) (i : Int) : Option Int :=
  if lowest signed bits ≤ i ∧ i < pastEnd signed bits then some (narrow signed bits i) else none

/-- `MakeIntegerDeserializer`: IntegerDeserializer.h 45-80; 64 bit integers are not checked -/
def deserChecked (signed : Bool) (bits : Nat) (d : Doc) : Option Int :=
  if bits = 64 then (getInt d).map (narrow signed 64)
  else ((getInt d).map (narrow true 64)).bind (checkedCast signed bits)

end Verif.Ser
