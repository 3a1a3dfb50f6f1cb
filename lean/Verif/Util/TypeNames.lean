/-
Model of the names of types: `TypeInfo::GetName`, `GetNamespaceName`, `GetClassName` (TypeInfo.cpp 15-44) and `Demangle` (toolkit.cpp 42-55).  What `__cxa_demangle` gives is any text, or a failure.
-/
namespace Verif.Util.TypeNames

/-- `Demangle`: the raw name if the system cannot, toolkit.cpp 45-55. -/
def demangle (cxa : List Char → Option (List Char)) (s : List Char) : List Char :=
  match cxa s with
  | none => s
  | some r => r

/-- `name.find('<')`, TypeInfo.cpp 24. -/
def findLt : List Char → Option Nat
  | [] => none
  | c :: s => if c = '<' then some 0 else (findLt s).map (· + 1)

/-- There is a `::` at this place.  For TypeInfo.cpp 26. -/
def at2 (s : List Char) (i : Nat) : Bool := (s.drop i).take 2 == [':', ':']

/-- The last `::` at `i` or before.  For TypeInfo.cpp 26. -/
def rfindFrom (s : List Char) : Nat → Option Nat
  | 0 => if at2 s 0 then some 0 else none
  | i + 1 => if at2 s (i + 1) then some (i + 1) else rfindFrom s i

/-- `name.rfind("::", pos)`, TypeInfo.cpp 26 and 36. -/
def rfind (s : List Char) (pos : Option Nat) : Option Nat :=
  if s.length < 2 then none
  else
    match pos with
    | none => rfindFrom s (s.length - 2)
    | some p => rfindFrom s (min p (s.length - 2))

/-- `GetNamespaceName` of a name, TypeInfo.cpp 21-28. -/
def namespaceName (name : List Char) : List Char :=
  match rfind name (findLt name) with
  | none => []
  | some i => name.take i

/-- `GetClassName` of a name, TypeInfo.cpp 31-38. -/
def className (name : List Char) : List Char :=
  match rfind name (findLt name) with
  | none => name
  | some i => name.drop (i + 2)

end Verif.Util.TypeNames
