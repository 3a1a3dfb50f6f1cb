/-
Model of string/StringUtils.h 20-333: searching, splitting, joining, replacing and stripping.
Strings are lists of characters; `npos` is `none`.
-/
namespace Verif.Str

/-- Scan for `pat` from the current position `off`.  For StringUtils.h 20-332. -/
def scan (pat : List Char) : List Char → Nat → Option Nat
  | [], off => if pat = [] then some off else none
  | c :: cs, off => if pat.isPrefixOf (c :: cs) then some off else scan pat cs (off + 1)

/-- `std::string::find(pat, pos)`.  For StringUtils.h 20-332. -/
def find (s pat : List Char) (pos : Nat) : Option Nat :=
  if pos ≤ s.length then scan pat (s.drop pos) pos else none

/-- Scan for one of the characters of `set`.  For StringUtils.h 20-332. -/
def scanAny (set : List Char) : List Char → Nat → Option Nat
  | [], _ => none
  | c :: cs, off => if set.contains c then some off else scanAny set cs (off + 1)

/-- `std::string::find_first_of(set, pos)`.  For StringUtils.h 20-332. -/
def findAny (s set : List Char) (pos : Nat) : Option Nat := scanAny set (s.drop pos) pos

/-- `DelimiterMatch`, StringUtils.h 168-175. -/
structure Match where
  position : Option Nat
  size : Nat
deriving DecidableEq, Repr

/-- `StaticSplitDelimiter::operator()`, StringUtils.h 205-207. -/
def delimSearch (d s : List Char) (pos : Nat) : Match := ⟨find s d pos, d.length⟩

/-- `IsAnyOf::operator()`, StringUtils.h 188-190. -/
def anySearch (set s : List Char) (pos : Nat) : Match := ⟨findAny s set pos, 1⟩

/-- The state of a `SplitStringRange`, StringUtils.h 225-230. -/
structure SplitRange where
  startPos : Option Nat
  next : Match
  results : Nat
deriving DecidableEq, Repr

/-- The constructor, StringUtils.h 233-235. -/
def SplitRange.init (search : Nat → Match) : SplitRange := ⟨some 0, search 0, 0⟩

/-- `StringRef(owner, begin, end)` turned into a string, StringUtils.h 128-161. -/
def refStr (s : List Char) (b : Nat) (e : Option Nat) : List Char :=
  (s.take (e.getD s.length)).drop b

/-- `Get`, StringUtils.h 240-244; `none` is the exception. -/
def SplitRange.get (s : List Char) (r : SplitRange) : Option (List Char) :=
  match r.startPos with
  | none => none
  | some b => some (refStr s b r.next.position)

/-- `First`, StringUtils.h 249-254. -/
def SplitRange.first (r : SplitRange) : SplitRange := { r with startPos := some 0, results := 0 }

/-- `Next`, StringUtils.h 256-266; limit 0 is `NoLimit`. -/
def SplitRange.step (search : Nat → Match) (limit : Nat) (r : SplitRange) : SplitRange :=
  match r.next.position with
  | none => { r with startPos := none }
  | some p =>
    if limit = 0 then ⟨some (p + r.next.size), search (p + r.next.size), r.results⟩
    else if r.results + 1 < limit then ⟨some (p + r.next.size), search (p + r.next.size), r.results + 1⟩
    else ⟨some (p + r.next.size), ⟨none, 0⟩, r.results + 1⟩

/-- The strings a caller collects with `Valid`, `Get` and `Next`; `none` if they do not end within the fuel.  For StringUtils.h 20-332. -/
def collect (s : List Char) (search : Nat → Match) (limit : Nat) : Nat → SplitRange → Option (List (List Char))
  | 0, _ => none
  | fuel + 1, r =>
    match r.get s with
    | none => some []
    | some piece => (collect s search limit fuel (r.step search limit)).map (piece :: ·)

/-- `Split(string, delimiter, limit)`, StringUtils.h 275-276, collected. -/
def split (fuel : Nat) (s d : List Char) (limit : Nat) : Option (List (List Char)) :=
  collect s (delimSearch d s) limit fuel (.init (delimSearch d s))

/-- `Split(string, IsAnyOf(set), limit)`, StringUtils.h 279-280, collected. -/
def splitAny (fuel : Nat) (s set : List Char) (limit : Nat) : Option (List (List Char)) :=
  collect s (anySearch set s) limit fuel (.init (anySearch set s))

/-- `Join(separator, range)`, StringUtils.h 283-299: the loop of lines 295-296. -/
def joinRest (sep : List Char) : List (List Char) → List Char
  | [] => []
  | p :: ps => sep ++ p ++ joinRest sep ps

/-- `Join(separator, range)`, StringUtils.h 283-299. -/
def join (sep : List Char) : List (List Char) → List Char
  | [] => []
  | p :: ps => p ++ joinRest sep ps

/-- The loop of `ReplaceAll`, StringUtils.h 35-40; `std::search` returns the end if there is no match. -/
def replaceLoop (src dst : List Char) : Nat → List Char → Nat → Option (List Char)
  | 0, _, _ => none
  | fuel + 1, result, index =>
    if (find (result.take index ++ dst ++ result.drop (index + src.length)) src (index + dst.length)).getD
        (result.take index ++ dst ++ result.drop (index + src.length)).length
        < (result.take index ++ dst ++ result.drop (index + src.length)).length then
      replaceLoop src dst fuel (result.take index ++ dst ++ result.drop (index + src.length))
        ((find (result.take index ++ dst ++ result.drop (index + src.length)) src (index + dst.length)).getD
          (result.take index ++ dst ++ result.drop (index + src.length)).length)
    else some (result.take index ++ dst ++ result.drop (index + src.length))

/-- `ReplaceAll`, StringUtils.h 20-43; `none` if it does not end within the fuel. -/
def replaceAll (fuel : Nat) (s src dst : List Char) : Option (List Char) :=
  match find s src 0 with
  | none => some s
  | some index => replaceLoop src dst fuel s index

/-- `LeftStrip`, StringUtils.h 324-328. -/
def leftStrip (s chars : List Char) : List Char := s.dropWhile chars.contains

/-- `RightStrip`, StringUtils.h 317-321. -/
def rightStrip (s chars : List Char) : List Char := (s.reverse.dropWhile chars.contains).reverse

/-- `Strip`, StringUtils.h 331-332. -/
def strip (s chars : List Char) : List Char := leftStrip (rightStrip s chars) chars

/-- A `StringRef`, StringUtils.h 115-162: begin and end in the owner. -/
structure Ref where
  b : Nat
  e : Nat
deriving DecidableEq, Repr

/-- `StringRef::str`, StringUtils.h 151, 160-161. -/
def Ref.str (owner : List Char) (r : Ref) : List Char := (owner.take r.e).drop r.b

/-- `StringRef::find(std::string, pos)`, StringUtils.h 139-143. -/
def Ref.find (owner : List Char) (r : Ref) (pat : List Char) (pos : Nat) : Option Nat :=
  match Str.find owner pat (pos + r.b) with
  | none => none
  | some p => if p ≥ r.e then none else some (p - r.b)

/-- `StringRef::substr(pos, n)`, StringUtils.h 145-146. -/
def Ref.substr (r : Ref) (pos : Nat) (n : Option Nat) : Ref :=
  ⟨r.b + pos, match n with
    | none => r.e
    | some n => r.b + pos + n⟩

end Verif.Str
