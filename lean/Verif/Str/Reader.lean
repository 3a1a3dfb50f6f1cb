/-
Model of `StringReader`, StringReader.h 16-69.
-/
namespace Verif.Reader

/-- `_text`, `_pos`: StringReader.h 19-20. -/
structure Reader where
  text : List Char
  pos : Nat

/-- The constructor: StringReader.h 23-26. -/
def open' (text : List Char) : Reader := ⟨text, 0⟩

/-- The loop of `ReadLine`: StringReader.h 33-54: the new position and the size of the delimiter; the first argument bounds the number of rounds. -/
def scan (text : List Char) : Nat → Nat → Nat × Nat
  | 0, newPos => (newPos, 0)
  | n + 1, newPos =>
    match text[newPos]? with
    | none => (newPos, 0)
    | some ch =>
      if ch = '\n' then (newPos, 1)
      else if ch = '\r' then
        if newPos + 1 < text.length ∧ text[newPos + 1]? = some '\n' then (newPos, 2) else (newPos, 1)
      else scan text n (newPos + 1)

/-- `ReadLine`: StringReader.h 28-60. -/
def readLine (r : Reader) : List Char × Reader :=
  ((r.text.drop r.pos).take ((scan r.text (r.text.length + 1) r.pos).1 - r.pos),
    ⟨r.text, (scan r.text (r.text.length + 1) r.pos).1 + (scan r.text (r.text.length + 1) r.pos).2⟩)

/-- `IsEndOfString`: StringReader.h 68. -/
def atEnd (r : Reader) : Bool := decide (r.pos = r.text.length)

/-- `Peek`: StringReader.h 62-66; `none`: the exception. -/
def peek (r : Reader) : Option Char := if atEnd r then none else r.text[r.pos]?

/-- Reading lines until the end, the way `ReadLine` (StringReader.h 28-68) is used; the first argument bounds the number of lines. -/
def readAll : Nat → Reader → List (List Char)
  | 0, _ => []
  | n + 1, r => if atEnd r then [] else (readLine r).1 :: readAll n (readLine r).2

end Verif.Reader
