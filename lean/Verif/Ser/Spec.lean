import Verif.Ser.Doc

/-!
# What an object output stream does with its events

The interface contract of `IObjectOStreamPrivate`: the document that the calls describe.  Events in a
wrong place (a value in an object without a name, an unbalanced end) have no document.
-/

namespace Verif.Ser

/-- An open list, an open object with the name just written, or the outermost level -/
inductive Frame where
  | list (ds : List Doc)
  | obj (ms : List (Str × Doc)) (pending : Option Str)

/-- The open lists and objects, innermost first; the bottom `done` collects the finished documents -/
structure Builder where
  open_ : List Frame
  done : List Doc

/-- A finished value goes to the place that waits for one -/
def Builder.put (b : Builder) (d : Doc) : Option Builder :=
  match b.open_ with
  | [] => some { b with done := b.done ++ [d] }
  | .list ds :: fs => some { b with open_ := .list (ds ++ [d]) :: fs }
  | .obj ms (some n) :: fs => some { b with open_ := .obj (ms ++ [(n, d)]) none :: fs }
  | .obj _ none :: _ => none

/-- One call -/
def Builder.step (b : Builder) : Ev → Option Builder
  | .null => b.put .null
  | .bool x => b.put (.bool x)
  | .int i => b.put (.int i)
  | .float n => b.put (.float n)
  | .str s => b.put (.str s)
  | .bytes x => b.put (.bytes x)
  | .name n =>
    match b.open_ with
    | .obj ms none :: fs => some { b with open_ := .obj ms (some n) :: fs }
    | _ => none
  | .beginList => some { b with open_ := .list [] :: b.open_ }
  | .endList =>
    match b.open_ with
    | .list ds :: fs => Builder.put { b with open_ := fs } (.list ds)
    | _ => none
  | .beginObj => some { b with open_ := .obj [] none :: b.open_ }
  | .endObj =>
    match b.open_ with
    | .obj ms none :: fs => Builder.put { b with open_ := fs } (.map ms)
    | _ => none

/-- All calls -/
def Builder.run (b : Builder) : List Ev → Option Builder
  | [] => some b
  | e :: es => (b.step e).bind fun b => b.run es

/-- The events describe exactly this one document -/
def Describes (es : List Ev) (d : Doc) : Prop :=
  Builder.run ⟨[], []⟩ es = some ⟨[], [d]⟩

end Verif.Ser
