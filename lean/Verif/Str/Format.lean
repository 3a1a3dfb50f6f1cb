import Verif.Str.Ints

/-
Model of `StringFormat`, string/StringFormat.h 19-96.  The arguments are given by their texts; an exception is `none`.
-/
namespace Verif.Str

/-- `ArgumentToString`, StringFormat.h 19-38; `index` counts from 0. -/
def formatArg (args : List (List Char)) (index width : Nat) : Option (List Char) :=
  match args[index]? with
  | none => none
  | some text => if width = 0 then some text else if text.length < width then some (List.replicate (width - text.length) '0' ++ text) else some text

/-- `FromString<size_t>`, StringFormat.h 72, 81. -/
def formatNumber (text : List Char) : Option Nat :=
  match fromText u64 text with
  | .ok v => some v.toNat
  | _ => none

/-- The text between two percent signs, StringFormat.h 67-84. -/
def formatPlace (args : List (List Char)) (body : List Char) : Option (List Char) :=
  if (body.takeWhile (· ≠ '$')).isEmpty then none
  else
    match formatNumber (body.takeWhile (· ≠ '$')) with
    | none => none
    | some index =>
      if index = 0 then none
      else
        match body.dropWhile (· ≠ '$') with
        | [] => formatArg args (index - 1) 0
        | _ :: widthText =>
          if widthText.isEmpty then none
          else
            match formatNumber widthText with
            | none => none
            | some width => formatArg args (index - 1) width

/-- The loop over the format, StringFormat.h 48-93; the number bounds the iterations. -/
def formatLoop (args : List (List Char)) : Nat → List Char → Option (List Char)
  | 0, _ => none
  | _ + 1, [] => some []
  | fuel + 1, c :: cs =>
    if c = '%' then
      match cs.dropWhile (· ≠ '%') with
      | [] => none
      | _ :: after =>
        if (cs.takeWhile (· ≠ '%')).isEmpty then (formatLoop args fuel after).map ('%' :: ·)
        else
          match formatPlace args (cs.takeWhile (· ≠ '%')) with
          | none => none
          | some text => (formatLoop args fuel after).map (text ++ ·)
    else (formatLoop args fuel cs).map (c :: ·)

/-- `StringFormat`, StringFormat.h 43-96. -/
def stringFormat (format : List Char) (args : List (List Char)) : Option (List Char) := formatLoop args (format.length + 1) format

end Verif.Str
