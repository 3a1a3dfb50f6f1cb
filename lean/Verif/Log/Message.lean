import Verif.Util.Compare

/-
Model of `LoggerMessage`: log/LoggerMessage.h 22-47, log/LoggerMessage.cpp 17-56.  How a time and a level are shown is left open: parameters.
-/
namespace Verif.Log.Message
open Verif.Util

/-- A text.  LoggerMessage.h 25. -/
abbrev Text := List Char

/-- A message, LoggerMessage.h 25-30; the level is the number of the enumerator (LogLevel.h 24-31). -/
structure Msg where
  name : Option Text
  level : Nat
  time : Int
  thread : Text
  message : Text
  highlight : Bool
deriving DecidableEq, Repr

/-- The name of the thread, LoggerMessage.cpp 24-25 and 37-38. -/
def threadName (current : Text) : Text := if current.isEmpty then "__undefined__".toList else current

/-- Both constructors, LoggerMessage.cpp 17-39: `now` and `current` are the time and the name of the current thread. -/
def make (name : Option Text) (level : Nat) (message : Text) (highlight : Bool) (now : Int) (current : Text) : Msg :=
  ⟨name, level, now, threadName current, message, highlight⟩

/-- Bytes are compared as unsigned ones (`char_traits`); for LoggerMessage.cpp 56. -/
def byteCmp (a b : Char) : Int := (a.toNat : Int) - b.toNat

/-- `operator <` of strings is made a `Cmp`, comparers.h 209-218; for LoggerMessage.cpp 56. -/
def textCmp : Cmp Text := lessToCmp (cmpToLess (collectionCmp byteCmp))

/-- `optional::Compare`, optional.h 314-321; for LoggerMessage.cpp 56. -/
def optionalCmp (a b : Option Text) : Int :=
  match b with
  | some y =>
    match a with
    | some x => textCmp x y
    | none => -1
  | none => if a.isSome then 1 else 0

/-- The members in the order in which they are compared, LoggerMessage.cpp 56. -/
def members : List (Cmp Msg) :=
  [fun a b => optionalCmp a.name b.name, fun a b => lessToCmp (fun x y : Nat => decide (x < y)) a.level b.level,
    fun a b => lessToCmp (fun x y : Int => decide (x < y)) a.time b.time, fun a b => textCmp a.thread b.thread, fun a b => textCmp a.message b.message]

/-- `operator <`, LoggerMessage.cpp 55-56. -/
def less (a b : Msg) : Bool := cmpToLess (memberCmp members) a b

/-- `operator ==`, toolkit.h 157-160, for LoggerMessage.h 46. -/
def equal (a b : Msg) : Bool := !less a b && !less b a

/-- `ToString`, LoggerMessage.cpp 42-52. -/
def text (showTime : Int → Text) (showLevel : Nat → Text) (m : Msg) : Text :=
  '[' :: showTime m.time ++ "] [".toList ++ showLevel m.level ++ "] {".toList ++ m.thread ++ "} ".toList ++
    (match m.name with
    | some n => '[' :: n ++ "] ".toList
    | none => []) ++ m.message

end Verif.Log.Message
