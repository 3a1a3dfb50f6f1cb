/-
Model of the command line, CmdLine.h 29-518, CmdLine.cpp 18-65.
A position in the command is the text that is left.  The readers return the number of characters read, 0 for failure: here `none` for 0, else the value and the text left.
Simplified: types read with `FromString` are abstract (`num`, with a parameter `parse`); handlers are called one at a time (a released handler is not in the list any more).
-/
namespace Verif.Cmd

/-- Types of arguments: CmdLine.h 31-133. -/
inductive Ty where
  | str
  | num
  | bool
  | opt (t : Ty)
  | vec (t : Ty)
deriving DecidableEq, Repr

/-- Values of arguments: CmdLine.h 31-133. -/
inductive Val (N : Type) where
  | str (s : List Char)
  | num (n : N)
  | bool (b : Bool)
  | opt (o : Option (Val N))
  | vec (l : List (Val N))

/-- `CmdArgReader::Read` for strings, the loop: CmdLine.h 46-63: escaping, text left; value and text left. -/
def readStr : Bool → List Char → List Char × List Char
  | _, [] => ([], [])
  | esc, c :: s =>
    if (c = ' ' ∨ c = ',' ∨ c = ']') ∧ ¬ esc then ([], c :: s)
    else if c = '\\' ∧ ¬ esc then readStr true s
    else (c :: (readStr false s).1, (readStr false s).2)

/-- Skipping spaces: CmdLine.h 112-113, 119-120, 126-127. -/
def skipSpaces : List Char → List Char
  | ' ' :: s => skipSpaces s
  | s => s

/-- The loop of `Read` for vectors: CmdLine.h 109-132; the first argument bounds the number of rounds (each one reads something). -/
def vecLoop {β : Type} (rd : List Char → Option (β × List Char)) : Nat → List Char → Option (List β × List Char)
  | _, [] => none
  | _, ']' :: r => some ([], r)
  | 0, _ => none
  | n + 1, s =>
    match rd (skipSpaces s) with
    | none => none
    | some (v, r) =>
      match skipSpaces r with
      | [] => none
      | ']' :: q => some ([v], q)
      | ',' :: q => match vecLoop rd n (skipSpaces q) with
        | none => none
        | some (l, q') => some (v :: l, q')
      | _ => none

/-- `CmdArgReader::Read`: CmdLine.h 31-133. -/
def read {N : Type} (parse : List Char → Option N) : Ty → List Char → Option (Val N × List Char)
  | .str, s =>
    if (readStr false s).2.length = s.length then none else some (.str (readStr false s).1, (readStr false s).2)
  | .num, s =>
    match parse (readStr false s).1 with
    | none => none
    | some n => if (readStr false s).2.length = s.length then none else some (.num n, (readStr false s).2)
  | .bool, s =>
    if (readStr false s).1 = "on".toList ∨ (readStr false s).1 = "true".toList then some (.bool true, (readStr false s).2)
    else if (readStr false s).1 = "off".toList ∨ (readStr false s).1 = "false".toList then some (.bool false, (readStr false s).2)
    else none
  | .opt t, s =>
    if (readStr false s).1 = "none".toList then some (.opt none, (readStr false s).2)
    else
      match read parse t (s.take (s.length - (readStr false s).2.length)) with
      | some (v, []) => some (.opt (some v), (readStr false s).2)
      | _ => none
  | .vec _, [] => none
  | .vec t, c :: s =>
    if c ≠ '[' then none
    else
      match vecLoop (read parse t) s.length s with
      | none => none
      | some (l, r) => some (.vec l, r)

/-- After a word: end of the command, or one space which is skipped: CmdLine.h 301-308, 353-359. -/
def afterWord : List Char → Option (List Char)
  | [] => some []
  | c :: s => if c ≠ ' ' then none else some s

/-- `StringsParser` for all strings of the handler: CmdLine.h 285-310, 404. -/
def parseStrings : List (List Char) → List Char → Option (List Char)
  | [], cmd => some cmd
  | s :: ss, cmd =>
    if s.length > cmd.length then none
    else if s ≠ cmd.take s.length then none
    else match afterWord (cmd.drop s.length) with
      | none => none
      | some r => parseStrings ss r

/-- `ArgsParser` for all parameters: CmdLine.h 338-364, 406. -/
def parseArgs {N : Type} (parse : List Char → Option N) : List Ty → List Char → Option (List (Val N) × List Char)
  | [], cmd => some ([], cmd)
  | t :: ts, cmd =>
    match read parse t cmd with
    | none => none
    | some (v, r) =>
      match afterWord r with
      | none => none
      | some r' => match parseArgs parse ts r' with
        | none => none
        | some (vs, r'') => some (v :: vs, r'')

/-- `CmdHandler::Execute`: CmdLine.h 398-418: the arguments the handler is called with. -/
def handle {N : Type} (parse : List Char → Option N) (strings : List (List Char)) (types : List Ty) (cmd : List Char) : Option (List (Val N)) :=
  match parseStrings strings cmd with
  | none => none
  | some r =>
    match parseArgs parse types r with
    | some (vs, []) => some vs
    | _ => none

/-- The handlers by key, in order of keys: CmdLine.h 447, 499. -/
abbrev Commands (H : Type) := List (Nat × H)

/-- `CmdLine::Register`: CmdLine.cpp 43-51: the key given and the handlers. -/
def register {H : Type} (cmds : Commands H) (h : H) : Nat × Commands H :=
  match cmds.getLast? with
  | none => (0, [(0, h)])
  | some (k, _) => (1 + k, cmds ++ [(1 + k, h)])

/-- `CmdLine::Unregister`: CmdLine.cpp 54-65. -/
def unregister {H : Type} (cmds : Commands H) (key : Nat) : Commands H := cmds.filter (fun e => decide (e.1 ≠ key))

/-- The loop over the handlers: CmdLine.cpp 28-32: the handler called and its arguments. -/
def tryHandlers {H A : Type} (accepts : H → List Char → Option A) (cmd : List Char) : Commands H → Option (H × A)
  | [] => none
  | (_, h) :: rest => match accepts h cmd with
    | some a => some (h, a)
    | none => tryHandlers accepts cmd rest

/-- `CmdLine::Execute`: CmdLine.cpp 23-33: the result, and the handler called with its arguments. -/
def execute {H A : Type} (accepts : H → List Char → Option A) (cmds : Commands H) (cmd : List Char) : Bool × Option (H × A) :=
  if cmd.head? = some '#' then (true, none)
  else match tryHandlers accepts cmd cmds with
    | some r => (true, some r)
    | none => (false, none)

/-- `std::set::insert`: CmdLine.h 176, 325; the order of the set is not modelled. -/
def insert (results : List (List Char)) (r : List Char) : List (List Char) := if results.contains r then results else results ++ [r]

/-- `StringsCompleter`: CmdLine.h 312-336, for all strings, 423: results, and the text left if the arguments are to be completed. -/
def completeStrings : List (List Char) → List Char → List (List Char) → List (List Char) × Option (List Char)
  | [], input, results => (results, some input)
  | str :: ss, input, results =>
    if str.take (min str.length input.length) ≠ input.take (min str.length input.length) then (results, none)
    else if str.length ≥ input.length then (insert results (str.drop (min str.length input.length) ++ [' ']), none)
    else if input[str.length]? ≠ some ' ' then (results, none)
    else completeStrings ss (input.drop (str.length + 1)) results

/-- `ReplaceAll` of one character by the escaped character: CmdLine.h 173-175. -/
def escapeChar (c : Char) (s : List Char) : List Char := s.flatMap (fun x => if x = c then ['\\', x] else [x])

/-- The text offered for a candidate: CmdLine.h 172-176. -/
def offer (value candidate : List Char) : List Char :=
  escapeChar ',' (escapeChar ']' (escapeChar ' ' (candidate.drop value.length))) ++ [' ']

/-- The loop over the candidates: CmdLine.h 163-178. -/
def offers (value : List Char) : List (List Char) → List (List Char) → List (List Char)
  | [], results => results
  | c :: cs, results => offers value cs (if value.isPrefixOf c then insert results (offer value c) else results)

/-- `CmdArgCompleter::Complete` with a custom function: CmdLine.h 156-185: results, and the text left if the next argument is to be completed. -/
def completeCustom (candidates : List (List Char)) (input : List Char) (results : List (List Char)) : List (List Char) × Option (List Char) :=
  if candidates.contains (readStr false input).1
      ∧ ((offers (readStr false input).1 candidates results).length = 1 ∨ (readStr false input).2 ≠ []) then
    ([], some ((readStr false input).2.drop 1))
  else (offers (readStr false input).1 candidates results, none)

end Verif.Cmd
