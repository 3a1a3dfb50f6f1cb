/-
Model of `TranslatedString` and its builders: string/TranslatedString.h 18-92, string/TranslatedString.cpp 18-104 and
string/TranslatedStringUtils.h 20-100.  A language is the number of its code, 0 being `LangCode::Any`; a text is a list of characters.
Not modelled: serialization, `ToString`.
-/
namespace Verif.Locale

/-- A text.  For TranslatedString.h 18-92. -/
abbrev Text := List Char

/-- `MapDictionary<LangCode, std::string>`: the entries in the order of the codes.  For TranslatedString.cpp 18-104. -/
abbrev Dict := List (Nat × Text)

/-- `Set` of the dictionary, used in TranslatedString.cpp 25 and 94. -/
def Dict.set : Dict → Nat → Text → Dict
  | [], k, v => [(k, v)]
  | (k', v') :: d, k, v => if k < k' then (k, v) :: (k', v') :: d else if k = k' then (k, v) :: d else (k', v') :: Dict.set d k v

/-- `TryGet` of the dictionary, used in TranslatedString.cpp 51; `ContainsKey` in 33. -/
def Dict.find (d : Dict) (k : Nat) : Option Text := (d.find? (·.1 == k)).map (·.2)

/-- `HasTranslation`, TranslatedString.cpp 28-34. -/
def has (d : Dict) (lang : Nat) : Bool := if lang = 0 then !d.isEmpty else (d.find lang).isSome

/-- `TryGetTranslation`, TranslatedString.cpp 45-52. -/
def tryGet (d : Dict) (lang : Nat) : Option Text := if lang = 0 then (d.map (·.2)).head? else d.find lang

/-- `SelectTranslation` of a list of languages, TranslatedString.h 56-64. -/
def selectFrom (d : Dict) (langs : List Nat) : Text := (langs.findSome? (tryGet d)).getD []

/-- `SelectTranslation(lang, langs...)`, TranslatedString.h 52-54. -/
def select (d : Dict) (lang : Nat) (langs : List Nat) : Text := selectFrom d (lang :: (langs ++ [0]))

/-! ### The objects -/

/-- A `Builder`: its dictionary, null after `Get`, and `_dirty`.  TranslatedString.h 74-82. -/
structure Builder where
  product : Option Nat
  dirty : Bool
deriving DecidableEq, Repr

/-- Dictionaries on the heap, the strings (each shares a dictionary) and the builders.  For TranslatedString.h 18-92. -/
structure State where
  heap : List Dict
  strings : List Nat
  builders : List Builder
deriving DecidableEq, Repr

/-- The operations, TranslatedString.cpp 18-104. -/
inductive Act where
  | make (lang : Nat) (text : Text)          -- TranslatedString.cpp 23-25
  | empty                                    -- TranslatedString.cpp 18-20
  | copy (s : Nat)                           -- the implicit copy constructor
  | assign (s t : Nat)                       -- the implicit assignment
  | builder                                  -- TranslatedString.cpp 76-78
  | builderFrom (s : Nat)                    -- TranslatedString.cpp 81-83
  | add (b : Nat) (lang : Nat) (text : Text) -- TranslatedString.cpp 86-96
  | get (b : Nat)                            -- TranslatedString.cpp 99-104
deriving DecidableEq, Repr

/-- Outcome of a call.  For TranslatedString.cpp 18-104. -/
inductive Out where
  | ok (s : State)
  | threw (s : State)
  | undefined

/-- `AddTranslation`, TranslatedString.cpp 86-96; a null dictionary is dereferenced in 90 or 94. -/
def addTo (s : State) (b : Nat) (x : Builder) (lang : Nat) (text : Text) : Out :=
  match x.product with
  | none => .undefined
  | some p =>
    if x.dirty then .ok { s with heap := s.heap.modify p (·.set lang text) }
    else .ok { s with heap := s.heap ++ [(s.heap.getD p []).set lang text], builders := s.builders.set b ⟨some s.heap.length, true⟩ }

/-- One operation, TranslatedString.cpp 18-104; `undefined` also if the object does not exist. -/
def step (s : State) : Act → Out
  | .make lang text => .ok { s with heap := s.heap ++ [Dict.set [] lang text], strings := s.strings ++ [s.heap.length] }
  | .empty => .ok { s with heap := s.heap ++ [[]], strings := s.strings ++ [s.heap.length] }
  | .copy i =>
    match s.strings[i]? with
    | none => .undefined
    | some p => .ok { s with strings := s.strings ++ [p] }
  | .assign i j =>
    match s.strings[j]? with
    | none => .undefined
    | some p => .ok { s with strings := s.strings.set i p }
  | .builder => .ok { s with heap := s.heap ++ [[]], builders := s.builders ++ [⟨some s.heap.length, true⟩] }
  | .builderFrom i =>
    match s.strings[i]? with
    | none => .undefined
    | some p => .ok { s with builders := s.builders ++ [⟨some p, false⟩] }
  | .add b lang text =>
    match s.builders[b]? with
    | none => .undefined
    | some x => addTo s b x lang text
  | .get b =>
    match s.builders[b]? with
    | none => .undefined
    | some x =>
      match x.product with
      | none => .threw s
      | some p => .ok { s with strings := s.strings ++ [p], builders := s.builders.set b { x with product := none } }

/-- A sequence of operations; an exception is caught by the caller.  For TranslatedString.cpp 18-104. -/
def run (s : State) : List Act → Option State
  | [] => some s
  | a :: as =>
    match step s a with
    | .ok s' => run s' as
    | .threw s' => run s' as
    | .undefined => none

/-- At the beginning there is nothing.  For TranslatedString.cpp 18-104. -/
def State.init : State := ⟨[], [], []⟩

/-- The translations of a string.  TranslatedString.h 41-42. -/
def State.content (s : State) (i : Nat) : Option Dict := (s.strings[i]?).bind (s.heap[·]?)

/-! ### Formatting -/

/-- An argument: a text, or a translated string.  TranslatedStringUtils.h 23-28. -/
inductive Arg where
  | plain (t : Text)
  | translated (d : Dict)

/-- `GetTranslatedValue`, TranslatedStringUtils.h 23-28. -/
def translate (lang : Nat) : Arg → Text
  | .plain t => t
  | .translated d => select d lang []

/-- `TranslatedStringFormat`, TranslatedStringUtils.h 33-40; `fmt` is `StringFormat`. -/
def formatAll (fmt : Text → List Text → Text) (d : Dict) (args : List Arg) : Dict :=
  d.foldl (fun acc p => acc.set p.1 (fmt p.2 (args.map (translate p.1)))) []

/-- The constructor of `TranslatedStringBuilder`, TranslatedStringUtils.h 56-61: `emplace` keeps what is there. -/
def tsbNew (langs : List Nat) : Dict := langs.foldl (fun m l => if (m.find l).isSome then m else m.set l []) []

/-- `operator %`, TranslatedStringUtils.h 63-70. -/
def tsbAdd (m : Dict) (a : Arg) : Dict := m.map fun p => (p.1, p.2 ++ translate p.1 a)

/-- `Get`, TranslatedStringUtils.h 72-79. -/
def tsbGet (m : Dict) : Dict := m.foldl (fun acc p => acc.set p.1 p.2) []

/-- The loop of `Join`, TranslatedStringUtils.h 90-98. -/
def joinLoop (sep : Text) : List Arg → Bool → Dict → Dict
  | [], _, m => m
  | a :: as, empty, m => joinLoop sep as false (tsbAdd (if empty then m else tsbAdd m (.plain sep)) a)

/-- `Join`, TranslatedStringUtils.h 86-100. -/
def joinAll (langs : List Nat) (sep : Text) (args : List Arg) : Dict := tsbGet (joinLoop sep args true (tsbNew langs))

end Verif.Locale
