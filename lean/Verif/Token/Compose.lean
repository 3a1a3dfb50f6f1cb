/-
Model of tokens made of other tokens: MultiToken.h 19-74, AttachToken and TokenAttacher of Token.h 68-124, with function and object tokens as leaves
(FunctionToken.h 17-40, ObjectToken.h 18-38).  Tokens and the control blocks of shared pointers are reference counted nodes (Token.h 19-56).
Not modelled: exceptions of cleanup functions (they are caught, FunctionToken.h 33) and cleanup functions that use the tokens themselves.
-/
namespace Verif.Token.Compose

/-- A token or shared object: what it holds, in the order in which its destructor lets go of it, and the number of references.  MultiToken.h 27-44, Token.h 70-91. -/
structure Node where
  kids : List Nat
  count : Nat
deriving DecidableEq, Repr

/-- All nodes, the references in the hands of the user, and the nodes destroyed, in order.  For MultiToken.h 19-74 and Token.h 68-124. -/
structure State where
  nodes : List Node
  ext : List Nat
  log : List Nat
deriving DecidableEq, Repr

/-- Nothing.  For MultiToken.h 19-74 and Token.h 68-124. -/
def State.init : State := ⟨[], [], []⟩

/-- Letting go of references, one after another: Token.h 52, 88-89 and MultiToken.h 35-44: with the last reference a node is destroyed, which lets go of all it
holds before the next reference is looked at.  The first argument bounds the number of steps (`none`: not enough, or no such node). -/
def release : Nat → State → List Nat → Option State
  | _, s, [] => some s
  | 0, _, _ :: _ => none
  | n + 1, s, x :: r =>
    match s.nodes[x]? with
    | none => none
    | some ⟨kids, count⟩ =>
      if count = 1 then release n { s with nodes := s.nodes.set x ⟨kids, 0⟩, log := s.log ++ [x] } (kids ++ r)
      else release n { s with nodes := s.nodes.set x ⟨kids, count - 1⟩ } r

/-- Steps enough to destroy everything.  For Token.h 52. -/
def State.work (s : State) : Nat := 1 + (s.nodes.map (fun n => n.kids.length)).sum

/-- Moving references out of the hands of the user: MultiToken.h 49-50, Token.h 82-84; `none`: one is not there. -/
def takeAll : List Nat → List Nat → Option (List Nat)
  | ext, [] => some ext
  | ext, x :: r => if ext.contains x then takeAll (ext.erase x) r else none

/-- What the user does, for MultiToken.h 19-74 and Token.h 25-124. -/
inductive Act where
  | make (kids : List Nat)
  | copy (x : Nat)
  | drop (x : Nat)
deriving DecidableEq, Repr

/-- One step: making a node from references that are moved into it (a token without kids: FunctionToken.h 38-40), copying a reference, Token.h 27, dropping one, Token.h 52. -/
def step (s : State) : Act → Option State
  | .make kids =>
    match takeAll s.ext kids with
    | none => none
    | some e => some { s with nodes := s.nodes ++ [⟨kids, 1⟩], ext := e ++ [s.nodes.length] }
  | .copy x =>
    if s.ext.contains x then some { s with nodes := s.nodes.modify x (fun n => { n with count := n.count + 1 }), ext := s.ext ++ [x] } else none
  | .drop x => if s.ext.contains x then release s.work { s with ext := s.ext.erase x } [x] else none

/-- A history, for MultiToken.h 19-74 and Token.h 25-124. -/
def run (s : State) : List Act → Option State
  | [] => some s
  | a :: r => match step s a with
    | none => none
    | some s' => run s' r

/-- The order in which `~MultiToken` lets go of its tokens: MultiToken.h 35-44. -/
def popOrder (forward : Bool) : Nat → List Nat → List Nat
  | 0, _ => []
  | n + 1, l =>
    if forward then
      match l with
      | [] => []
      | x :: r => x :: popOrder forward n r
    else
      match l.getLast? with
      | none => []
      | some x => x :: popOrder forward n l.dropLast

/-- `MultiTokenBuilderBase`: MultiToken.h 54-70: the tokens added so far; `none`: converted already. -/
abbrev Builder := Option (List Nat)

/-- A new builder: MultiToken.h 58-60. -/
def Builder.new : Builder := some []

/-- `operator %`: MultiToken.h 62-66; `none`: throws. -/
def Builder.add (b : Builder) (t : Nat) : Option Builder := b.map (fun l => some (l ++ [t]))

/-- `operator Token`: MultiToken.h 68-69: the token to be made; the builder is empty afterwards; `none`: throws. -/
def Builder.convert (b : Builder) (forward : Bool) : Option (Act × Builder) := b.map (fun l => (.make (popOrder forward l.length l), none))

/-- `AttachToken`: Token.h 86-102: the deleter lets go of the token, then of the object. -/
def attach (ptr tok : Nat) : Act := .make [tok, ptr]

/-- `TokenAttacher`: Token.h 105-124: `p % t1 % … % tn`; `next` is the number the next node gets. -/
def attachAll (next ptr : Nat) : List Nat → List Act
  | [] => []
  | t :: r => attach ptr t :: attachAll (next + 1) next r

end Verif.Token.Compose
