import Verif.Compress.Ppm
/-
Model of the training of a PPM dictionary: `ContextInfoBuilder`, `ModelBuilder` and `Compactificator` (PpmModel.h) and `PpmDictionaryBuilder` (PpmDictionaryBuilder.h).

Symbols are bytes (numbers), contexts lists of symbols.  The levels of the model builder form a list, longest contexts first.  Simplifications: counts and memory sizes do not overflow; the outcome of
`std::sort` on entries with equal counts is left open (a parameter).
-/
namespace Verif.Compress.Train
open Verif.Compress

/-- `ContextInfoBuilder::AddSymbol`, with whether the symbol is new: PpmModel.h:64-74. -/
def addSym (s n : Nat) : List (Nat × Nat) → List (Nat × Nat) × Bool
  | [] => ([(s, n)], true)
  | (a, k) :: rest =>
    if a < s then ((a, k) :: (addSym s n rest).1, (addSym s n rest).2)
    else if a = s then ((a, k + n) :: rest, false)
    else ((s, n) :: (a, k) :: rest, true)

/-- One `ModelBuilder`, without its child: PpmModel.h:101-105. -/
structure Bld where
  size : Nat                                     -- `ContextSize`
  ctxs : List (List Nat × List (Nat × Nat))
  contexts : Nat                                 -- `_contextsCount`
  entries : Nat                                  -- `_entriesCount`
  deriving DecidableEq, Repr

/-- `std::map::insert` of an empty context, with whether it is new: PpmModel.h:129. -/
def insertKey (key : List Nat) : List (List Nat × List (Nat × Nat)) → List (List Nat × List (Nat × Nat)) × Bool
  | [] => ([(key, [])], true)
  | (k, c) :: rest =>
    if lexLess k key then ((k, c) :: (insertKey key rest).1, (insertKey key rest).2)
    else if lexLess key k then ((key, []) :: (k, c) :: rest, true)
    else ((k, c) :: rest, false)

/-- The counts of a context: `it->second`.  For PpmModel.h 137 and 208. -/
def get (key : List Nat) : List (List Nat × List (Nat × Nat)) → List (Nat × Nat)
  | [] => []
  | (k, c) :: rest => if k = key then c else get key rest

/-- A change of the counts of a context, by `it->second`.  For PpmModel.h 137. -/
def upd (key : List Nat) (f : List (Nat × Nat) → List (Nat × Nat)) : List (List Nat × List (Nat × Nat)) → List (List Nat × List (Nat × Nat))
  | [] => []
  | (k, c) :: rest => if k = key then (k, f c) :: rest else (k, c) :: upd key f rest

/-- `_contexts.erase(it)`: PpmModel.h:145. -/
def eraseKey (key : List Nat) : List (List Nat × List (Nat × Nat)) → List (List Nat × List (Nat × Nat))
  | [] => []
  | (k, c) :: rest => if k = key then rest else (k, c) :: eraseKey key rest

/-- `AddContext`: PpmModel.h:127-133. -/
def Bld.addContext (b : Bld) (key : List Nat) : Bld × Bool :=
  ({ b with ctxs := (insertKey key b.ctxs).1, contexts := b.contexts + if (insertKey key b.ctxs).2 then 1 else 0 }, (insertKey key b.ctxs).2)

/-- `DoAddSymbol`: PpmModel.h:135-139. -/
def Bld.doAddSymbol (b : Bld) (key : List Nat) (s n : Nat) : Bld :=
  { b with ctxs := upd key (fun c => (addSym s n c).1) b.ctxs, entries := b.entries + if (addSym s n (get key b.ctxs)).2 then 1 else 0 }

/-- `AddSymbol` with a context of the right size: PpmModel.h:124-125. -/
def Bld.add (b : Bld) (key : List Nat) (s n : Nat) : Bld := (b.addContext key).1.doAddSymbol key s n

/-- `RemoveContext`: PpmModel.h:141-146. -/
def Bld.remove (b : Bld) (key : List Nat) : Bld :=
  { b with ctxs := eraseKey key b.ctxs, contexts := b.contexts - 1, entries := b.entries - (get key b.ctxs).length }

/-- `ModelBuilder::AddSymbol`: the first level whose contexts are not too long: PpmModel.h:111-122 and 163-164. -/
def trainAdd (context : List Nat) (s n : Nat) : List Bld → List Bld
  | [] => []
  | b :: rest =>
    if context.length < b.size then b :: trainAdd context s n rest
    else b.add (context.drop (context.length - b.size)) s n :: rest

/-- `GetMemoryConsumption`; `cost` gives what one context and one entry of a level cost: PpmModel.h:151-153, 172-177, 526-531. -/
def memory (cost : Nat → Nat × Nat) : List Bld → Nat
  | [] => 0
  | b :: rest => b.contexts * (cost b.size).1 + b.entries * (cost b.size).2 + memory cost rest

/-! The compactificator -/

/-- One `Compactificator`, without its child: the level and the entries (total count, context); those of the last level are not used.  PpmModel.h:212-215, 288-289. -/
structure Cmp where
  b : Bld
  entries : List (Nat × List Nat)
  deriving DecidableEq, Repr

/-- Finding the entry in `equal_range` and erasing it; `none`: "Can't find context!".  PpmModel.h:230-234. -/
def eraseEntry (e : Nat × List Nat) : List (Nat × List Nat) → Option (List (Nat × List Nat))
  | [] => none
  | x :: rest =>
    if e.1 < x.1 then (eraseEntry e rest).map (x :: ·)
    else if x.1 = e.1 then
      if x.2 = e.2 then some rest else (eraseEntry e rest).map (x :: ·)
    else none

/-- `lower_bound` and `insert`: PpmModel.h:239-241. -/
def insertEntry (e : Nat × List Nat) : List (Nat × List Nat) → List (Nat × List Nat)
  | [] => [e]
  | x :: rest => if e.1 < x.1 then x :: insertEntry e rest else e :: x :: rest

/-- `AddSymbol`; `none`: "Can't find context!".  PpmModel.h:225-242, 295-296. -/
def Cmp.add (last : Bool) (c : Cmp) (key : List Nat) (s n : Nat) : Option Cmp :=
  if last then some { c with b := c.b.add key s n }
  else if (c.b.addContext key).2 then
    some ⟨c.b.add key s n, insertEntry (sum (get key (c.b.add key s n).ctxs), key) c.entries⟩
  else
    match eraseEntry (sum (get key (c.b.addContext key).1.ctxs), key) c.entries with
    | none => none
    | some es => some ⟨c.b.add key s n, insertEntry (sum (get key (c.b.add key s n).ctxs), key) es⟩

/-- The loop of `DoPop`: PpmModel.h:272-273. -/
def Cmp.addAll (last : Bool) (key : List Nat) : List (Nat × Nat) → Cmp → Option Cmp
  | [], c => some c
  | x :: rest, c =>
    match c.add last key x.1 x.2 with
    | none => none
    | some c' => Cmp.addAll last key rest c'

/-- `DoPop` of the entry with this context: PpmModel.h:264-277. -/
def pop (last : Bool) (c d : Cmp) (key : List Nat) : Option (Cmp × Cmp) :=
  match Cmp.addAll last (key.drop (key.length - d.b.size)) (get key c.b.ctxs) d with
  | none => none
  | some d' => some (⟨c.b.remove key, c.entries.dropLast⟩, d')

/-- The loop of `Compactify`, with a bound on the number of rounds: PpmModel.h:258-259. -/
def popLoop (t : Nat) (last : Bool) : Nat → Cmp → Cmp → Option (Cmp × Cmp)
  | 0, c, d => some (c, d)
  | n + 1, c, d =>
    match c.entries.getLast? with
    | none => some (c, d)
    | some e =>
      if e.1 ≤ t then
        match pop last c d e.2 with
        | none => none
        | some (c', d') => popLoop t last n c' d'
      else some (c, d)

/-- `Compactify`: PpmModel.h:256-261, 301-302. -/
def compactify (t : Nat) (c : Cmp) : List Cmp → Option (Cmp × List Cmp)
  | [] => some (c, [])
  | d :: rest =>
    match popLoop t rest.isEmpty c.entries.length c d with
    | none => none
    | some (c', d') =>
      match compactify t d' rest with
      | none => none
      | some (d2, rest') => some (c', d2 :: rest')

/-- `GetMinimalCount`: PpmModel.h:244-254, 298-299. -/
def minimal (c : Cmp) : List Cmp → Option Nat
  | [] => none
  | d :: rest =>
    match c.entries.getLast?, minimal d rest with
    | none, m => m
    | some e, none => some e.1
    | some e, some m => some (min e.1 m)

/-- The ways in which the training can fail.  For PpmDictionaryBuilder.h 49-83. -/
inductive Fail where
  | notInitialized   -- NotInitializedException of the empty optional
  | cantFind         -- "Can't find context!"
  | endless
  deriving DecidableEq, Repr

/-- The constructor of the compactificator: PpmModel.h:218-223; `srt` is `std::sort`. -/
def prepare (srt : List (Nat × List Nat) → List (Nat × List Nat)) (b : Bld) : Cmp := ⟨b, srt (b.ctxs.map fun x => (sum x.2, x.1))⟩

/-- `while (memory > limit) compactificator.Compactify(*compactificator.GetMinimalCount())` with a bound on the number of rounds: PpmDictionaryBuilder.h:52-53, 81-82. -/
def shrinkLoop (cost : Nat → Nat × Nat) (limit : Nat) : Nat → Cmp → List Cmp → Except Fail (List Bld)
  | 0, _, _ => .error .endless
  | n + 1, c, cs =>
    if memory cost (c.b :: cs.map Cmp.b) > limit then
      match minimal c cs with
      | none => .error .notInitialized
      | some t =>
        match compactify t c cs with
        | none => .error .cantFind
        | some (c', cs') => shrinkLoop cost limit n c' cs'
    else .ok (c.b :: cs.map Cmp.b)

/-- The bound: more rounds are never needed (`never_endless`).  For PpmDictionaryBuilder.h 52 and 81. -/
def rounds : List Bld → Nat
  | [] => 1
  | b :: rest => b.ctxs.length * 2 ^ rest.length + rounds rest

/-- Compactification until the limit is kept: PpmDictionaryBuilder.h:51-53, 80-82. -/
def shrink (srt : List (Nat × List Nat) → List (Nat × List Nat)) (cost : Nat → Nat × Nat) (limit : Nat) : List Bld → Except Fail (List Bld)
  | [] => .ok []
  | b :: rest => shrinkLoop cost limit (rounds (b :: rest)) (prepare srt b) (rest.map (prepare srt))

/-- The parameters of `PpmDictionaryBuilder` and of the configuration: PpmDictionaryBuilder.h:31-33. -/
structure Par where
  sizes : List Nat                 -- the context sizes of the levels, descending
  low : Nat
  high : Nat
  final : Nat
  build : Nat → Nat × Nat          -- cost in the builder
  made : Nat → Nat × Nat           -- cost in the finished model
  srt : List (Nat × List Nat) → List (Nat × List Nat)

/-- A `PpmDictionaryBuilder`: PpmDictionaryBuilder.h:34-35. -/
structure St where
  levels : List Bld
  context : List Nat
  deriving DecidableEq, Repr

/-- A new builder, or one after `Finish`: PpmDictionaryBuilder.h:41, 56-57. -/
def Par.init (p : Par) : St := ⟨p.sizes.map fun n => ⟨n, [], 0, 0⟩, []⟩

/-- `AddSymbol`: PpmDictionaryBuilder.h:62-76. -/
def Par.addSymbol (p : Par) (st : St) (s : Nat) : Except Fail St :=
  if memory p.build (trainAdd st.context s 1 st.levels) > p.high then
    match shrink p.srt p.build p.low (trainAdd st.context s 1 st.levels) with
    | .error e => .error e
    | .ok levels => .ok ⟨levels, pushCtx (p.sizes.headD 0) st.context s⟩
  else .ok ⟨trainAdd st.context s 1 st.levels, pushCtx (p.sizes.headD 0) st.context s⟩

/-- `Process`: PpmDictionaryBuilder.h:43-47. -/
def Par.process (p : Par) (st : St) : List Nat → Except Fail St
  | [] => .ok st
  | s :: data =>
    match p.addSymbol st s with
    | .error e => .error e
    | .ok st' => Par.process p st' data

/-- `Finish`: the levels the model is made of: PpmDictionaryBuilder.h:49-55. -/
def Par.finish (p : Par) (st : St) : Except Fail (List Bld) := shrink p.srt p.made p.final st.levels

/-- The model made of the levels; `modulus`: the number of values of the type `Probability` of a level.  PpmDictionaryBuilder.h:55, PpmModel.h:366. -/
def model (modulus : Nat → Nat) (bs : List Bld) : List Level := bs.map fun b => makeLevel b.size (modulus b.size) b.ctxs

end Verif.Compress.Train
