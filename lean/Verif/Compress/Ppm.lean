import Verif.Compress.Coder
/-
Model of the prediction by partial matching of stingraykit/compression/ppm: `Model` (PpmModel.h), what `PpmCompressor` encodes and what `PpmDecompressor` decodes. Property C69.
Symbols are bytes (numbers), `SymbolCount` is `u32`; the type `Probability` of a level is given by its number of values. The contexts of a level are in ascending order, as in the map that
they are made from, so `std::lower_bound` finds the first that is not less. Not modelled here: the bit buffers (Verif.Compress.BitBuffer), `Compactificator`, the data sources.
-/
namespace Verif.Compress

/-- `ContextInfo` with its symbols: PpmModel.h:338-353, 425-426. -/
structure Ctx where
  key : List Nat
  exit : Nat
  syms : List (Nat × Nat)      -- symbol, probability
  deriving DecidableEq, Repr

/-- One `Model`, without its child.  For PpmModel.h 61-519. -/
structure Level where
  size : Nat                   -- `ContextSize`
  modulus : Nat                -- the number of values of `Probability`
  ctxs : List Ctx
  deriving DecidableEq, Repr

/-- Comparison of contexts.  For PpmModel.h 61-519. -/
def lexLess : List Nat → List Nat → Bool
  | [], [] => false
  | [], _ :: _ => true
  | _ :: _, [] => false
  | a :: as, b :: bs => if a < b then true else if b < a then false else lexLess as bs

/-- `std::lower_bound(_contexts…)` with the last symbols of the context: PpmModel.h:416-418, 437-439. There is no test that the context that is found is the one that was looked for. -/
def Level.lookup (l : Level) (context : List Nat) : Option Ctx := l.ctxs.find? (fun c => !lexLess c.key (context.drop (context.length - l.size)))

/-- Sum of the weights; a helper of the model of PpmModel.h 61-519. -/
def sum (ps : List (Nat × Nat)) : Nat := (ps.map (·.2)).sum

/-- PpmModel.h:466, 487. -/
def Ctx.scale (c : Ctx) : Nat := w32 (sum c.syms + c.exit)

/-- `f(scale - exit, scale, scale)`: PpmModel.h:469, 476, 500. -/
def Ctx.exitPart (c : Ctx) : Part := ⟨w32 (c.scale + 4294967296 - c.exit), c.scale, c.scale⟩

/-- `DoPredict`: PpmModel.h:464-482. `low` is added up in the type `Probability`: Range.h:1479-1485. -/
def doPredict (modulus : Nat) (c : Ctx) : Option Nat → Part × Bool
  | none => (c.exitPart, false)
  | some s => match c.syms.dropWhile (fun x => x.1 < s) with
    | [] => (c.exitPart, false)
    | x :: _ => if x.1 = s then
        (⟨sum (c.syms.takeWhile (fun x => x.1 < s)) % modulus, w32 (sum (c.syms.takeWhile (fun x => x.1 < s)) % modulus + x.2), c.scale⟩, true)
      else (c.exitPart, false)

/-- The ways in which the code of PpmModel.h 61-519 can fail. -/
inductive PErr where
  | coder (e : Err)
  | noSymbol     -- "Should get here at EOF only!"
  | endless
  deriving DecidableEq, Repr

/-- `Predict`: PpmModel.h:408-429, 514-515. -/
def predict (context : List Nat) (symbol : Option Nat) : List Level → Except PErr (List Part)
  | [] => if symbol = none then .ok [] else .error .noSymbol
  | l :: ls =>
    if context.length < l.size then predict context symbol ls
    else match l.lookup context with
      | none => predict context symbol ls
      | some c =>
        if (doPredict l.modulus c symbol).2 then .ok [(doPredict l.modulus c symbol).1]
        else match predict context symbol ls with
          | .error e => .error e
          | .ok ps => .ok ((doPredict l.modulus c symbol).1 :: ps)

/-- The loop of `DoDecode`: PpmModel.h:488-499; the symbol and its part. -/
def findPart (x scale : Nat) : Nat → List (Nat × Nat) → Option (Nat × Part)
  | _, [] => none
  | low, (s, p) :: rest => if low ≤ x ∧ x < w32 (low + p) then some (s, ⟨low, w32 (low + p), scale⟩) else findPart x scale (w32 (low + p)) rest

/-- What is returned after `SymbolDecoded`: PpmModel.h:494-495, 500-501. -/
def finishPart (o : Option Nat) : Except Err Dec → Except PErr (Option Nat × Dec)
  | .error e => .error (.coder e)
  | .ok d' => .ok (o, d')

/-- `DoDecode`: PpmModel.h:485-502. -/
def doDecode (src : Nat → Bool) (c : Ctx) (d : Dec) : Except PErr (Option Nat × Dec) := match d.prob c.scale with
  | .error e => .error (.coder e)
  | .ok x => match findPart x c.scale 0 c.syms with
    | some sp => finishPart (some sp.1) (d.decoded src sp.2.lo sp.2.hi sp.2.scale)
    | none => finishPart none (d.decoded src c.exitPart.lo c.exitPart.hi c.exitPart.scale)

/-- `Decode`: PpmModel.h:432-447, 518-519. -/
def decode (src : Nat → Bool) (context : List Nat) : List Level → Dec → Except PErr (Option Nat × Dec)
  | [], d => .ok (none, d)
  | l :: ls, d =>
    if context.length < l.size then decode src context ls d
    else match l.lookup context with
      | none => decode src context ls d
      | some c => match doDecode src c d with
        | .error e => .error e
        | .ok (some s, d') => .ok (some s, d')
        | .ok (none, d') => decode src context ls d'

/-- `_context.push_back(symbol)` and `pop_front`: PpmCompressor.h:148-150, PpmDecompressor.h:176-178. -/
def pushCtx (size : Nat) (context : List Nat) (s : Nat) : List Nat :=
  if (context ++ [s]).length > size then (context ++ [s]).drop 1 else context ++ [s]

/-- Size of the symbol set, PpmModel.h 61-519. -/
def topSize : List Level → Nat
  | [] => 0
  | l :: _ => l.size

/-- What `PpmCompressor` gives to the coder, for the data and then for the end of the data: PpmCompressor.h:119-155. -/
def dataParts (ls : List Level) : List Nat → List Nat → Except PErr (List Part)
  | context, [] => predict context none ls
  | context, s :: data => match predict context (some s) ls with
    | .error e => .error e
    | .ok ps => match dataParts ls (pushCtx (topSize ls) context s) data with
      | .error e => .error e
      | .ok qs => .ok (ps ++ qs)

/-- The compressor.  For PpmModel.h 61-519. -/
def ppmCompress (ls : List Level) (data : List Nat) : Except PErr (List Bool) := match dataParts ls [] data with
  | .error e => .error e
  | .ok ps => match compress ps with
    | .error e => .error (.coder e)
    | .ok bs => .ok bs

/-- The loop of the decompressor until the end of the data, with a bound on the number of symbols: PpmDecompressor.h:109-135, 161-180. -/
def decodeAll (src : Nat → Bool) (ls : List Level) : Nat → List Nat → Dec → Except PErr (List Nat)
  | 0, _, _ => .error .endless
  | n + 1, context, d => match decode src context ls d with
    | .error e => .error e
    | .ok (none, _) => .ok []
    | .ok (some s, d') => match decodeAll src ls n (pushCtx (topSize ls) context s) d' with
      | .error e => .error e
      | .ok r => .ok (s :: r)

/-- The decompressor, on bits that may be followed by anything.  For PpmModel.h 61-519. -/
def ppmDecompress (src : Nat → Bool) (ls : List Level) (bound : Nat) : Except PErr (List Nat) := decodeAll src ls bound [] (Dec.init src)

/-! ### Making a model -/

/-- `ContextInfoBuilder::AddSymbol` with count 1: PpmModel.h:64-74. -/
def addCount (s : Nat) : List (Nat × Nat) → List (Nat × Nat)
  | [] => [(s, 1)]
  | (a, n) :: rest => if a < s then (a, n) :: addCount s rest else if a = s then (a, n + 1) :: rest else (s, 1) :: (a, n) :: rest

/-- The limit of the counts, PpmModel.h 61-519. -/
def maxCount (counts : List (Nat × Nat)) : Nat := (counts.map (·.2)).foldl max 0

/-- `p`: PpmModel.h:378, 392. -/
def probability (modulus max n : Nat) : Nat := if max > modulus - 1 then n * (modulus - 1) / max % modulus else n % modulus

/-- The symbols of a context of the level of size 0, from symbol `s` on, `n` of them: PpmModel.h:386-396. -/
def allSymbols (modulus max : Nat) : Nat → Nat → List (Nat × Nat) → List (Nat × Nat)
  | _, 0, _ => []
  | s, n + 1, counts => match counts with
    | [] => (s, 1) :: allSymbols modulus max (s + 1) n []
    | (a, k) :: rest => if a = s then (s, Nat.max (probability modulus max k) 1) :: allSymbols modulus max (s + 1) n rest else (s, 1) :: allSymbols modulus max (s + 1) n ((a, k) :: rest)

/-- One context of the constructor of `Model`: PpmModel.h:370-403; the builder's exit count is always 0 (PpmModel.h:61), so the exit gets 1. -/
def makeCtx (size modulus : Nat) (key : List Nat) (counts : List (Nat × Nat)) : Ctx :=
  ⟨key, 1, if size ≠ 0 then (counts.map fun x => (x.1, probability modulus (maxCount counts) x.2)).filter (fun x => x.2 ≠ 0) else allSymbols modulus (maxCount counts) 0 256 counts⟩

/-- The constructor of `Model`, one level: PpmModel.h:366-405. -/
def makeLevel (size modulus : Nat) (contexts : List (List Nat × List (Nat × Nat))) : Level :=
  ⟨size, modulus, (contexts.map fun x => makeCtx size modulus x.1 x.2).filter (fun c => c.syms ≠ [])⟩

/-! ### What the properties are about -/

/-- A context as the constructor makes it: ascending symbols, positive probabilities that do not exceed the type when added up. -/
structure Spec.CtxOk (modulus : Nat) (c : Ctx) : Prop where
  sorted : (c.syms.map (·.1)).Pairwise (· < ·)
  pos : ∀ x ∈ c.syms, 0 < x.2
  exit : 0 < c.exit
  fits : sum c.syms ≤ modulus
  small : sum c.syms + c.exit ≤ 536870912

end Verif.Compress
