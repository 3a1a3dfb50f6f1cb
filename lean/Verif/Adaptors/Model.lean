/-
Models of `DataAligner` (/repo/stingraykit/io/DataAligner.h), `DataTaker`/`TakingConsumer` and `DataSkipper`/`SkippingConsumer`
(/repo/stingraykit/io/DataUtils.h) and `ConsumeAll` (/repo/stingraykit/io/IDataSource.h).

The environment of a call (downstream consumer and cancellation token) is a script: the list of the amounts the downstream consumer accepts in
its successive `Process` calls (cut to the size offered); the token is cancelled from the moment the script is used up. Every terminating
behaviour of a consumer and a token is covered. The source is a byte list; it offers any prefix of what is left and drops what was claimed.
Bytes are elements of an arbitrary type, `size_t`/`u64` is `Nat`.
-/
namespace Verif.Adaptors
section
variable {α : Type}

/-- What a call did to the downstream consumer: blocks offered, bytes accepted, rest of the script.  For DataAligner.h 39-66 and DataUtils.h 32-102. -/
structure Fx (α : Type) where
  offered : List (List α)
  accepted : List α
  env : List Nat
  deriving DecidableEq

/-- `ConsumeAll`, IDataSource.h:276-283: the returned offset is the number of accepted bytes. -/
def consumeAll : List Nat → List α → Fx α
  | [], _ => ⟨[], [], []⟩
  | k :: env, d =>
    if d.length = 0 then ⟨[], [], k :: env⟩
    else ⟨d :: (consumeAll env (d.drop (min k d.length))).offered,
          d.take (min k d.length) ++ (consumeAll env (d.drop (min k d.length))).accepted, (consumeAll env (d.drop (min k d.length))).env⟩

/-- `AlignDown`, math.h:29-33. -/
def alignDown (n a : Nat) : Nat := a * (n / a)

/-- `DataAligner::Align` with an empty buffer, DataAligner.h:43-52, after `ConsumeAll` had the effects `fx`: new buffer, returned size. -/
def alignDirect (useBuffer : Bool) (data : List α) (fx : Fx α) : List α × Nat × Fx α :=
  if useBuffer && !fx.env.isEmpty && decide (data.length - fx.accepted.length ≠ 0) then
    ((data.drop fx.accepted.length).take (data.length - fx.accepted.length), fx.accepted.length + (data.length - fx.accepted.length), fx)
  else ([], fx.accepted.length, fx)

/-- `DataAligner::Align` with a non-empty buffer, DataAligner.h:55-65, `filled` being the buffer after line 57. -/
def alignBuffered (alignment : Nat) (filled : List α) (offset : Nat) (env : List Nat) : List α × Nat × Fx α :=
  if filled.length = alignment then ([], offset, consumeAll env filled) else (filled, offset, ⟨[], [], env⟩)

/-- `DataAligner::Align`, DataAligner.h:39-66, on the buffer: new buffer, returned size, effects. -/
def align (alignment : Nat) (useBuffer : Bool) (buffer : List α) (data : List α) (env : List Nat) : List α × Nat × Fx α :=
  if buffer.length = 0 then alignDirect useBuffer data (consumeAll env (data.take (alignDown data.length alignment)))
  else alignBuffered alignment (buffer ++ data.take (min (alignment - buffer.length) data.length)) (min (alignment - buffer.length) data.length) env

/-- One call of the aligner by its source: how many bytes the source offers, and the environment.  For DataAligner.h 39-66 and DataUtils.h 32-102. -/
structure Offer where
  size : Nat
  env : List Nat
  deriving DecidableEq

/-- The aligner with its source: rest of the source, buffer, log of blocks offered downstream and of bytes accepted downstream.  For DataAligner.h 39-66 and DataUtils.h 32-102. -/
structure AlignSys (α : Type) where
  src : List α
  buffer : List α
  offered : List (List α)
  accepted : List α
  deriving DecidableEq

/-- One call, DataAligner.h 39-66 and DataUtils.h 32-102. -/
def alignStep (alignment : Nat) (useBuffer : Bool) (s : AlignSys α) (o : Offer) : AlignSys α :=
  ⟨s.src.drop (align alignment useBuffer s.buffer (s.src.take o.size) o.env).2.1,
   (align alignment useBuffer s.buffer (s.src.take o.size) o.env).1,
   s.offered ++ (align alignment useBuffer s.buffer (s.src.take o.size) o.env).2.2.offered,
   s.accepted ++ (align alignment useBuffer s.buffer (s.src.take o.size) o.env).2.2.accepted⟩

/-- One call after another, for histories of DataAligner.h 39-66 and DataUtils.h 32-102. -/
def alignRun (alignment : Nat) (useBuffer : Bool) (s : AlignSys α) (os : List Offer) : AlignSys α := os.foldl (alignStep alignment useBuffer) s

/-! ### Taking -/

/-- `TakingConsumer::Process`, DataUtils.h:32-42: new `_leftToTake`, returned size, accepted downstream. `k`: what the downstream
consumer accepts at most. -/
def takeProcess (discardRest : Bool) (left : Nat) (data : List α) (k : Nat) : Nat × Nat × List α :=
  if min left data.length = 0 then (left, (if discardRest then data.length else 0), [])
  else (left - min k (min left data.length), min k (min left data.length), (data.take (min left data.length)).take (min k (min left data.length)))

/-- A `DataTaker` with its source. `session`: `taker._leftToTake` of the `Read` in progress; `eod`: number of `EndOfData` calls downstream.  For DataAligner.h 39-66 and DataUtils.h 32-102. -/
structure TakeSys (α : Type) where
  src : List α
  left : Nat
  session : Option Nat
  delivered : List α
  eod : Nat
  deriving DecidableEq

/-- The calls, DataAligner.h 39-66 and DataUtils.h 32-102. -/
inductive TakeOp
  /-- `Read` called: line 71 -/
  | readBegin
  /-- the source offers `size` bytes, downstream accepts at most `k` -/
  | offer (size k : Nat)
  /-- the source reports end of data (only if nothing is left) -/
  | endOfData
  /-- the loop ends (nothing left to take, or cancelled): 74 -/
  | readEnd
  /-- the source throws: line 74 is not executed -/
  | readThrow
  deriving DecidableEq

/-- Steps of `DataTaker::Read`, DataUtils.h:69-75; `none`: not possible. -/
def takeStep (discardRest : Bool) (s : TakeSys α) : TakeOp → Option (TakeSys α)
  | .readBegin =>
    match s.session with
    | some _ => none
    | none => some { s with session := some s.left }
  | .offer size k =>
    match s.session with
    | none => none
    | some l =>
      some { s with src := s.src.drop (takeProcess discardRest l (s.src.take size) k).2.1, session := some (takeProcess discardRest l (s.src.take size) k).1,
                    delivered := s.delivered ++ (takeProcess discardRest l (s.src.take size) k).2.2 }
  -- TakingConsumer::EndOfData, 44-48
  | .endOfData =>
    match s.session with
    | none => none
    | some _ => if s.src = [] then some { s with session := some 0, eod := s.eod + 1 } else none
  | .readEnd =>
    match s.session with
    | none => none
    | some l => some { s with left := l, session := none }
  | .readThrow =>
    match s.session with
    | none => none
    | some _ => some { s with session := none }

/-- One call after another, for histories of DataAligner.h 39-66 and DataUtils.h 32-102. -/
def takeRun (discardRest : Bool) (s : TakeSys α) : List TakeOp → Option (TakeSys α)
  | [] => some s
  | op :: ops => match takeStep discardRest s op with | none => none | some s' => takeRun discardRest s' ops

/-- The state after construction, DataAligner.h 39-66 and DataUtils.h 32-102. -/
def takeInit (src : List α) (n : Nat) : TakeSys α := ⟨src, n, none, [], 0⟩

/-! ### Skipping -/

/-- `SkippingConsumer::Process`, DataUtils.h:93-102. -/
def skipProcess (processRest : Bool) (left : Nat) (data : List α) (env : List Nat) : Nat × Nat × Fx α :=
  if processRest then
    (left - min left data.length, data.length,
      if min left data.length < data.length then consumeAll env (data.drop (min left data.length)) else ⟨[], [], env⟩)
  else (left - min left data.length, min left data.length, ⟨[], [], env⟩)

/-- A `DataSkipper` with its source (each `Read`, 128-133, is one offer: `_leftToSkip` is copied in and out).  Of DataAligner.h 39-66 and DataUtils.h 32-102. -/
structure SkipSys (α : Type) where
  src : List α
  left : Nat
  delivered : List α
  deriving DecidableEq

/-- One call, DataAligner.h 39-66 and DataUtils.h 32-102. -/
def skipStep (processRest : Bool) (s : SkipSys α) (o : Offer) : SkipSys α :=
  ⟨s.src.drop (skipProcess processRest s.left (s.src.take o.size) o.env).2.1, (skipProcess processRest s.left (s.src.take o.size) o.env).1,
   s.delivered ++ (skipProcess processRest s.left (s.src.take o.size) o.env).2.2.accepted⟩

/-- One call after another, for histories of DataAligner.h 39-66 and DataUtils.h 32-102. -/
def skipRun (processRest : Bool) (s : SkipSys α) (os : List Offer) : SkipSys α := os.foldl (skipStep processRest) s

end
end Verif.Adaptors
