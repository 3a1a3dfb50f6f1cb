/-
Model of the data sources, data consumers and their adaptors of /repo/stingraykit/io: `ConsumeAll`, `InterceptingDataConsumer`,
`InterceptingDataSource`, `ReactiveDataSource`, `EmptyDataSource` (IDataSource.h), `ConsumerPacketer`, `ConsumerDepacketer`, `DataPacketer`,
`DataDepacketer` (DataPacketer.h), `BufferedDataMediator` (BufferedDataMediator.h), `PipeDataSource` (PipeDataSource.cpp),
`ByteStreamDataSource` (ByteStreamDataSource.h), `ByteArrayDataSource` (ByteArrayDataSource.h), `DataSourceReader` (DataSourceReader.cpp),
`ByteDataConsumer` (ByteDataConsumer.cpp).

A consumer together with the cancellation token is an arbitrary state machine over a world `γ` the sources cannot look into; every call and
every test of the token may change the world, so every consumer, every token and every moment of cancellation is covered.  A source gets the
consumer as an argument, as in the code, so that the adaptors are functions from consumers to consumers or from sources to sources.

Simplifications: bytes are elements of an arbitrary type, `size_t` is `Nat`.  Loops which need not terminate take a number of rounds;
`Res.cut` is the outcome of a call which is still running after that many rounds.  All exceptions are one outcome.
-/
namespace Verif.Pipeline

/-- How a call ended: returned, threw, or has not ended within the rounds of its loops.  For IDataSource.h 276-294. -/
inductive Res (β : Type)
  | ok (v : β)
  | thrown
  | cut
  deriving DecidableEq

/-- `IDataConsumer` with the token given to it, IDataSource.h 17-23: `Process`, `EndOfData` and a test of the token. -/
structure Consumer (α γ : Type) where
  process : γ → List α → γ × Res Nat
  endOfData : γ → γ × Res Unit
  poll : γ → γ × Bool

/-- `IDataSource`, IDataSource.h 73-77: a call of `Read` on a source in state `σ`.  The `Nat` bounds the rounds of loops. -/
structure Source (α σ : Type) where
  read : {γ : Type} → Nat → Consumer α γ → σ → γ → σ × γ × Res Unit

/-- `IPacketConsumer` with the token given to it, IDataSource.h 226-233. -/
structure PConsumer (α γ : Type) where
  process : γ → List α → γ × Res Bool
  endOfData : γ → γ × Res Unit
  poll : γ → γ × Bool

/-- `IPacketSource`, IDataSource.h 252-257. -/
structure PSource (α σ : Type) where
  read : {γ : Type} → Nat → PConsumer α γ → σ → γ → σ × γ × Res Unit

/-- Adds `k` to the result of a call, for `offset += …`, IDataSource.h 280. -/
def Res.plus (k : Nat) : Res Nat → Res Nat
  | .ok m => .ok (k + m)
  | .thrown => .thrown
  | .cut => .cut

/-- A call whose result is not used, IDataSource.h 281-293. -/
def Res.void {β : Type} : Res β → Res Unit
  | .ok _ => .ok ()
  | .thrown => .thrown
  | .cut => .cut

section
variable {α γ σ : Type}

/-- One round of `ConsumeAll`, IDataSource.h 279-280, once the token was tested and data is left. `again`: the other rounds. -/
def consumeRound (again : γ → List α → γ × Res Nat) (d : List α) : γ × Res Nat → γ × Res Nat
  | (w, .ok k) => ((again w (d.drop k)).1, (again w (d.drop k)).2.plus k)
  | (w, .thrown) => (w, .thrown)
  | (w, .cut) => (w, .cut)

/-- `ConsumeAll` of data, IDataSource.h 276-283. -/
def consumeAll : Nat → Consumer α γ → γ → List α → γ × Res Nat
  | 0, _, w, _ => (w, .cut)
  | n + 1, c, w, d =>
    if (c.poll w).2 = true ∧ d ≠ [] then consumeRound (consumeAll n c) d (c.process (c.poll w).1 d) else ((c.poll w).1, .ok 0)

/-- One round of the other `ConsumeAll`, IDataSource.h 290-291. -/
def packetRound (again : γ → γ × Res Bool) : γ × Res Bool → γ × Res Bool
  | (w, .ok true) => (w, .ok true)
  | (w, .ok false) => again w
  | (w, .thrown) => (w, .thrown)
  | (w, .cut) => (w, .cut)

/-- `ConsumeAll` of a packet, IDataSource.h 286-294 (the last test of the token after success is skipped). -/
def consumePacket : Nat → PConsumer α γ → γ → List α → γ × Res Bool
  | 0, _, w, _ => (w, .cut)
  | n + 1, c, w, p =>
    if (c.poll w).2 = true then packetRound (fun w' => consumePacket n c w' p) (c.process (c.poll w).1 p) else ((c.poll w).1, .ok false)

/-! ### Adaptors of consumers -/

/-- The world after a call of an interceptor, beside the answer given to the caller, IDataSource.h 45-46 and 52. -/
def interceptorAnswer {ι β : Type} (w : γ) (v : β) : ι × Res Unit → (γ × ι) × Res β
  | (i, .ok _) => ((w, i), .ok v)
  | (i, .thrown) => ((w, i), .thrown)
  | (i, .cut) => ((w, i), .cut)

/-- After the consumer answered, `InterceptingDataConsumer::Process`, IDataSource.h 44-46: a size larger than the data fails the check of
`ConstByteData`. -/
def interceptAnswer {ι : Type} (f : ι → List α → ι × Res Unit) (d : List α) (i : ι) : γ × Res Nat → (γ × ι) × Res Nat
  | (w, .ok k) => if k ≤ d.length then interceptorAnswer w k (f i (d.take k)) else ((w, i), .thrown)
  | (w, .thrown) => ((w, i), .thrown)
  | (w, .cut) => ((w, i), .cut)

/-- After the consumer took the end of data, `InterceptingDataConsumer::EndOfData`, IDataSource.h 51-52. -/
def interceptEnd {ι : Type} (g : ι → ι × Res Unit) (i : ι) : γ × Res Unit → (γ × ι) × Res Unit
  | (w, .ok _) => interceptorAnswer w () (g i)
  | (w, .thrown) => ((w, i), .thrown)
  | (w, .cut) => ((w, i), .cut)

/-- `InterceptingDataConsumer`, IDataSource.h 42-53.  The functions act on a world `ι` of their own. -/
def interceptC {ι : Type} (c : Consumer α γ) (f : ι → List α → ι × Res Unit) (g : ι → ι × Res Unit) : Consumer α (γ × ι) where
  process w d := interceptAnswer f d w.2 (c.process w.1 d)
  endOfData w := interceptEnd g w.2 (c.endOfData w.1)
  poll w := (((c.poll w.1).1, w.2), (c.poll w.1).2)

/-- `ReactiveDataConsumer`, IDataSource.h 159-179: the flag `_endOfData` beside the world. -/
def reactiveC (c : Consumer α γ) : Consumer α (γ × Bool) where
  process w d := (((c.process w.1 d).1, w.2), (c.process w.1 d).2)
  endOfData w := (((c.endOfData w.1).1, true), (c.endOfData w.1).2)
  poll w := (((c.poll w.1).1, w.2), (c.poll w.1).2)

/-- The answer of a packet consumer as the answer of `ConsumerPacketer::Process`, DataPacketer.h 71. -/
def packetAnswer (size : Nat) : γ × Res Bool → γ × Res Nat
  | (w, .ok true) => (w, .ok size)
  | (w, .ok false) => (w, .ok 0)
  | (w, .thrown) => (w, .thrown)
  | (w, .cut) => (w, .cut)

/-- `ConsumerPacketer`, DataPacketer.h 68-75; data shorter than the packet fails the check of `ConstByteData` (line 70). -/
def packeterC (p : PConsumer α γ) (packetSize : Option Nat) : Consumer α γ where
  process w d :=
    if packetSize.getD d.length ≤ d.length then packetAnswer (packetSize.getD d.length) (p.process w (d.take (packetSize.getD d.length)))
    else (w, .thrown)
  endOfData w := p.endOfData w
  poll w := p.poll w

/-- The answer of `ConsumerDepacketer::Process`, DataPacketer.h 35-36: always `true`. -/
def depacketAnswer : γ × Res Nat → γ × Res Bool
  | (w, .ok _) => (w, .ok true)
  | (w, .thrown) => (w, .thrown)
  | (w, .cut) => (w, .cut)

/-- `ConsumerDepacketer`, DataPacketer.h 33-40. -/
def depacketerC (n : Nat) (c : Consumer α γ) : PConsumer α γ where
  process w p := depacketAnswer (consumeAll n c w p)
  endOfData w := c.endOfData w
  poll w := c.poll w

/-! ### Sources -/

/-- `InterceptingDataSource` with functions for data and for its end, IDataSource.h 136-151. -/
def interceptS {ι : Type} (S : Source α σ) (f : ι → List α → ι × Res Unit) (g : ι → ι × Res Unit) : Source α (σ × ι) where
  read n c s w :=
    (((S.read n (interceptC c f g) s.1 (w, s.2)).1, (S.read n (interceptC c f g) s.1 (w, s.2)).2.1.2),
     (S.read n (interceptC c f g) s.1 (w, s.2)).2.1.1, (S.read n (interceptC c f g) s.1 (w, s.2)).2.2)

/-- What `ReactiveDataSource::Read` does after a `Read` of its source, IDataSource.h 192-193. `again`: the other rounds. -/
def reactiveRound (again : σ → γ × Bool → σ × (γ × Bool) × Res Unit) : σ × (γ × Bool) × Res Unit → σ × (γ × Bool) × Res Unit
  | (s, w, .ok _) => again s w
  | (s, w, .thrown) => (s, w, .thrown)
  | (s, w, .cut) => (s, w, .cut)

/-- The loop of `ReactiveDataSource::Read`, IDataSource.h 189-194. `m`: rounds. -/
def reactiveLoop (S : Source α σ) (n : Nat) (c : Consumer α γ) : Nat → σ → γ × Bool → σ × (γ × Bool) × Res Unit
  | 0, s, w => (s, w, .cut)
  | m + 1, s, w =>
    if (c.poll w.1).2 = true ∧ w.2 = false then reactiveRound (reactiveLoop S n c m) (S.read n (reactiveC c) s ((c.poll w.1).1, w.2))
    else (s, ((c.poll w.1).1, w.2), .ok ())

/-- `ReactiveDataSource`, IDataSource.h 156-195. -/
def reactiveS (S : Source α σ) : Source α σ where
  read n c s w :=
    ((reactiveLoop S n c n s (w, false)).1, (reactiveLoop S n c n s (w, false)).2.1.1, (reactiveLoop S n c n s (w, false)).2.2)

/-- `EmptyDataSource`, IDataSource.h 199-204. -/
def emptyS : Source α Unit where
  read _ c s w := (s, (c.endOfData w).1, (c.endOfData w).2)

/-- `DataPacketer`, DataPacketer.h 100-104. -/
def packetS (S : Source α σ) (packetSize : Option Nat) : PSource α σ where
  read n p s w := S.read n (packeterC p packetSize) s w

/-- `DataDepacketer`, DataPacketer.h 129-130. -/
def depacketS (P : PSource α σ) : Source α σ where
  read n c s w := P.read n (depacketerC n c) s w

/-- `ByteArrayDataSource`: its data and `_processed`, ByteArrayDataSource.h 19-20. -/
structure ArraySrc (α : Type) where
  data : List α
  processed : Nat
  deriving DecidableEq

/-- After `Process` of the consumer, ByteArrayDataSource.h 30. -/
def arrayAnswer (s : ArraySrc α) : γ × Res Nat → ArraySrc α × γ × Res Unit
  | (w, .ok k) => ({ s with processed := s.processed + k }, w, .ok ())
  | (w, .thrown) => (s, w, .thrown)
  | (w, .cut) => (s, w, .cut)

/-- `ByteArrayDataSource::Read`, ByteArrayDataSource.h 27-33. -/
def arrayS : Source α (ArraySrc α) where
  read _ c s w :=
    if s.processed < s.data.length then arrayAnswer s (c.process w (s.data.drop s.processed)) else (s, (c.endOfData w).1, (c.endOfData w).2)

/-- The state of a byte stream or of a pipe read by a source: the bytes still to come and the sizes of the next chunks it gives.
For ByteStreamDataSource.h 22-24 and PipeDataSource.cpp 13-15. -/
structure InSrc (α : Type) where
  rest : List α
  sizes : List Nat
  deriving DecidableEq

/-- The number of bytes the next `Read` into a buffer of `cap` bytes gives: any number from 1 to the size of the buffer, but not more than
there are.  ByteStreamDataSource.h 33, PipeDataSource.cpp 22. (A read giving no byte because the token was cancelled meanwhile is left out:
the sources then return.) -/
def InSrc.next (cap : Nat) (s : InSrc α) : Nat := min (min (max 1 (s.sizes.headD cap)) cap) s.rest.length

/-- The stream or pipe after that read, ByteStreamDataSource.h 33, PipeDataSource.cpp 22. -/
def InSrc.after (cap : Nat) (s : InSrc α) : InSrc α := ⟨s.rest.drop (s.next cap), s.sizes.tail⟩

/-- `ByteStreamDataSource::Read`, ByteStreamDataSource.h 31-39; `cap`: size of the buffer. -/
def streamS (cap : Nat) : Source α (InSrc α) where
  read n c s w :=
    if s.next cap ≠ 0 then
      (s.after cap, (consumeAll n c w (s.rest.take (s.next cap))).1, (consumeAll n c w (s.rest.take (s.next cap))).2.void)
    else if (c.poll w).2 = true then (s.after cap, (c.endOfData (c.poll w).1).1, (c.endOfData (c.poll w).1).2)
    else (s.after cap, (c.poll w).1, .ok ())

/-- The check of what the consumer processed, PipeDataSource.cpp 26-30. -/
def pipeAnswer (size : Nat) : γ × Res Nat → γ × Res Unit
  | (w, .ok k) => if k = 0 then (w, .ok ()) else if k = size then (w, .ok ()) else (w, .thrown)
  | (w, .thrown) => (w, .thrown)
  | (w, .cut) => (w, .cut)

/-- `PipeDataSource::Read`, PipeDataSource.cpp 18-36, of a pipe which is closed after the last byte.  (A `PipeClosedException` thrown by the
consumer is not told from other exceptions.) -/
def pipeS (cap : Nat) : Source α (InSrc α) where
  read _ c s w :=
    if s.rest = [] then (s, (c.endOfData w).1, (c.endOfData w).2)
    else if s.next cap = 0 then (s.after cap, w, .ok ())
    else (s.after cap, (pipeAnswer (s.next cap) (c.process w (s.rest.take (s.next cap)))).1,
          (pipeAnswer (s.next cap) (c.process w (s.rest.take (s.next cap)))).2)

/-- `BufferedDataMediator`: `_buffer` and `_eod`, BufferedDataMediator.h 19-20. -/
structure Mediator (α : Type) where
  buffer : List α
  eod : Bool
  deriving DecidableEq

/-- `BufferedDataMediator::Process`, BufferedDataMediator.h 27-31: new state and answer. -/
def Mediator.process (m : Mediator α) (d : List α) : Mediator α × Nat := ({ m with buffer := m.buffer ++ d }, d.length)

/-- `BufferedDataMediator::EndOfData`, BufferedDataMediator.h 33-34. -/
def Mediator.endOfData (m : Mediator α) : Mediator α := { m with eod := true }

/-- `Reset`, BufferedDataMediator.h 46-50. -/
def Mediator.reset (_ : Mediator α) : Mediator α := ⟨[], false⟩

/-- The end of `BufferedDataMediator::Read`, BufferedDataMediator.h 39-42. -/
def mediatorFinish (m : Mediator α) : γ × Res Unit → Mediator α × γ × Res Unit
  | (w, .ok _) => (m.reset, w, .ok ())
  | (w, .thrown) => (m, w, .thrown)
  | (w, .cut) => (m, w, .cut)

/-- `BufferedDataMediator::Read` after `ConsumeAll`, BufferedDataMediator.h 38-42. -/
def mediatorAnswer (c : Consumer α γ) (m : Mediator α) : γ × Res Nat → Mediator α × γ × Res Unit
  | (w, .ok _) => if m.eod then mediatorFinish m (c.endOfData w) else (m.reset, w, .ok ())
  | (w, .thrown) => (m, w, .thrown)
  | (w, .cut) => (m, w, .cut)

/-- `BufferedDataMediator::Read`, BufferedDataMediator.h 36-43. -/
def mediatorS : Source α (Mediator α) where
  read n c m w := mediatorAnswer c m (consumeAll n c w m.buffer)

/-! ### Consumers -/

/-- `DataStorage`, DataSourceReader.cpp 21-36, with a token which is tested on `τ` and cancelled according to `alive`: stored bytes and the
state of the token. -/
def storageC {τ : Type} (alive : τ → τ × Bool) : Consumer α (List α × τ) where
  process w d := ((w.1 ++ d, w.2), .ok d.length)
  endOfData w := (w, .ok ())
  poll w := ((w.1, (alive w.2).1), (alive w.2).2)

/-- `DataSourceReader::ReadToEnd`, DataSourceReader.cpp 19-41: source afterwards, result (if it returns). -/
def readToEnd {τ : Type} (S : Source α σ) (n : Nat) (alive : τ → τ × Bool) (s : σ) (t : τ) : σ × Res (List α) :=
  ((reactiveS S).read n (storageC alive) s ([], t) |>.1,
   match ((reactiveS S).read n (storageC alive) s ([], t)).2 with
   | (w, .ok _) => .ok w.1
   | (_, .thrown) => .thrown
   | (_, .cut) => .cut)

/-- `ByteDataConsumer`: what was stored at the beginning of the destination, the bytes of the rest of the destination, `_eod`.
ByteDataConsumer.h 19-20. -/
structure ByteDest (α : Type) where
  written : List α
  free : List α
  eod : Bool
  deriving DecidableEq

/-- `ByteDataConsumer::Process`, ByteDataConsumer.cpp 21-28: new state and answer. -/
def ByteDest.process (b : ByteDest α) (d : List α) : ByteDest α × Nat :=
  ({ b with written := b.written ++ d.take (min d.length b.free.length), free := b.free.drop (min d.length b.free.length) }, d.length)

/-- `ByteDataConsumer::IsFull`, ByteDataConsumer.h 28. -/
def ByteDest.isFull (b : ByteDest α) : Bool := b.free.isEmpty

end
end Verif.Pipeline
