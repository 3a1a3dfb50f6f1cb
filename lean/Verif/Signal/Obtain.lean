/-
Pulling the current state out of a signal: `GetValuesFromSignal`, `GetVectorFromSignal`, `GetTupleFromSignal`, `GetValueFromSignal`,
`HasValueInSignal` and `SignalToFutureWrapper`.

A signal is given by what its populator sends (messages of any type, the last act possibly an exception of its own); `none` is a dummy connector.
The second component of a run counts the calls of the exception handler of the signal, which here returns normally.
The objects live in one thread at a time (the signal holds its mutex while it populates or calls).
-/
namespace Verif.Signal.Obtain
variable {α M σ : Type}

/-- What a populator does: the messages it sends, and whether it throws in the end.  signal_policies.h 134-151. -/
structure Populator (M : Type) where
  messages : List M
  throws : Bool
  deriving DecidableEq

/-- One call of a slot by the populator: an exception (`none`) goes to the exception handler.  signals.h 50-56. -/
def sendOne (slot : σ → M → Option σ) (w : σ × Nat) (m : M) : σ × Nat :=
  match slot w.1 m with
  | some s => (s, w.2)
  | none => (w.1, w.2 + 1)

/-- The calls of a slot by the populator, one after another.  signals.h 264-268. -/
def sendAll (slot : σ → M → Option σ) (w : σ × Nat) : List M → σ × Nat
  | [] => w
  | m :: ms => sendAll slot (sendOne slot w m) ms

/-- `signal_connector::SendCurrentState`.  signal_connector.h 58-62, signals.h 150-154 and 264-268. -/
def sendCurrentState (slot : σ → M → Option σ) (s : σ) (impl : Option (Populator M)) : σ × Nat :=
  match impl with
  | none => (s, 0)
  | some p => ((sendAll slot (s, 0) p.messages).1, (sendAll slot (s, 0) p.messages).2 + if p.throws then 1 else 0)

/-- `CollectionOp`, the operations a collection reports.  For ValueFromSignalObtainer.h 44-48. -/
inductive Op where
  | added | removed | updated
  deriving DecidableEq

/-- `CollectionBuilder::operator %` of a vector: `push_back`.  CollectionBuilder.h 50-53. -/
def pushBack (l : List α) (v : α) : List α := l ++ [v]

/-- `CollectionBuilder::operator %` of a sorted set: `insert`.  CollectionBuilder.h 55-57. -/
def insert (lt : α → α → Bool) : List α → α → List α
  | [], v => [v]
  | x :: l, v => if lt x v then x :: insert lt l v else if lt v x then v :: x :: l else x :: l

/-- The slot of `ValuesFromSignalCollector` without operation.  ValueFromSignalObtainer.h 40-41. -/
def collect (add : List α → α → List α) (l : List α) (v : α) : Option (List α) := some (add l v)

/-- The slot of `ValuesFromSignalCollector` with operation.  ValueFromSignalObtainer.h 43-48. -/
def collectOp (add : List α → α → List α) (l : List α) (m : Op × α) : Option (List α) :=
  if m.1 = .added then some (add l m.2) else none

/-- The slot of `ValueFromSignalObtainer` and `TupleFromSignalObtainer`.  ValueFromSignalObtainer.h 188-193 and 120-125. -/
def obtain (x : Option α) (v : α) : Option (Option α) :=
  match x with
  | none => some (some v)
  | some _ => none

/-- The slot of `ValueFromSignalObtainer<void>`.  ValueFromSignalObtainer.h 233-237. -/
def obtainVoid (x : Bool) (_ : Unit) : Option Bool := if x then none else some true

/-- `GetVectorFromSignal`.  ValueFromSignalObtainer.h 75-81 and 93-95. -/
def getVector (impl : Option (Populator α)) : List α × Nat := sendCurrentState (collect pushBack) [] impl

/-- `GetVectorFromSignal` with operations.  ValueFromSignalObtainer.h 84-90 and 98-100. -/
def getVectorOp (impl : Option (Populator (Op × α))) : List α × Nat := sendCurrentState (collectOp pushBack) [] impl

/-- `GetValuesFromSignal` of a set.  ValueFromSignalObtainer.h 75-81. -/
def getSet (lt : α → α → Bool) (impl : Option (Populator α)) : List α × Nat := sendCurrentState (collect (insert lt)) [] impl

/-- `GetValueFromSignal` of a type without null, and `GetTupleFromSignal`.  ValueFromSignalObtainer.h 254-262 and 156-162. -/
def getValue (impl : Option (Populator α)) : Option α × Nat := sendCurrentState obtain none impl

/-- `GetValueFromSignal` of a nullable type; `null` is its null.  ValueFromSignalObtainer.h 254-262. -/
def getNullable (null : α) (impl : Option (Populator α)) : α × Nat :=
  match (getValue impl).1 with
  | some v => (v, (getValue impl).2)
  | none => (null, (getValue impl).2)

/-- `HasValueInSignal`, `HasTupleInSignal`.  ValueFromSignalObtainer.h 265-271 and 165-171. -/
def hasValue (impl : Option (Populator α)) : Bool := (sendCurrentState obtain none impl).1.isSome

/-- `HasValueInSignal` of a signal without values.  ValueFromSignalObtainer.h 274-279. -/
def hasVoid (impl : Option (Populator Unit)) : Bool := (sendCurrentState obtainVoid false impl).1

/-! `SignalToFutureWrapper` -/

/-- What the shared state of promise and futures holds.  future.h 60-109. -/
inductive Res (α : Type) where
  | value (v : α)
  | broken
  deriving DecidableEq

/-- The wrapper: the result of the promise, whether its future was retrieved, whether `_future` is valid, whether the wrapper still exists.  SignalToFuture.h 24-27. -/
structure Wrapper (α : Type) where
  result : Option (Res α)
  retrieved : Bool
  valid : Bool
  alive : Bool
  deriving DecidableEq

/-- `promise::set_value`; `none`: PromiseAlreadySatisfied.  SignalToFuture.h 32, future.h 171-177. -/
def setValue (w : Wrapper α) (v : α) : Option (Wrapper α) :=
  match w.result with
  | none => some { w with result := some (.value v) }
  | some _ => none

/-- The constructor, with the calls of the exception handler.  SignalToFuture.h 30-32, signal_connector.h 64-75, signals.h 141-148. -/
def make (impl : Option (Populator α)) : Wrapper α × Nat := sendCurrentState setValue ⟨none, false, false, true⟩ impl

/-- What happens to a wrapper: the signal is invoked with a value, `GetFuture` is called, the wrapper is destroyed.  For SignalToFuture.h 21-40. -/
inductive Act (α : Type) where
  | invoke (v : α)
  | getFuture
  | destroy
  deriving DecidableEq

/-- One act; the number counts the calls of the exception handler of the signal; `none`: FutureAlreadyRetrieved was thrown.  A signal does not call the slot of a wrapper that is gone, and nobody else calls it.
The destructor releases the connection first, then the promise breaks if it has no result.  SignalToFuture.h 27-39, signals.h 254-255, future.h 137-145 and 302-303. -/
def step (connected : Bool) (w : Wrapper α) : Act α → Option (Wrapper α × Nat)
  | .invoke v =>
    if w.alive && connected then
      match setValue w v with
      | some w' => some (w', 0)
      | none => some (w, 1)
    else some (w, 0)
  | .getFuture =>
    if w.alive then
      if w.valid then some (w, 0)
      else if w.retrieved then none
      else some ({ w with retrieved := true, valid := true }, 0)
    else some (w, 0)
  | .destroy =>
    if w.alive then
      match w.result with
      | some _ => some ({ w with alive := false }, 0)
      | none => some ({ w with alive := false, result := some .broken }, 0)
    else some (w, 0)

/-- Acts one after another.  SignalToFuture.h 21-40. -/
def run (connected : Bool) (w : Wrapper α) (errors : Nat) : List (Act α) → Option (Wrapper α × Nat)
  | [] => some (w, errors)
  | a :: as =>
    match step connected w a with
    | none => none
    | some (w', e) => run connected w' (errors + e) as

/-- A wrapper made for a signal (`none`: a dummy connector, that connects to nothing), and what happens to it afterwards.  SignalToFuture.h 21-40. -/
def history (impl : Option (Populator α)) (as : List (Act α)) : Option (Wrapper α × Nat) :=
  run impl.isSome (make impl).1 (make impl).2 as

end Verif.Signal.Obtain
