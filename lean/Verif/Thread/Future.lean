/-
Model of `promise`, `future` and `shared_future` (stingraykit/future.h) as a transition system, and properties C44 and C46. Promises, handles (futures) and threads are numbers; the
shared states (`future_impl`) are numbered in the order of their creation. A result is a value or an exception. Every section under the mutex of a shared state is one step; waiting is
interleaved with anything, with spurious wakeups, timeouts and cancellation (`get` waits with `DummyCancellationToken`). Not modelled: exceptions from copying values, null `ExceptionPtr`s.
-/
namespace Verif.Thread.Future

/-- `future_result`: future.h:60-109. -/
inductive Res where
  | value (v : Nat) | exception (e : Nat) | brokenPromise
  deriving DecidableEq, Repr

/-- `promise`: future.h:288-289. -/
structure Promise where
  cell : Nat
  retrieved : Bool
  deriving DecidableEq, Repr

/-- `future` and `shared_future`: future.h:210, 243. -/
structure Handle where
  cell : Option Nat
  shared : Bool
  deriving DecidableEq, Repr

/-- A thread in `get` or `wait`.  For future.h 60-309. -/
inductive Pc where
  | idle
  | waiting (cell : Nat) (get : Bool) (woken : Bool)
  deriving DecidableEq, Repr

/-- The variables and the threads of future.h 60-309. -/
structure State where
  cells : Nat → Option Res
  promises : Nat → Option Promise
  handles : Nat → Option Handle
  threads : Nat → Pc
  created : Nat                     -- number of shared states
  effects : List (Nat × Res)        -- the assignments that took effect, with the shared state
  futures : List Nat                -- the shared states futures were retrieved of

/-- The state after construction, future.h 60-309. -/
def init : State := ⟨fun _ => none, fun _ => none, fun _ => none, fun _ => .idle, 0, [], []⟩

/-- Change of a function at one point; a helper of the model of future.h 60-309. -/
def set {α : Type} (f : Nat → α) (i : Nat) (x : α) : Nat → α := fun j => if j = i then x else f j

/-- What a call returns, future.h 60-309. -/
inductive Out where
  | none
  | promiseAlreadySatisfied | futureAlreadyRetrieved | notValid
  | got (r : Res)                             -- `get` returned the value or threw the exception
  | ready | timeout | cancelled               -- `wait` returned
  deriving DecidableEq, Repr

/-- `notify_ready`: future.h:148-149. -/
def Pc.wake (c : Nat) : Pc → Pc
  | .waiting d g w => .waiting d g (if d = c then true else w)
  | .idle => .idle

/-- `_result = ...; notify_ready()`: future.h:143-144, 175-176. -/
def assign (s : State) (c : Nat) (r : Res) : State :=
  { s with cells := set s.cells c (some r), threads := fun t => (s.threads t).wake c, effects := s.effects ++ [(c, r)] }

/-- `promise::promise`: future.h:293-294. -/
def create (s : State) (p : Nat) : Option (Out × State) :=
  if s.promises p = none then some (.none, { s with promises := set s.promises p (some ⟨s.created, false⟩), created := s.created + 1 }) else none

/-- `promise::~promise`: future.h:296-297, 137-145. -/
def destroy (s : State) (p : Nat) : Option (Out × State) := match s.promises p with
  | none => none
  | some x => match s.cells x.cell with
    | some _ => some (.none, { s with promises := set s.promises p none })
    | none => some (.none, { assign s x.cell .brokenPromise with promises := set s.promises p none })

/-- `promise::swap`: future.h:299-300. -/
def swap (s : State) (p q : Nat) : Option (Out × State) := match s.promises p, s.promises q with
  | some x, some y => some (.none, { s with promises := set (set s.promises p (some { x with cell := y.cell })) q (some { y with cell := x.cell }) })
  | _, _ => none

/-- `promise::get_future`, into the handle `h`: future.h:302-303. -/
def getFuture (s : State) (p h : Nat) : Option (Out × State) := match s.promises p with
  | none => none
  | some x => if x.retrieved then some (.futureAlreadyRetrieved, s)
    else some (.none, { s with promises := set s.promises p (some { x with retrieved := true }), handles := set s.handles h (some ⟨some x.cell, false⟩), futures := s.futures ++ [x.cell] })

/-- `promise::set_value`: future.h:305-306, 171-177. -/
def setValue (s : State) (p v : Nat) : Option (Out × State) := match s.promises p with
  | none => none
  | some x => match s.cells x.cell with
    | some _ => some (.promiseAlreadySatisfied, s)
    | none => some (.none, assign s x.cell (.value v))

/-- `promise::set_exception`: future.h:308-309, 137-145. -/
def setException (s : State) (p e : Nat) : Option (Out × State) := match s.promises p with
  | none => none
  | some x => match s.cells x.cell with
    | some _ => some (.none, s)
    | none => some (.none, assign s x.cell (.exception e))

/-- `future::share`, of handle `h` into handle `k`: future.h:253-258. -/
def share (s : State) (h k : Nat) : Option (Out × State) := match s.handles h with
  | some ⟨c, false⟩ => some (.none, { s with handles := set (set s.handles h (some ⟨none, false⟩)) k (some ⟨c, true⟩) })
  | _ => none

/-- `get` by thread `t` up to the wait: future.h:224, 260-266, 130-135. -/
def get (s : State) (t h : Nat) : Option (Out × State) := match s.handles h, s.threads t with
  | some ⟨none, _⟩, .idle => some (.notValid, s)
  | some ⟨some c, sh⟩, .idle => match s.cells c with
    | some r => some (.got r, { s with handles := set s.handles h (some ⟨if sh then some c else none, sh⟩) })
    | none => some (.none, { s with handles := set s.handles h (some ⟨if sh then some c else none, sh⟩), threads := set s.threads t (.waiting c true false) })
  | _, _ => none

/-- `wait` by thread `t` up to the wait: future.h:226-227, 268-269, 127-128. -/
def wait (s : State) (t h : Nat) : Option (Out × State) := match s.handles h, s.threads t with
  | some ⟨none, _⟩, .idle => some (.notValid, s)
  | some ⟨some c, _⟩, .idle => match s.cells c with
    | some _ => some (.ready, s)
    | none => some (.none, { s with threads := set s.threads t (.waiting c false false) })
  | _, _ => none

/-- Thread `t` wakes up: future.h:151-162. -/
def resume (s : State) (t : Nat) : Option (Out × State) := match s.threads t with
  | .waiting c g true => match s.cells c with
    | some r => some (if g then .got r else .ready, { s with threads := set s.threads t .idle })
    | none => some (.none, { s with threads := set s.threads t (.waiting c g false) })
  | _ => none

/-- A spurious wake-up in future.h 60-309. -/
def spurious (s : State) (t : Nat) : Option (Out × State) := match s.threads t with
  | .waiting c g _ => some (.none, { s with threads := set s.threads t (.waiting c g true) })
  | _ => none

/-- The token of a `wait` is cancelled or times out: future.h:157-158. -/
def abort (s : State) (t : Nat) (timeout : Bool) : Option (Out × State) := match s.threads t with
  | .waiting _ false _ => some (if timeout then .timeout else .cancelled, { s with threads := set s.threads t .idle })
  | _ => none

/-- The steps a schedule of future.h 60-309 is made of. -/
inductive Act where
  | create (p : Nat) | destroy (p : Nat) | swap (p q : Nat) | getFuture (p h : Nat) | setValue (p v : Nat) | setException (p e : Nat)
  | share (h k : Nat) | get (t h : Nat) | wait (t h : Nat) | resume (t : Nat) | spurious (t : Nat) | abort (t : Nat) (timeout : Bool)
  deriving DecidableEq, Repr

/-- One step, future.h 60-309. -/
def step (s : State) : Act → Option (Out × State)
  | .create p => create s p
  | .destroy p => destroy s p
  | .swap p q => swap s p q
  | .getFuture p h => getFuture s p h
  | .setValue p v => setValue s p v
  | .setException p e => setException s p e
  | .share h k => share s h k
  | .get t h => get s t h
  | .wait t h => wait s t h
  | .resume t => resume s t
  | .spurious t => spurious s t
  | .abort t b => abort s t b

/-- One step after another, for histories of future.h 60-309. -/
def run (s : State) : List Act → Option State
  | [] => some s
  | a :: as => match step s a with
    | none => none
    | some (_, s') => run s' as

end Verif.Thread.Future
