import Verif.Stream.All
/-!
What the streams and tokens promise, and what is claimed of `ReadAll` and its relatives.
-/
namespace Verif.Stream.All.Spec

/-- The token is cancelled or timed out. -/
def Dead {σ : Type} (E : Env σ) (t : Nat) : Prop := E.cancelled t = true ∨ E.timedOut t = true

/-- A cancelled token stays cancelled, a timed out one timed out (`Reset` is not called meanwhile). -/
structure Sticky {σ : Type} (E : Env σ) : Prop where
  cancelled : ∀ t, E.cancelled t = true → E.cancelled (t + 1) = true
  timedOut : ∀ t, E.timedOut t = true → E.timedOut (t + 1) = true

/-- A source of bytes: `rest s` are those not read yet.  A `Read` takes some of them from the front, at most as many as asked for, and none only if
none were asked for, there are none, or the token is cancelled. -/
structure Source {σ : Type} (E : Env σ) (rest : σ → List Nat) : Prop where
  takes : ∀ (t : Nat) (s s' : σ) (n : Nat) (c : List Nat), E.read t s n = some (c, s') → rest s = c ++ rest s' ∧ c.length ≤ n
  some : ∀ (t : Nat) (s s' : σ) (n : Nat), E.read t s n = some ([], s') → n = 0 ∨ rest s = [] ∨ Dead E (t + 1)

/-- A sink of bytes: `got s` are those written.  A `Write` appends some of what it is given, from the front, and none only if there is nothing or the
token is cancelled. -/
structure Sink {σ : Type} (E : Env σ) (got : σ → List Nat) : Prop where
  appends : ∀ (t : Nat) (s s' : σ) (d : List Nat) (n : Nat), E.write t s d = some (n, s') → n ≤ d.length ∧ got s' = got s ++ d.take n
  some : ∀ (t : Nat) (s s' : σ) (d : List Nat), E.write t s d = some (0, s') → d = [] ∨ Dead E (t + 1)

end Verif.Stream.All.Spec
