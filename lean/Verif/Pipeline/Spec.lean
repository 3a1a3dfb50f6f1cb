import Verif.Pipeline.Model
/-
What a user expects of sources and consumers of data, in terms of the calls only.
-/
namespace Verif.Pipeline.Spec
open Verif.Pipeline
section
variable {α γ σ : Type}

/-- What a consumer sees: bytes it took, or the end of the data. -/
inductive Event (α : Type)
  | data (taken : List α)
  | eod
  deriving DecidableEq

/-- The bytes a consumer took. -/
def received : List (Event α) → List α
  | [] => []
  | .data d :: es => d ++ received es
  | .eod :: es => received es

/-- The number of times the end of the data was reported. -/
def ends : List (Event α) → Nat
  | [] => 0
  | .data _ :: es => ends es
  | .eod :: es => ends es + 1

/-- What a consumer which answered `k` to the offer `d` has taken. -/
def took (log : List (Event α)) (d : List α) : Res Nat → List (Event α)
  | .ok k => log ++ [.data (d.take k)]
  | .thrown => log
  | .cut => log

/-- The consumer `c`, watched: a log of what it took is kept beside its world. -/
def record (c : Consumer α γ) : Consumer α (γ × List (Event α)) where
  process w d := (((c.process w.1 d).1, took w.2 d (c.process w.1 d).2), (c.process w.1 d).2)
  endOfData w := (((c.endOfData w.1).1, w.2 ++ [.eod]), (c.endOfData w.1).2)
  poll w := (((c.poll w.1).1, w.2), (c.poll w.1).2)

/-- The consumer `p` of packets, watched: the packets it was offered and the packets it took. -/
def recordP (p : PConsumer α γ) : PConsumer α (γ × List (List α) × List (List α)) where
  process w d := (((p.process w.1 d).1, w.2.1 ++ [d], if (p.process w.1 d).2 = .ok true then w.2.2 ++ [d] else w.2.2), (p.process w.1 d).2)
  endOfData w := (((p.endOfData w.1).1, w.2), (p.endOfData w.1).2)
  poll w := (((p.poll w.1).1, w.2), (p.poll w.1).2)

/-- The consumer does not claim more bytes than it was offered. -/
def Honest (c : Consumer α γ) : Prop := ∀ w d k, (c.process w d).2 = .ok k → k ≤ d.length

/-- The token is never cancelled. -/
def Patient (c : Consumer α γ) : Prop := ∀ w, (c.poll w).2 = true

/-- The consumer does not throw. -/
def Calm (c : Consumer α γ) : Prop := (∀ w d, (c.process w d).2 ≠ .thrown) ∧ ∀ w, (c.endOfData w).2 ≠ .thrown

/-- The consumer takes everything it is offered. -/
def Greedy (c : Consumer α γ) : Prop := ∀ w d k, (c.process w d).2 = .ok k → k = d.length

/-- Every call of the consumer returns, and it takes something of every non-empty offer. -/
def Progressing (c : Consumer α γ) : Prop :=
  (∀ w d, d ≠ [] → ∃ k, 0 < k ∧ (c.process w d).2 = .ok k) ∧ ∀ w, (c.endOfData w).2 = .ok ()

/-- Kinds of consumers: anyone; never cancelled and not throwing; not throwing and taking everything. -/
def Anyone : {γ : Type} → Consumer α γ → Prop := fun _ => True
def Steady : {γ : Type} → Consumer α γ → Prop := fun c => Patient c ∧ Calm c
def Eager : {γ : Type} → Consumer α γ → Prop := fun c => Greedy c ∧ Calm c

/-- `I rest ended w`: a statement about the world of the consumer while `rest` is what it has still to get, and whether it was told the end.
`Keeps c I`: the statement stays true when the consumer is offered a beginning of `rest` and takes some of it, when the token is tested, and
when it is told the end while nothing is left; while a call has not returned, it holds for some rest. -/
structure Keeps (c : Consumer α γ) (I : List α → Bool → γ → Prop) : Prop where
  poll : ∀ rest e w, I rest e w → I rest e (c.poll w).1
  took : ∀ d rest w k, I (d ++ rest) false w → (c.process w d).2 = .ok k → k ≤ d.length ∧ I ((d ++ rest).drop k) false (c.process w d).1
  threw : ∀ d rest w, I (d ++ rest) false w → (c.process w d).2 = .thrown → I (d ++ rest) false (c.process w d).1
  stuck : ∀ d rest w, I (d ++ rest) false w → (c.process w d).2 = .cut → ∃ rest', I rest' false (c.process w d).1
  ended : ∀ w, I [] false w → I [] true (c.endOfData w).1

/-- The contract of a source, for the consumers in `Q`; `left s` is what a source in state `s` has still to deliver.  Whatever statement about
the consumer and the bytes it has still to get is kept by the consumer is kept by `Read`: so `Read` offers only the next bytes, counts what was
taken, and reports the end only when nothing is left, and offers nothing after that.  While `Read` is in progress (`cut`), the statement
holds for some rest. -/
def LosslessFor (Q : {γ : Type} → Consumer α γ → Prop) (S : Source α σ) (left : σ → List α) : Prop :=
  ∀ {γ : Type} (c : Consumer α γ), Q c → ∀ I : List α → Bool → γ → Prop, Keeps c I → ∀ n s w, I (left s) false w →
    ((S.read n c s w).2.2 ≠ .cut → ∃ e, I (left (S.read n c s w).1) e (S.read n c s w).2.1 ∧ (e = true → left (S.read n c s w).1 = [])) ∧
    ∃ rest e, I rest e (S.read n c s w).2.1

end

/-- A consumer following a script, with a token: the next answers (a number of bytes at most, or `none`: throw; everything is taken when the
script is used up) and the number of tests of the token until it is cancelled. -/
def scripted : Consumer Nat (List (Option Nat) × Nat) where
  process w d :=
    match w.1 with
    | [] => (w, .ok d.length)
    | none :: as => ((as, w.2), .thrown)
    | some k :: as => ((as, w.2), .ok (min k d.length))
  endOfData w := (w, .ok ())
  poll w := ((w.1, w.2 - 1), decide (0 < w.2))

/-- A consumer taking two bytes at a time and counting the calls. -/
def twoByTwo {α : Type} : Consumer α Nat where
  process w d := (w + 1, .ok (min 2 d.length))
  endOfData w := (w + 1, .ok ())
  poll w := (w, true)

end Verif.Pipeline.Spec
