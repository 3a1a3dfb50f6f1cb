import Verif.PagedBuffer.Model
/- Specification of `PagedBuffer`: a byte log with a cursor. -/
namespace Verif.PagedBuffer.Spec
section
variable {α : Type}

/-! ### Single-threaded client -/

/-- Stored bytes and the position of the cursor in them. -/
structure Log (α : Type) where
  stored : List α
  cursor : Nat

inductive Call (c : Config) : Log α → PagedBuffer.Call α → List α → Option (Out α) → Log α → Prop
  | push (l : Log α) (d : List α) : Call c l (.push d) [] (some .done) ⟨l.stored ++ d, l.cursor⟩
  /-- waits exactly when less than a chunk is unread -/
  | wait (l : Log α) (w : Nat) (h : l.stored.length - l.cursor < c.chunkSize) : Call c l (.read w) [] (some .waiting) l
  /-- otherwise the consumer gets the next bytes: at most `w`, at least one if `w > 0`; the cursor moves past the whole chunks taken -/
  | read (l : Log α) (w k : Nat) (h : c.chunkSize ≤ l.stored.length - l.cursor) (hk : k ≤ w) (hp : 0 < w → 0 < k) (hf : k ≤ l.stored.length - l.cursor) :
      Call c l (.read w) ((l.stored.drop l.cursor).take k) (some .done) ⟨l.stored, l.cursor + (k - k % c.chunkSize)⟩
  /-- exactly `n` oldest bytes go; the cursor stays at its byte if that is still there -/
  | pop (l : Log α) (n : Nat) (h : n ≤ l.stored.length) (hc : n % c.chunkSize = 0) :
      Call c l (.pop n) [] (some .done) ⟨l.stored.drop n, l.cursor - n⟩
  | popRange (l : Log α) (n : Nat) (h : l.stored.length < n) : Call c l (.pop n) [] (some .outOfRange) l
  | popArg (l : Log α) (n : Nat) (h : n ≤ l.stored.length) (hc : n % c.chunkSize ≠ 0) : Call c l (.pop n) [] (some .badArg) l
  | seek (l : Log α) (n : Nat) (h : n ≤ l.stored.length) (hc : n % c.chunkSize = 0) : Call c l (.seek n) [] (some .done) ⟨l.stored, n⟩
  | seekRange (l : Log α) (n : Nat) (h : l.stored.length < n) : Call c l (.seek n) [] (some .outOfRange) l
  | seekArg (l : Log α) (n : Nat) (h : n ≤ l.stored.length) (hc : n % c.chunkSize ≠ 0) : Call c l (.seek n) [] (some .badArg) l
  | size (l : Log α) : Call c l .size [] (some (.size l.stored.length)) l

inductive Calls (c : Config) : Log α → List (PagedBuffer.Call α × List α × Option (Out α)) → Log α → Prop
  | nil (l : Log α) : Calls c l [] l
  | cons {l l' l'' : Log α} {x b o r} (h : Call c l x b o l') (ht : Calls c l' r l'') : Calls c l ((x, b, o) :: r) l''

/-! ### Concurrent use -/

/-- `log`: all bytes given to `Push` so far; positions are positions in it: `pub`: bytes visible to size and `Pop`; `popped`; `cursor`.
`w`: a `Push` is in progress. `r`: the `Read` in progress: its position, whether a `Pop` or `Seek` disturbed it, what was taken.
`chaos`: a disturbed `Read` moved the cursor: no guarantee afterwards. -/
structure St (α : Type) where
  log : List α
  pub : Nat
  popped : Nat
  cursor : Nat
  w : Bool
  r : Option (Nat × Bool × Option Nat)
  chaos : Bool

def St.init : St α := ⟨[], 0, 0, 0, false, none, false⟩

/-- A `Pop`/`Seek` happened during the `Read` in progress, if any. -/
def disturb : Option (Nat × Bool × Option Nat) → Option (Nat × Bool × Option Nat)
  | none => none
  | some (p, _, k) => some (p, true, k)

inductive Step (c : Config) : St α → Op α → Out α → St α → Prop
  | chaos (s s' : St α) (op : Op α) (out : Out α) (h : s.chaos = true) (h' : s'.chaos = true) : Step c s op out s'
  | push (s : St α) (d : List α) (h : s.w = false) : Step c s (.push d) .inProgress { s with log := s.log ++ d, w := true }
  | tailWritten (s : St α) (h : s.w = true) : Step c s .tailWritten .done s
  | tailDone (s : St α) (p : Nat) (h : s.w = true) (h1 : s.pub ≤ p) (h2 : p ≤ s.log.length) : Step c s .tailDone .done { s with pub := p }
  | pagesDone (s : St α) (h : s.w = true) : Step c s .pagesDone .done { s with pub := s.log.length, w := false }
  | busy (s : St α) (h : s.r ≠ none) : Step c s .read .busy s
  /-- waits exactly when less than a chunk is available -/
  | wait (s : St α) (h : s.r = none) (h1 : s.cursor ≤ s.pub) (h2 : s.pub - s.cursor < c.chunkSize) : Step c s .read .waiting s
  /-- only possible after a `Read` took bytes of a `Push` that is still in progress -/
  | broken (s : St α) (h : s.r = none) (hw : s.w = true) (h1 : s.pub < s.cursor) : Step c s .read .broken s
  | read (s : St α) (h : s.r = none) (h1 : s.cursor + c.chunkSize ≤ s.pub ∨ (s.w = true ∧ s.pub < s.cursor)) :
      Step c s .read .reading { s with r := some (s.cursor, false, none) }
  /-- the consumer is given the bytes of the log from the position of the `Read` on -/
  | deliver (s : St α) (p k : Nat) (d : Bool) (h : s.r = some (p, d, none)) (h1 : p + k ≤ s.log.length) :
      Step c s (.deliver k) (.bytes ((s.log.drop p).take k)) { s with r := some (p, d, some k) }
  /-- the cursor moves past what was taken -/
  | readEnd (s : St α) (p k : Nat) (h : s.r = some (p, false, some k)) (h1 : s.cursor = p) :
      Step c s (.readEnd false) .done { s with cursor := s.cursor + (k - k % c.chunkSize), r := none }
  | readCancelled (s : St α) (p k : Nat) (d : Bool) (h : s.r = some (p, d, some k)) : Step c s (.readEnd true) .cancelled { s with r := none }
  | readDisturbed (s s' : St α) (p k : Nat) (h : s.r = some (p, true, some k)) (h' : s'.chaos = true) : Step c s (.readEnd false) .done s'
  | pop (s : St α) (n : Nat) (h : s.popped + n ≤ s.pub) (hc : n % c.chunkSize = 0)
      (hd : c.pageSize ≤ s.popped % c.pageSize + n ∨ s.cursor < s.popped + n) :
      Step c s (.pop n) .done { s with popped := s.popped + n, cursor := max (s.popped + n) s.cursor, r := disturb s.r }
  | popRange (s : St α) (n : Nat) (h : s.pub < s.popped + n) : Step c s (.pop n) .outOfRange s
  | popArg (s : St α) (n : Nat) (h : s.popped + n ≤ s.pub) (hc : n % c.chunkSize ≠ 0) : Step c s (.pop n) .badArg s
  /-- a `Pop` inside the oldest page and behind the cursor does not disturb a `Read` -/
  | popQuiet (s : St α) (n : Nat) (h : s.popped + n ≤ s.pub) (hc : n % c.chunkSize = 0) (hp : s.popped % c.pageSize + n < c.pageSize)
      (hq : s.popped + n ≤ s.cursor) : Step c s (.pop n) .done { s with popped := s.popped + n }
  | seek (s : St α) (n : Nat) (h : s.popped + n ≤ s.pub) (hc : n % c.chunkSize = 0) :
      Step c s (.seek n) .done { s with cursor := s.popped + n, r := disturb s.r }
  | seekRange (s : St α) (n : Nat) (h : s.pub < s.popped + n) : Step c s (.seek n) .outOfRange s
  | seekArg (s : St α) (n : Nat) (h : s.popped + n ≤ s.pub) (hc : n % c.chunkSize ≠ 0) : Step c s (.seek n) .badArg s
  | size (s : St α) : Step c s .size (.size (s.pub - s.popped)) s

inductive Trace (c : Config) : St α → List (Event α) → St α → Prop
  | nil (s : St α) : Trace c s [] s
  | cons {s s' s'' : St α} {e : Event α} {t : List (Event α)} (h : Step c s e.op e.out s') (ht : Trace c s' t s'') : Trace c s (e :: t) s''

/-- Everything given to `Push`, in order. -/
def pushed (t : List (Event α)) : List α := t.flatMap (fun e => match e.op, e.out with | .push d, .inProgress => d | _, _ => [])

/-- The byte blocks taken by the consumer, one per `Read`. -/
def taken (t : List (Event α)) : List (List α) := t.filterMap (fun e => match e.out with | .bytes b => some b | _ => none)

/-- No successful `Pop` or `Seek` while a `Read` is in progress (`reading`). -/
def calm : Bool → List (Event α) → Prop
  | _, [] => True
  | reading, e :: t =>
    match e.op, e.out with
    | .read, .reading => calm true t
    | .readEnd _, _ => calm false t
    | .pop _, .done => reading = false ∧ calm reading t
    | .seek _, .done => reading = false ∧ calm reading t
    | _, _ => calm reading t

/-- The blocks lie in `l` at non-overlapping increasing positions, the first at `lo` or later. -/
def Disjoint (l : List α) : Nat → List (List α) → Prop
  | _, [] => True
  | lo, b :: bs => ∃ p, lo ≤ p ∧ p + b.length ≤ l.length ∧ (l.drop p).take b.length = b ∧ Disjoint l (p + b.length) bs

end
end Verif.PagedBuffer.Spec
