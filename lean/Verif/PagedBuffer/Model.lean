import Verif.Ring.Model
/-
Model of `PagedBuffer` (/repo/stingraykit/io/PagedBuffer.{h,cpp}).

Every step is the code between two points at which `_mutex` is released; the steps of `Push`, `Read`, `Pop` and `Seek` of different threads
interleave arbitrarily. Concurrent `Push` calls exclude each other (`WriteGuard`, 30-66: step disabled), concurrent `Read` calls are
rejected (`ReadLock`, 13-27).
Pages (`IPagePtr`, shared) live in `store`, in creation order and for ever; the deque `_pages` is `store.drop first`. `IPage` is abstract in the
code; the model page is a byte list: `Write` overwrites/appends at the offset and writes everything, `Read` lets the consumer take any number of
the bytes written so far from the offset on. Simplifications: bytes are elements of an arbitrary type, `u64` is `Nat` (the subtraction at line 77,
which can underflow, is modelled as such), logging is dropped, waiting is an outcome, page operations do not throw.
-/
namespace Verif.PagedBuffer
open Verif.Ring (slice splice)

/-- `_pageSize`, `_chunkSize`, PagedBuffer.h:41-42. -/
structure Config where
  pageSize : Nat
  chunkSize : Nat
  deriving DecidableEq

/-- Constructor checks, 256-258.  Of PagedBuffer.cpp 16-250. -/
def Config.Valid (c : Config) : Prop := 0 < c.pageSize ∧ 0 < c.chunkSize ∧ c.pageSize % c.chunkSize = 0

/-- `Push` outside of `_mutex`.  For PagedBuffer.cpp 16-250. -/
inductive Writer (α : Type)
  /-- lines 151-156: `now` is to be written to the tail page (`written`: already done), `rest` to new pages -/
  | tail (now rest : List α) (written : Bool)
  /-- lines 167-181: `rest` is written to new pages -/
  | pages (rest : List α)
  deriving DecidableEq

/-- `Read` outside of `_mutex`, 96-101: page, offset in it, the saved `currentOffset`, what the page's `Read` returned.  Of PagedBuffer.cpp 16-250. -/
structure Reader where
  page : Nat
  offset : Nat
  saved : Nat
  processed : Option Nat
  deriving DecidableEq

/-- Fields, PagedBuffer.h:44-55. -/
structure Sys (α : Type) where
  store : List (List α)
  first : Nat
  startOffset : Nat
  currentOffset : Nat
  tailSize : Nat
  writer : Option (Writer α)
  reader : Option Reader
  deriving DecidableEq

/-- The calls, PagedBuffer.cpp 16-250. -/
inductive Op (α : Type)
  | push (data : List α)
  | tailWritten
  | tailDone
  | pagesDone
  | read
  /-- the consumer takes `k` of the bytes the page has from the offset on -/
  | deliver (k : Nat)
  | readEnd (cancelled : Bool)
  | pop (size : Nat)
  | seek (offset : Nat)
  | size
  deriving DecidableEq

/-- What a call returns, PagedBuffer.cpp 16-250. -/
inductive Out (α : Type)
  | done
  | inProgress
  /-- `InvalidOperationException`, line 21 -/
  | busy
  /-- `LogicException`, lines 85 and 139 -/
  | broken
  | waiting
  | reading
  | bytes (b : List α)
  | cancelled
  /-- `IndexOutOfRangeException` -/
  | outOfRange
  /-- `ArgumentException` -/
  | badArg
  | size (n : Nat)
  deriving DecidableEq

section
variable {α : Type}

/-- Constructor, 245-253.  Of PagedBuffer.cpp 16-250. -/
def Sys.create : Sys α := ⟨[], 0, 0, 0, 0, none, none⟩

/-- `_pages.size()`.  For PagedBuffer.cpp 16-250. -/
def Sys.count (s : Sys α) : Nat := s.store.length - s.first

/-- `GetStorageSize`, 117-121.  Of PagedBuffer.cpp 16-250. -/
def storageSize (c : Config) (s : Sys α) : Nat := c.pageSize * s.count - s.startOffset - s.tailSize

/-- The loop 170-180: contents of the new pages.  Of PagedBuffer.cpp 16-250. -/
def newPages (c : Config) : Nat → List α → List (List α)
  | 0, _ => []
  | fuel + 1, d => if d.length = 0 then [] else d.take (min c.pageSize d.length) :: newPages c fuel (d.drop (min c.pageSize d.length))

/-- The loop 170-180: `newTailSize`.  Of PagedBuffer.cpp 16-250. -/
def newTail (c : Config) : Nat → List α → Nat → Nat
  | 0, _, t => t
  | fuel + 1, d, t =>
    if d.length = 0 then t else newTail c fuel (d.drop (min c.pageSize d.length)) (c.pageSize - min c.pageSize d.length)

/-- The loop of `Pop`, 207-212, on (dropped pages, newStartOffset, newCurrentOffset).  Of PagedBuffer.cpp 16-250. -/
def popLoop (c : Config) : Nat → Nat × Nat × Nat → Nat × Nat × Nat
  | 0, x => x
  | fuel + 1, (dropped, st, cur) =>
    if c.pageSize ≤ st then popLoop c fuel (dropped + 1, st - c.pageSize, cur - c.pageSize) else (dropped, st, cur)

/-- `unreadSize < _chunkSize`, 77-78, with the wrap-around of the unsigned subtraction.  Of PagedBuffer.cpp 16-250. -/
def nothingToRead (c : Config) (s : Sys α) : Bool :=
  decide (s.currentOffset + s.tailSize ≤ c.pageSize * s.count) && decide (c.pageSize * s.count - s.currentOffset - s.tailSize < c.chunkSize)

/-- One step; `none`: disabled.  For PagedBuffer.cpp 16-250. -/
def step (c : Config) (s : Sys α) : Op α → Option (Sys α × Out α)
  -- 124-151 and 164-167
  | .push d =>
    match s.writer with
    | some _ => none
    | none =>
      if s.count = 0 ∧ s.tailSize ≠ 0 then some (s, .broken)
      else if 0 < s.tailSize then
        some ({ s with writer := some (.tail (d.take (min s.tailSize d.length)) (d.drop (min s.tailSize d.length)) false) }, .inProgress)
      else some ({ s with writer := some (.pages d) }, .inProgress)
  -- 154: the tail page is the last one
  | .tailWritten =>
    match s.writer with
    | some (.tail now rest false) =>
      some ({ s with store := s.store.dropLast ++ [splice (s.store.getLast?.getD []) (c.pageSize - s.tailSize) now],
                     writer := some (.tail now rest true) }, .done)
    | _ => none
  -- 158-167
  | .tailDone =>
    match s.writer with
    | some (.tail now rest true) => some ({ s with tailSize := s.tailSize - now.length, writer := some (.pages rest) }, .done)
    | _ => none
  -- 170-192
  | .pagesDone =>
    match s.writer with
    | some (.pages rest) =>
      some ({ s with store := s.store ++ newPages c rest.length rest, tailSize := newTail c rest.length rest s.tailSize, writer := none }, .done)
    | _ => none
  -- 72-96
  | .read =>
    match s.reader with
    | some _ => some (s, .busy)
    | none =>
      if nothingToRead c s then some (s, .waiting)
      else if s.currentOffset / c.pageSize < s.count then
        some ({ s with reader := some ⟨s.first + s.currentOffset / c.pageSize, s.currentOffset % c.pageSize, s.currentOffset, none⟩ }, .reading)
      else some (s, .broken)
  -- 99
  | .deliver k =>
    match s.reader with
    | some ⟨page, off, saved, none⟩ =>
      if off + k ≤ (s.store[page]?.getD []).length then
        some ({ s with reader := some ⟨page, off, saved, some k⟩ }, .bytes (slice (s.store[page]?.getD []) off k))
      else none
    | _ => none
  -- 100-114
  | .readEnd cancelled =>
    match s.reader with
    | some ⟨_, _, saved, some k⟩ =>
      if cancelled then some ({ s with reader := none }, .cancelled)
      else if s.currentOffset = saved then
        some ({ s with currentOffset := s.currentOffset + (k - k % c.chunkSize), reader := none }, .done)
      else some ({ s with reader := none }, .done)
    | _ => none
  -- 195-226
  | .pop n =>
    if storageSize c s < n then some (s, .outOfRange)
    else if n % c.chunkSize ≠ 0 then some (s, .badArg)
    else
      match popLoop c (s.startOffset + n) (0, s.startOffset + n, max (s.startOffset + n) s.currentOffset) with
      | (dropped, st, cur) => some ({ s with first := s.first + dropped, startOffset := st, currentOffset := cur }, .done)
  -- 229-242
  | .seek off =>
    if storageSize c s < off then some (s, .outOfRange)
    else if off % c.chunkSize ≠ 0 then some (s, .badArg)
    else some ({ s with currentOffset := s.startOffset + off }, .done)
  | .size => some (s, .size (storageSize c s))

/-- A call with its result, in the histories of PagedBuffer.cpp 16-250. -/
structure Event (α : Type) where
  op : Op α
  out : Out α
  deriving DecidableEq

/-- One step after another, for histories of PagedBuffer.cpp 16-250. -/
def runFrom (c : Config) (s : Sys α) : List (Op α) → Option (Sys α × List (Event α))
  | [] => some (s, [])
  | op :: ops =>
    match step c s op with
    | none => none
    | some (s', out) =>
      match runFrom c s' ops with
      | none => none
      | some (s'', t) => some (s'', ⟨op, out⟩ :: t)

/-- One step after another, for histories of PagedBuffer.cpp 16-250. -/
def run (c : Config) (ops : List (Op α)) : Option (Sys α × List (Event α)) := runFrom c Sys.create ops

/-- A single-threaded client: each call runs to completion before the next one.  For PagedBuffer.cpp 16-250. -/
inductive Call (α : Type)
  | push (data : List α)
  /-- `Read` with a consumer that takes at most `want` bytes -/
  | read (want : Nat)
  | pop (size : Nat)
  | seek (offset : Nat)
  | size
  deriving DecidableEq

/-- The steps of a call started in state `s` (none: the call is stuck, which is shown not to happen).  For PagedBuffer.cpp 16-250. -/
def callSteps (c : Config) (s : Sys α) : Call α → List (Op α)
  | .push d => if 0 < s.tailSize then [.push d, .tailWritten, .tailDone, .pagesDone] else [.push d, .pagesDone]
  | .read want =>
    if nothingToRead c s then [.read]
    else [.read, .deliver (min want ((s.store[s.first + s.currentOffset / c.pageSize]?.getD []).length - s.currentOffset % c.pageSize)), .readEnd false]
  | .pop n => [.pop n]
  | .seek n => [.seek n]
  | .size => [.size]

/-- What the client sees of a call: the bytes its consumer took, and the last outcome.  For PagedBuffer.cpp 16-250. -/
def seen (t : List (Event α)) : List α × Option (Out α) :=
  (t.flatMap (fun e => match e.out with | .bytes b => b | _ => []), t.getLast?.map (·.out))

/-- A sequence of calls with what the client sees of each.  For PagedBuffer.cpp 16-250. -/
def calls (c : Config) (s : Sys α) : List (Call α) → Option (Sys α × List (Call α × List α × Option (Out α)))
  | [] => some (s, [])
  | x :: xs =>
    match runFrom c s (callSteps c s x) with
    | none => none
    | some (s', t) =>
      match calls c s' xs with
      | none => none
      | some (s'', r) => some (s'', (x, (seen t).1, (seen t).2) :: r)

end
end Verif.PagedBuffer
