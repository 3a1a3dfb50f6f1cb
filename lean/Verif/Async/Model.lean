import Verif.Async.Spec
import Verif.Ring.Model

/-!
# AsyncByteStream

`io/AsyncByteStream.h`, `io/AsyncByteStream.cpp`: a stream whose writes are queued, merged with queued ones, and carried
out by a thread.

Everything under `_streamOpQueueMutex` is one step; the thread's calls of the underlying stream, made with the mutex
released, lie between the steps `take` and `wrote`, `synced` or `threw`, and any calls of users may come in between.
Each buffer has a number; memory is a function from a buffer's number and an offset to a byte, and `gone` is the
outcome of using memory of a buffer that was destroyed.  The buffers are `Ring`s of which only the offsets are used.
`u64`, `size_t` and `s64` are unbounded; statistics, logging, profiling and the condition variables are left out: a
thread that can go on is woken after at most a second.
-/

namespace Verif.Async

open Verif.Ring

variable {α : Type}

/-- `StreamOpData`: AsyncByteStream.h 66-115; of a `Write` the start offset, the buffer and the place in it, the size of
that place and `_used` -/
inductive Op
  | write (start gen off cap used : Nat)
  | stop
  | sync (k : Nat)
  | popBuffer
deriving DecidableEq

namespace Op

/-- `GetWriteStartOffset`, `_arg` whatever the operation is: AsyncByteStream.h 83-84, 107-114 -/
def start : Op → Nat
  | write s _ _ _ _ => s
  | sync k => k
  | _ => 0

/-- `GetWriteLimitOffset`: AsyncByteStream.h 76-77 -/
def limit : Op → Nat
  | write s _ _ cap _ => s + cap
  | sync k => k
  | _ => 0

/-- `GetWriteEndOffset`: AsyncByteStream.h 86-87 -/
def end_ : Op → Nat
  | write s _ _ _ used => s + used
  | sync k => k
  | _ => 0

/-- `GetWriteFreeSpace`: AsyncByteStream.h 95-96 -/
def free : Op → Nat
  | write _ _ _ cap used => cap - used
  | _ => 0

/-- `IsWriteIntersects`: AsyncByteStream.h 89-90 -/
def intersects (a b : Op) : Bool := decide (a.start < b.limit) && decide (b.start < a.limit)

end Op

/-- What the thread does: AsyncByteStream.cpp 339-433; `busy` while the mutex is released during a call of the stream -/
inductive Th
  | idle
  | busy (op : Op)
  | ended

/-- AsyncByteStream.h 147-173, and the underlying stream; `buffers` is `_buffers` from back to front -/
structure State (α : Type) where
  mem : Nat → Nat → α
  buffers : List (Nat × Ring Unit)
  nextGen : Nat
  queue : List Op
  position : Nat
  length : Nat
  prealloc : Nat
  syncNext : Nat
  syncDone : Nat
  failed : Bool
  destroyed : Bool
  thread : Th
  disk : File α

/-- A buffer of some size: `BithreadCircularBuffer` as made in AsyncByteStream.cpp 332 -/
def newRing (size : Nat) : Ring Unit := Ring.create (List.replicate size ())

/-- The constructor: AsyncByteStream.cpp 129-147 -/
def init (mem : Nat → Nat → α) (disk : File α) (position size prealloc : Nat) : State α where
  mem := mem
  buffers := [(0, newRing size)]
  nextGen := 1
  queue := []
  position := position
  length := disk.len
  prealloc := prealloc
  syncNext := 1
  syncDone := 0
  failed := false
  destroyed := false
  thread := .idle
  disk := disk

/-- The search from the end of the queue: AsyncByteStream.cpp 180-197.  Splits the queue into what is before the
operation, the operation, and what is after it -/
def findTarget (position : Nat) : List Op → Option (List Op × Op × List Op)
  | [] => none
  | op :: q =>
    match findTarget position q with
    | some (pre, o, post) => some (op :: pre, o, post)
    | none => if op.end_ = position then some ([], op, q) else none

/-- The operation to append to, if any: AsyncByteStream.cpp 180-213 -/
def target (position : Nat) (q : List Op) : Option (List Op × Op × List Op) :=
  match findTarget position q with
  | none => none
  | some (pre, o, post) => if 0 < o.free then (if post.any (o.intersects ·) then none else some (pre, o, post)) else none

/-- `PushWriteData`, the operation itself: AsyncByteStream.cpp 98-104 -/
def Op.pushed (n : Nat) : Op → Op
  | .write s g o c u => .write s g o c (u + n)
  | op => op

/-- `PushWriteData`, the `memcpy`: AsyncByteStream.cpp 98-104 -/
def Op.copyTo (mem : Nat → Nat → α) (d : List α) : Op → Nat → Nat → α
  | .write _ g o _ u => fun g' => if g' = g then put (mem g) (o + u) d else mem g'
  | _ => mem

/-- Does the operation point into a destroyed buffer: `_buffer` of AsyncByteStream.h 71 does not own its memory -/
def Op.dangling (buffers : List (Nat × Ring Unit)) : Op → Bool
  | .write _ g _ _ _ => buffers.all fun b => b.1 ≠ g
  | _ => false

/-- Outcomes of a step other than a new state: AsyncByteStream.cpp 163-433 -/
inductive Bad
  /-- the step is not possible now -/
  | disabled
  /-- memory of a destroyed buffer is used -/
  | gone
deriving DecidableEq

/-- The second half of `Write`, for the operation found or made: AsyncByteStream.cpp 230-247 -/
def append (s : State α) (pre : List Op) (o : Op) (post : List Op) (d : List α) : Except Bad (State α × Res) :=
  if o.dangling s.buffers then .error .gone else
  .ok ({ s with
    mem := o.copyTo s.mem (d.take (min o.free d.length))
    queue := pre ++ o.pushed (min o.free d.length) :: post
    position := s.position + min o.free d.length
    length := max (s.position + min o.free d.length) s.length }, .count (min o.free d.length))

/-- `Write`: AsyncByteStream.cpp 163-248 -/
def write (s : State α) (d : List α) : Except Bad (State α × Res) :=
  if s.failed then .ok (s, .threw) else
  if d = [] then .ok (s, .count 0) else
  match s.buffers.getLast? with
  | none => .ok (s, .threw)
  | some (g, r) =>
    if r.freeSize = 0 then .ok (s, .count 0) else
    match target s.position s.queue with
    | some (pre, o, post) => append s pre o post d
    | none =>
      match r.push (min r.writeSize (max s.prealloc d.length)) with
      | none => .ok (s, .threw)
      | some r' =>
        append { s with buffers := s.buffers.dropLast ++ [(g, r')] } s.queue
          (.write s.position g r.writeOffset (min r.writeSize (max s.prealloc d.length)) 0) [] d

/-- `newPosition`: AsyncByteStream.cpp 256-274 -/
def newPosition (s : State α) (offset : Int) : Mode → Int
  | .begin => offset
  | .current => s.position + offset
  | .end_ => s.length + offset

/-- `Seek`: AsyncByteStream.cpp 251-282 -/
def seek (s : State α) (offset : Int) (mode : Mode) : State α × Res :=
  if s.failed then (s, .threw) else
  if newPosition s offset mode = s.position then (s, .unit)
  else if 0 ≤ newPosition s offset mode then ({ s with position := (newPosition s offset mode).toNat }, .unit)
  else (s, .threw)

/-- The calls of users; `Sync` is split into scheduling and waiting: AsyncByteStream.cpp 150-336 -/
def call (s : State α) : Call α → Except Bad (State α × Res)
  | .write d => if s.destroyed then .error .disabled else write s d
  | .seek offset mode => if s.destroyed then .error .disabled else .ok (seek s offset mode)
  | .tell => if s.destroyed then .error .disabled else if s.failed then .ok (s, .threw) else .ok (s, .count s.position)
  | .sync =>
    if s.destroyed then .error .disabled else
    if s.failed then .ok (s, .threw) else
    .ok ({ s with syncNext := s.syncNext + 1, queue := s.queue ++ [.sync s.syncNext] }, .count s.syncNext)
  | .waitSync k =>
    if s.destroyed then .error .disabled else
    if s.failed then .ok (s, .threw) else
    if k ≤ s.syncDone then .ok (s, .unit) else .error .disabled
  | .reconfigure size prealloc =>
    if s.destroyed then .error .disabled else
    if s.failed then .ok (s, .threw) else
    .ok ({ s with
      queue := if s.buffers = [] then s.queue else s.queue ++ [.popBuffer]
      buffers := s.buffers ++ [(s.nextGen, newRing size)]
      nextGen := s.nextGen + 1
      prealloc := prealloc }, .unit)
  | .destroy =>
    if s.destroyed then .error .disabled else .ok ({ s with destroyed := true, queue := s.queue ++ [.stop] }, .unit)

/-- What the thread and the underlying stream do: AsyncByteStream.cpp 339-433 -/
inductive Tick
  /-- take the next operation -/
  | take
  /-- the stream has written that many bytes -/
  | wrote (n : Nat)
  /-- the stream is synchronized -/
  | synced
  /-- the stream has written that many bytes and thrown -/
  | threw (n : Nat)

/-- The exception handler: AsyncByteStream.cpp 428-432 -/
def caught (s : State α) : State α := { s with failed := true, thread := .ended }

/-- `GetWriteData`, the bytes the underlying stream is given: AsyncByteStream.h 92-93 -/
def Op.bytes (mem : Nat → Nat → α) : Op → List α
  | .write _ g o _ u => (List.range u).map fun i => mem g (o + i)
  | _ => []

/-- Carrying out an operation that is taken from the queue: AsyncByteStream.cpp 357-419 -/
def takeOp (s : State α) (op : Op) : State α :=
  match op with
  | .write _ g o _ _ =>
    match s.buffers.head? with
    | none => caught s
    | some (g', r) => if (g, o) = (g', r.readOffset) then { s with thread := .busy op } else caught s
  | .stop => { s with thread := .ended }
  | .sync _ => { s with thread := .busy op }
  | .popBuffer => { s with buffers := s.buffers.tail }

/-- The thread's buffer after `reader.Pop`: AsyncByteStream.cpp 380, 383 -/
def popRing (s : State α) (n : Nat) : Option (List (Nat × Ring Unit)) :=
  match s.buffers with
  | [] => none
  | (g, r) :: bs => (r.pop n).map fun r => (g, r) :: bs

/-- `PopWriteData`: AsyncByteStream.cpp 90-95 -/
def Op.popped (n : Nat) : Op → Op
  | .write s g o c u => .write (s + n) g (o + n) (c - n) (u - n)
  | op => op

/-- After the write of the underlying stream: AsyncByteStream.cpp 375-386 -/
def wroteOp (s : State α) (op : Op) (n : Nat) : State α :=
  if n = (op.bytes s.mem).length then
    match popRing s (n + op.free) with
    | none => caught s
    | some bs => { s with buffers := bs, thread := .idle }
  else
    match popRing s n with
    | none => caught s
    | some bs => { s with buffers := bs, thread := .idle, queue := op.popped n :: s.queue }

/-- A step of the thread: AsyncByteStream.cpp 345-432 -/
def tick (s : State α) : Tick → Except Bad (State α)
  | .take =>
    match s.thread, s.queue with
    | .idle, op :: q => .ok (takeOp { s with queue := q } op)
    | _, _ => .error .disabled
  | .wrote n =>
    match s.thread with
    | .busy (.write st g o c u) =>
      if n ≤ u then
        if (Op.write st g o c u).dangling s.buffers then .error .gone else
        .ok (wroteOp { s with disk := s.disk.write st (((Op.write st g o c u).bytes s.mem).take n) } (.write st g o c u) n)
      else .error .disabled
    | _ => .error .disabled
  | .synced =>
    match s.thread with
    | .busy (.sync k) => .ok { s with syncDone := k, thread := .idle }
    | _ => .error .disabled
  | .threw n =>
    match s.thread with
    | .busy (.write st g o c u) =>
      if n ≤ u then
        if (Op.write st g o c u).dangling s.buffers then .error .gone else
        .ok (caught { s with disk := s.disk.write st (((Op.write st g o c u).bytes s.mem).take n) })
      else .error .disabled
    | .busy (.sync _) => .ok (caught s)
    | _ => .error .disabled

/-- A step of a user or of the thread: AsyncByteStream.cpp 150-433 -/
inductive Act (α : Type)
  | call (c : Call α)
  | tick (t : Tick)

/-- One step of AsyncByteStream.cpp 150-433, beside it the ordinary file that the same calls with the same results give -/
def step (s : State α) (r : Ref α) : Act α → Except Bad (State α × Ref α)
  | .call c => match call s c with | .error e => .error e | .ok (s, res) => .ok (s, r.after c res)
  | .tick t => match tick s t with | .error e => .error e | .ok s => .ok (s, r)

/-- Steps one after another, AsyncByteStream.cpp 150-433 -/
def run (s : State α) (r : Ref α) : List (Act α) → Except Bad (State α × Ref α)
  | [] => .ok (s, r)
  | a :: as => match step s r a with
    | .error e => .error e
    | .ok w => run w.1 w.2 as

end Verif.Async
