/-!
# What a stream of bytes is

Independent of the code: a file, and a user of it with a position.
-/

namespace Verif.Async

variable {α : Type}

/-- `d` put over `f` from position `at_` on -/
def put (f : Nat → α) (at_ : Nat) (d : List α) : Nat → α :=
  fun x => if at_ ≤ x then (d[x - at_]?).getD (f x) else f x

/-- A file: the byte at each position (whatever the file system shows in holes and beyond the end) and its length -/
structure File (α : Type) where
  get : Nat → α
  len : Nat

/-- Writing bytes at a position -/
def File.write (f : File α) (at_ : Nat) (d : List α) : File α := ⟨put f.get at_ d, if d = [] then f.len else max f.len (at_ + d.length)⟩

/-- Where a seek starts from -/
inductive Mode
  | begin
  | current
  | end_

/-- The calls of a user -/
inductive Call (α : Type)
  | write (d : List α)
  | seek (offset : Int) (mode : Mode)
  | tell
  | sync
  | waitSync (k : Nat)
  | reconfigure (size prealloc : Nat)
  | destroy

/-- Their results; `sync` gives the number under which the synchronization is known -/
inductive Res
  | count (n : Nat)
  | unit
  | threw
deriving DecidableEq

/-- A file open for writing: the file and the position -/
structure Ref (α : Type) where
  file : File α
  pos : Nat

/-- The position that a seek asks for -/
def Ref.target (r : Ref α) (offset : Int) : Mode → Int
  | .begin => offset
  | .current => r.pos + offset
  | .end_ => r.file.len + offset

/-- What a call with the given result does to an ordinary file: a write that returned `n` has written the first `n` bytes -/
def Ref.after (r : Ref α) : Call α → Res → Ref α
  | .write d, .count n => ⟨r.file.write r.pos (d.take n), r.pos + n⟩
  | .seek offset mode, .unit => ⟨r.file, (r.target offset mode).toNat⟩
  | _, _ => r

end Verif.Async
