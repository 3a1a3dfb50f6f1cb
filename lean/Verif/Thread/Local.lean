/-
Model of thread/posix/ThreadLocal.h: the structure that `STINGRAYKIT_DECLARE_THREAD_LOCAL` declares (26-78), with the keys of pthread and the singleton that holds the key.
A thread ends in two parts: its destructors run, one after another, and some of them may call `Get` (26-78 are code of any other destructor too); then it is gone.
-/
namespace Verif.Thread.Local

/-- What a thread is doing: it runs; its destructors run; it is gone.  For ThreadLocal.h 60-77. -/
inductive Phase where
  | running
  | ending
  | gone
deriving DecidableEq, Repr

/-- A thread: its `s_value` (58), and what is set for the keys (68): the key and the `ValueHolder`.  For ThreadLocal.h 58, 68. -/
structure Thread where
  phase : Phase
  value : Option Nat
  specific : Option (Nat × Nat)
deriving DecidableEq, Repr

/-- A `ValueHolder`: the thread that made it, its key, and whether it is alive.  For ThreadLocal.h 51-57. -/
structure Holder where
  owner : Nat
  key : Nat
  alive : Bool
deriving DecidableEq, Repr

/-- The state: the key that the singleton holds (the key exists from its construction), or that the singleton is dead; the keys: whether each exists.  For
ThreadLocal.h 30-64. -/
structure State where
  threads : List Thread
  holders : List Holder
  keys : List Bool
  /-- `none`: not constructed; `some none`: destroyed -/
  single : Option (Option Nat)
  /-- the calls of `Get`: the thread and the value it got -/
  gets : List (Nat × Nat)
deriving DecidableEq, Repr

/-- A step, ThreadLocal.h 37-77. -/
inductive Act where
  | start
  /-- `Get` in thread `t` -/
  | get (t : Nat)
  /-- thread `t` ends: its destructors are to run -/
  | exit (t : Nat)
  /-- `Dtor` for the value of thread `t` -/
  | dtor (t : Nat)
  /-- no destructor is left to run -/
  | finish (t : Nat)
  /-- the singleton is destroyed, at the end of the program -/
  | kill
deriving DecidableEq, Repr

/-- What a step gives: it cannot be made; a new state; the use of a value that was destroyed, or of a key that was deleted.  For ThreadLocal.h 60-77. -/
inductive Res where
  | no
  | ok (s : State)
  | ub
deriving DecidableEq, Repr

/-- Whether the pointers to key `k` are gone: the singleton's and those of holders.  For ThreadLocal.h 50-57, 64-66. -/
def unreferenced (single : Option (Option Nat)) (holders : List Holder) (k : Nat) : Bool :=
  (single != some (some k)) && holders.all fun h => !(h.alive && h.key == k)

/-- The keys after some pointers have gone: `pthread_key_delete` of those without any, ThreadLocal.h 41-46. -/
def collect (single : Option (Option Nat)) (holders : List Holder) (keys : List Bool) : List Bool :=
  keys.mapIdx fun k exists_ => exists_ && !unreferenced single holders k

/-- `SafeSingleton<KeyHolder>::Instance()`, or a key of its own if that is dead, ThreadLocal.h 64-66: the key and the new state. -/
def getKey (s : State) : Nat × State :=
  match s.single with
  | some (some k) => (k, s)
  | none => (s.keys.length, { s with keys := s.keys ++ [true], single := some (some s.keys.length) })
  | some none => (s.keys.length, { s with keys := s.keys ++ [true] })

/-- `Get` of a thread that has no value yet, ThreadLocal.h 64-71: a holder is made and set for the key. -/
def make (s : State) (t : Nat) (th : Thread) (k : Nat) : State :=
  { s with
    threads := s.threads.set t ⟨th.phase, some s.holders.length, some (k, s.holders.length)⟩
    holders := s.holders ++ [⟨t, k, true⟩]
    gets := s.gets ++ [(t, s.holders.length)] }

/-- `Get`, ThreadLocal.h 60-74. -/
def get (s : State) (t : Nat) (th : Thread) : Res :=
  match th.value with
  | some v =>
    (match s.holders[v]? with
    | some ⟨_, _, true⟩ => .ok { s with gets := s.gets ++ [(t, v)] }
    | _ => .ub)
  | none => .ok (make (getKey s).2 t th (getKey s).1)

/-- `Dtor`, ThreadLocal.h 76-77: pthread has set the value for the key to null before. -/
def dtor (s : State) (t : Nat) (th : Thread) (k v : Nat) : Res :=
  match s.keys[k]?, s.holders[v]? with
  | some true, some ⟨o, k', true⟩ =>
    .ok { s with
      threads := s.threads.set t ⟨th.phase, th.value, none⟩
      holders := s.holders.set v ⟨o, k', false⟩
      keys := collect s.single (s.holders.set v ⟨o, k', false⟩) s.keys }
  | _, _ => .ub

/-- A step, ThreadLocal.h 37-77. -/
def step (s : State) : Act → Res
  | .start => .ok { s with threads := s.threads ++ [⟨.running, none, none⟩] }
  | .get t =>
    match s.threads[t]? with
    | none => .no
    | some th => if th.phase = .gone then .no else get s t th
  | .exit t =>
    match s.threads[t]? with
    | none => .no
    | some th => if th.phase = .running then .ok { s with threads := s.threads.set t ⟨.ending, th.value, th.specific⟩ } else .no
  | .dtor t =>
    match s.threads[t]? with
    | none => .no
    | some th =>
      if th.phase = .ending then
        match th.specific with
        | none => .no
        | some (k, v) => dtor s t th k v
      else .no
  | .finish t =>
    match s.threads[t]? with
    | none => .no
    | some th => if th.phase = .ending ∧ th.specific = none then .ok { s with threads := s.threads.set t ⟨.gone, none, none⟩ } else .no
  | .kill =>
    match s.single with
    | some (some _) => .ok { s with single := some none, keys := collect (some none) s.holders s.keys }
    | _ => .ok { s with single := some none }

/-- A history, ThreadLocal.h 26-78. -/
def run (s : State) : List Act → Res
  | [] => .ok s
  | a :: as =>
    match step s a with
    | .ok s' => run s' as
    | r => r

/-- Before the first use, ThreadLocal.h 80. -/
def init : State := ⟨[], [], [], none, []⟩

end Verif.Thread.Local
