/-!
# Enumerators, their adaptors and queries

`collection/EnumerableHelpers.h`, `collection/EnumerableWrapper.h`, `collection/EnumerableFromStlContainer.h`.

An enumerator is a state with the three calls of `IEnumerator`; `none` stands for a thrown exception.  The
loops that advance a source carry an iteration bound `fuel`; running out of it counts as an exception, and
the theorems exclude it for every source that ends.  Casts of values to other static types are functions here.
-/

namespace Verif.Enum

/-- `IEnumerator<T>`: `Valid`, `Get`, `Next` as used in EnumerableHelpers.h 29-35 -/
structure Machine (σ α : Type) where
  valid : σ → Bool
  get : σ → Option α
  next : σ → Option σ

/-- `IteratorsRangeEnumerator`, the state is what lies between the iterators: EnumerableFromStlContainer.h 38-68 -/
def ofList (α : Type) : Machine (List α) α where
  valid l := !l.isEmpty
  get l := l.head?
  next l := match l with | [] => none | _ :: l => some l

/-- `EmptyEnumerator`: EnumerableHelpers.h 29-35 -/
def empty (α : Type) : Machine Unit α where
  valid _ := false
  get _ := none
  next _ := none

/-- `OneItemEnumerator`, the state is the flag: EnumerableHelpers.h 53-79 -/
def one {α : Type} (x : α) : Machine Bool α where
  valid b := b
  get b := if b then some x else none
  next b := if b then some false else none

/-- `_first` and `_second` of `JoiningEnumerator`: EnumerableHelpers.h 111-113 -/
inductive Joined (σ τ : Type) where
  | both (s : σ) (t : τ)
  | last (t : τ)
  | over

/-- The constructor: EnumerableHelpers.h 116-125 -/
def joinInit {σ τ α : Type} (A : Machine σ α) (s : σ) (t : τ) : Joined σ τ :=
  if A.valid s then .both s t else .last t

/-- `JoiningEnumerator`: EnumerableHelpers.h 106-146 -/
def join {σ τ α : Type} (A : Machine σ α) (B : Machine τ α) : Machine (Joined σ τ) α where
  valid
    | .both s _ => A.valid s
    | .last t => B.valid t
    | .over => false
  get
    | .both s _ => A.get s
    | .last t => B.get t
    | .over => none
  next
    | .both s t => (A.next s).map fun s => if A.valid s then .both s t else .last t
    | .last t => (B.next t).map fun t => if B.valid t then .last t else .over
    | .over => none

/-- `EnumeratorWrapper::FindNext` when nothing is cached: EnumerableWrapper.h 71-81 -/
def findNext {σ α : Type} (A : Machine σ α) (p : α → Bool) : Nat → σ → Option (σ × Option α)
  | 0, _ => none
  | fuel + 1, s =>
    if A.valid s then
      (A.get s).bind fun x => if p x then some (s, some x) else (A.next s).bind fun s => findNext A p fuel s
    else some (s, none)

/-- `EnumeratorWrapper`, the state is the source and the cache: EnumerableWrapper.h 34-82 -/
def wrap {σ α β : Type} (A : Machine σ α) (caster : α → β) (p : α → Bool) (fuel : Nat) : Machine (σ × Option α) β where
  valid w := w.2.isSome
  get w := w.2.map caster
  next w := match w.2 with
    | none => none
    | some _ => (A.next w.1).bind fun s => findNext A p fuel s

/-- `Where`: EnumerableHelpers.h 901-906 -/
def where_ {σ α : Type} (A : Machine σ α) (p : α → Bool) (fuel : Nat) : Machine (σ × Option α) α := wrap A id p fuel

/-- `EnumeratorTransformer`: EnumerableHelpers.h 848-867 -/
def transform {σ α β : Type} (A : Machine σ α) (f : α → β) : Machine σ β where
  valid := A.valid
  get s := (A.get s).map f
  next := A.next

/-- `EnumeratorCaster`, the cache left out since it holds what the cast of the same item gives; the cast throws for an
item of another class: EnumerableHelpers.h 696-729 -/
def cast {σ α β : Type} (A : Machine σ α) (c : α → Option β) : Machine σ β where
  valid := A.valid
  get s := if A.valid s then (A.get s).bind c else none
  next := A.next

/-- `EnumeratorOfType::FindNext`: EnumerableHelpers.h 774-782 -/
def findType {σ α β : Type} (A : Machine σ α) (c : α → Option β) : Nat → σ → Option β → Option (σ × Option β)
  | 0, _, _ => none
  | fuel + 1, s, dst =>
    if A.valid s then
      (A.get s).bind fun x => match c x with
        | some y => some (s, some y)
        | none => (A.next s).bind fun s => findType A c fuel s none
    else some (s, dst)

/-- `EnumeratorOfType`: EnumerableHelpers.h 745-783 -/
def ofType {σ α β : Type} (A : Machine σ α) (c : α → Option β) (fuel : Nat) : Machine (σ × Option β) β where
  valid w := A.valid w.1
  get w := if A.valid w.1 then w.2 else none
  next w := (A.next w.1).bind fun s => findType A c fuel s w.2

/-- `SkipEnumerator`: EnumerableHelpers.h 918-927 -/
def skip {σ α : Type} (A : Machine σ α) : Nat → σ → Option σ
  | 0, s => some s
  | n + 1, s => if A.valid s then (A.next s).bind fun s => skip A n s else some s

/-- `EnumeratorTaker`, the state is the source and `_index`: EnumerableHelpers.h 943-975 -/
def take {σ α : Type} (A : Machine σ α) (count : Nat) : Machine (σ × Nat) α where
  valid w := A.valid w.1 && decide (w.2 < count)
  get w := if A.valid w.1 && decide (w.2 < count) then A.get w.1 else none
  next w := if A.valid w.1 && decide (w.2 < count) then (A.next w.1).map fun s => (s, w.2 + 1) else none

/-- `EnumeratorFlattener::FindNext` when there is no current enumerator: EnumerableHelpers.h 1031-1042 -/
def findInner {σ τ α β : Type} (A : Machine σ α) (B : Machine τ β) (inner : α → τ) : Nat → σ → Option (σ × Option τ)
  | 0, _ => none
  | fuel + 1, s =>
    if A.valid s then
      (A.get s).bind fun x =>
        if B.valid (inner x) then some (s, some (inner x)) else (A.next s).bind fun s => findInner A B inner fuel s
    else some (s, none)

/-- `EnumeratorFlattener`: EnumerableHelpers.h 991-1043 -/
def flatten {σ τ α β : Type} (A : Machine σ α) (B : Machine τ β) (inner : α → τ) (fuel : Nat) :
    Machine (σ × Option τ) β where
  valid w := match w.2 with | none => false | some t => B.valid t
  get w := w.2.bind B.get
  next w := match w.2 with
    | none => none
    | some t => (B.next t).bind fun t =>
      if B.valid t then some (w.1, some t) else (A.next w.1).bind fun s => findInner A B inner fuel s

/-- `DiffEntry` with `CollectionOp::Added` or `Removed`: EnumerableHelpers.h 1093-1094 -/
inductive Entry (α : Type) where
  | added (x : α)
  | removed (x : α)
deriving DecidableEq

/-- `EntryType`: EnumerableHelpers.h 1066-1070 -/
inductive Kind where
  | none
  | added
  | removed

/-- `EnumeratorDiff::FindNext` from `None`: EnumerableHelpers.h 1117-1147 -/
def findDiff {σ τ α : Type} (A : Machine σ α) (B : Machine τ α) (cmp : α → α → Int) :
    Nat → σ → τ → Option (σ × τ × Kind)
  | 0, _, _ => none
  | fuel + 1, s, t =>
    if A.valid s then
      if B.valid t then
        (A.get s).bind fun x => (B.get t).bind fun y =>
          if cmp x y < 0 then some (s, t, .removed)
          else if 0 < cmp x y then some (s, t, .added)
          else (A.next s).bind fun s => (B.next t).bind fun t => findDiff A B cmp fuel s t
      else some (s, t, .removed)
    else if B.valid t then some (s, t, .added)
    else some (s, t, .none)

/-- `EnumeratorDiff`: EnumerableHelpers.h 1059-1148 -/
def diff {σ τ α : Type} (A : Machine σ α) (B : Machine τ α) (cmp : α → α → Int) (fuel : Nat) :
    Machine (σ × τ × Kind) (Entry α) where
  valid w := match w.2.2 with | .none => false | _ => true
  get w := match w.2.2 with
    | .added => (B.get w.2.1).map .added
    | .removed => (A.get w.1).map .removed
    | .none => none
  next w := match w.2.2 with
    | .added => (B.next w.2.1).bind fun t => findDiff A B cmp fuel w.1 t
    | .removed => (A.next w.1).bind fun s => findDiff A B cmp fuel s w.2.1
    | .none => none

/-- `for (; enumerator.Valid(); enumerator.Next()) body`, the body may leave the loop with a result: the loops of
EnumerableHelpers.h 419-553, 605-610, 629-690, 800-801 -/
def loop {σ α β ρ : Type} (A : Machine σ α) (body : β → α → ρ ⊕ β) : Nat → σ → β → Option (ρ ⊕ β)
  | 0, _, _ => none
  | fuel + 1, s, b =>
    if A.valid s then
      (A.get s).bind fun x => match body b x with
        | .inl r => some (.inl r)
        | .inr b => (A.next s).bind fun s => loop A body fuel s b
    else some (.inr b)

/-- `Aggregate` with an initial value: EnumerableHelpers.h 433-439 -/
def aggregate {σ α β : Type} (A : Machine σ α) (fuel : Nat) (s : σ) (init : β) (f : β → α → β) : Option β :=
  (loop A (fun b x => (.inr (f b x) : Empty ⊕ β)) fuel s init).bind fun | .inr b => some b

/-- `Aggregate` without one, for items that are not nullable: EnumerableHelpers.h 419-430 -/
def aggregate1 {σ α : Type} (A : Machine σ α) (fuel : Nat) (s : σ) (f : α → α → α) : Option (Option α) :=
  aggregate A fuel s none fun b x => match b with | some y => some (f y x) | none => some x

/-- `All`: EnumerableHelpers.h 442-448 -/
def all {σ α : Type} (A : Machine σ α) (fuel : Nat) (s : σ) (p : α → Bool) : Option Bool :=
  (loop A (fun (b : Unit) x => if p x then .inr b else .inl ()) fuel s ()).map fun | .inl _ => false | .inr _ => true

/-- `Any` and `Contains` with a predicate: EnumerableHelpers.h 454-460, 473-483 -/
def any {σ α : Type} (A : Machine σ α) (fuel : Nat) (s : σ) (p : α → Bool) : Option Bool :=
  (loop A (fun (b : Unit) x => if p x then .inl () else .inr b) fuel s ()).map fun | .inl _ => true | .inr _ => false

/-- `Count` with a predicate: EnumerableHelpers.h 494-501; without one, 486-492, the predicate is always true -/
def count {σ α : Type} (A : Machine σ α) (fuel : Nat) (s : σ) (p : α → Bool) : Option Nat :=
  aggregate A fuel s 0 fun n x => if p x then n + 1 else n

/-- `IndexOf`: EnumerableHelpers.h 511-524 -/
def indexOf {σ α : Type} (A : Machine σ α) (fuel : Nat) (s : σ) (p : α → Bool) : Option (Option Nat) :=
  (loop A (fun n x => if p x then .inl n else .inr (n + 1)) fuel s 0).map fun | .inl n => some n | .inr _ => none

/-- `ElementAtOrDefault`; `ElementAt` throws where this is null: EnumerableHelpers.h 527-544 -/
def elementAt {σ α : Type} (A : Machine σ α) (fuel : Nat) (s : σ) (i : Nat) : Option (Option α) :=
  (loop A (fun n x => if i = n then .inl x else .inr (n + 1)) fuel s 0).map fun | .inl x => some x | .inr _ => none

/-- `FirstOrDefault` with a predicate; `First` throws where this is null: EnumerableHelpers.h 584-590, 603-612 -/
def firstOf {σ α : Type} (A : Machine σ α) (fuel : Nat) (s : σ) (p : α → Bool) : Option (Option α) :=
  (loop A (fun (b : Unit) x => if p x then .inl x else .inr b) fuel s ()).map fun | .inl x => some x | .inr _ => none

/-- `LastOrDefault` with a predicate; `Last` throws where this is null: EnumerableHelpers.h 626-679 -/
def lastOf {σ α : Type} (A : Machine σ α) (fuel : Nat) (s : σ) (p : α → Bool) : Option (Option α) :=
  aggregate A fuel s none fun b x => if p x then some x else b

/-- `Single`: EnumerableHelpers.h 836-843 -/
def single {σ α : Type} (A : Machine σ α) (s : σ) : Option α :=
  if A.valid s then
    (A.get s).bind fun x => (A.next s).bind fun s => if A.valid s then none else some x
  else none

/-- The vector filled by `Clone` and `Reverse`: EnumerableHelpers.h 797-803, 811-825 -/
def drain {σ α : Type} (A : Machine σ α) (fuel : Nat) (s : σ) : Option (List α) :=
  aggregate A fuel s [] fun l x => l ++ [x]

/-- `SequenceEqual`: EnumerableHelpers.h 1162-1172 -/
def sequenceEqual {σ τ α β : Type} (A : Machine σ α) (B : Machine τ β) (eq : α → β → Bool) : Nat → σ → τ → Option Bool
  | 0, _, _ => none
  | fuel + 1, s, t =>
    if A.valid s && B.valid t then
      (A.get s).bind fun x => (B.get t).bind fun y =>
        if eq x y then (A.next s).bind fun s => (B.next t).bind fun t => sequenceEqual A B eq fuel s t
        else some false
    else some (!A.valid s && !B.valid t)

/-- `EnumerableToRange`: `_enumerator` and `_index`, EnumerableHelpers.h 1240-1242 -/
structure Rng (σ : Type) where
  s : σ
  index : Nat

/-- `First`: EnumerableHelpers.h 1263-1268; `init` is what `GetEnumerator` gives -/
def rFirst {σ : Type} (init : σ) : Rng σ := ⟨init, 0⟩

/-- `Next`: EnumerableHelpers.h 1270-1275 -/
def rNext {σ α : Type} (A : Machine σ α) (r : Rng σ) : Option (Rng σ) := (A.next r.s).map fun s => ⟨s, r.index + 1⟩

/-- The copy constructor: EnumerableHelpers.h 1248-1253 -/
def rCopyLoop {σ α : Type} (A : Machine σ α) (target : Nat) : Nat → Rng σ → Option (Rng σ)
  | 0, _ => none
  | fuel + 1, r => if r.index ≠ target then (rNext A r).bind fun r => rCopyLoop A target fuel r else some r

/-- The copy constructor: EnumerableHelpers.h 1248-1253 -/
def rCopy {σ α : Type} (A : Machine σ α) (init : σ) (fuel : Nat) (r : Rng σ) : Option (Rng σ) :=
  rCopyLoop A r.index fuel (rFirst init)

/-- The loop of `Last`: EnumerableHelpers.h 1282-1287 -/
def rLastLoop {σ α : Type} (A : Machine σ α) : Nat → Rng σ → Rng σ → Option (Rng σ)
  | 0, _, _ => none
  | fuel + 1, r, prev =>
    if A.valid r.s then
      (rNext A r).bind fun r =>
        if A.valid r.s then (rNext A prev).bind fun prev => rLastLoop A fuel r prev else rLastLoop A fuel r prev
    else some prev

/-- `Last`: EnumerableHelpers.h 1277-1292; the copy `prev` of the first position gets its own enumerator -/
def rLast {σ α : Type} (A : Machine σ α) (init : σ) (fuel : Nat) : Option (Rng σ) :=
  (rCopy A init 1 (rFirst init)).bind fun prev => rLastLoop A fuel (rFirst init) prev

/-- `Equals` for ranges of the same enumerable: EnumerableHelpers.h 1260-1261 -/
def rEquals {σ : Type} (a b : Rng σ) : Bool := a.index == b.index

end Verif.Enum
