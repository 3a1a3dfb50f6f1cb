/-
Model of the ranges of collection/Range.h and collection/RangeBase.h.

A range class is its functions on the values of the class (`Rng`).  `none` means that the call throws (the `STINGRAYKIT_CHECK`s), is
undefined, or does not end: loops have a number of rounds `fuel` after which they are `none`, and the theorems say how much is enough.
`Get` is `const` but may fill a cache, so it returns the new value of the range, too.
Simplifications: functors are pure functions; the tuple of `Zip` has two components, the ranges of `Concat` have one type.
-/
namespace Verif.Range

/-- What every range has, Range.h 26-58. -/
structure Rng (σ α : Type) where
  valid : σ → Bool
  get : σ → Option (α × σ)
  equals : σ → σ → Bool
  first : σ → Option σ
  next : σ → Option σ
  last : σ → Option σ
  prev : σ → Option σ

variable {σ τ α β γ : Type}

/-- `IteratorRange`, Range.h 104-106; iterators are positions in the container. -/
structure Iter where
  b : Nat
  it : Nat
  e : Nat
deriving DecidableEq, Repr

/-- `IteratorRange` over the container `mem`, Range.h 97-130. -/
def iterRange (mem : List α) : Rng Iter α where
  valid s := s.it != s.e
  get s := if s.it ≠ s.e then mem[s.it]?.map (·, s) else none
  equals s t := decide (s = t)
  first s := some { s with it := s.b }
  next s := if s.it ≠ s.e then some { s with it := s.it + 1 } else none
  last s := if s.e ≠ s.b then some { s with it := s.e - 1 } else some { s with it := s.e }
  prev s := if s.it ≠ s.b then some { s with it := s.it - 1 } else none

/-- `RangeSingle`, Range.h 1149-1202. -/
def single [DecidableEq α] : Rng (α × Bool) α where
  valid s := s.2
  get s := if s.2 then some (s.1, s) else none
  equals s t := s.2 == t.2 && decide (s.1 = t.1)
  first s := some (s.1, true)
  next s := if s.2 then some (s.1, false) else none
  last s := some (s.1, true)
  prev s := if !s.2 then some (s.1, true) else none

/-- `FindNext` of `RangeFilter`, Range.h 185-189. -/
def findNext (R : Rng σ α) (p : α → Bool) : Nat → σ → Option σ
  | 0, _ => none
  | n + 1, s =>
    if R.valid s then
      match R.get s with
      | none => none
      | some (a, s) => if p a then some s else (R.next s).bind (findNext R p n)
    else some s

/-- `FindPrev` of `RangeFilter`, Range.h 191-195. -/
def findPrev (R : Rng σ α) (p : α → Bool) : Nat → σ → Option σ
  | 0, _ => none
  | n + 1, s =>
    if R.valid s then
      match R.get s with
      | none => none
      | some (a, s) => if p a then some s else (R.prev s).bind (findPrev R p n)
    else some s

/-- The loop of `FindPrevOrInvalidate`, Range.h 201-211. -/
def findPrevOrInvalidate (R : Rng σ α) (p : α → Bool) (f : σ) : Nat → σ → Option σ
  | 0, _ => none
  | n + 1, s =>
    if R.valid s then
      match R.get s with
      | none => none
      | some (a, s) =>
        if p a then some s
        else if R.equals s f then (R.last s).bind R.next
        else (R.prev s).bind (findPrevOrInvalidate R p f n)
    else some s

/-- `RangeFilter`, Range.h 158-213. -/
def filter (fuel : Nat) (R : Rng σ α) (p : α → Bool) : Rng σ α where
  valid := R.valid
  get := R.get
  equals := R.equals
  first s := (R.first s).bind (findNext R p fuel)
  next s := (R.next s).bind (findNext R p fuel)
  last s := (R.last s).bind fun t => (R.first t).bind fun f => findPrevOrInvalidate R p f fuel t
  prev s := (R.prev s).bind (findPrev R p fuel)

/-- The constructor of `RangeFilter`, Range.h 172-174. -/
def filterNew (fuel : Nat) (R : Rng σ α) (p : α → Bool) (s : σ) : Option σ := findNext R p fuel s

/-- `FindNext` of `RangeOfType`, Range.h 279-287; the second component is `_dst`. -/
def ofTypeNext (R : Rng σ α) (c : α → Option β) : Nat → σ × Option β → Option (σ × Option β)
  | 0, _ => none
  | n + 1, s =>
    if R.valid s.1 then
      match R.get s.1 with
      | none => none
      | some (a, t) => if (c a).isSome then some (t, c a) else (R.next t).bind fun t => ofTypeNext R c n (t, c a)
    else some s

/-- `FindPrev` of `RangeOfType`, Range.h 289-297. -/
def ofTypePrev (R : Rng σ α) (c : α → Option β) : Nat → σ × Option β → Option (σ × Option β)
  | 0, _ => none
  | n + 1, s =>
    if R.valid s.1 then
      match R.get s.1 with
      | none => none
      | some (a, t) => if (c a).isSome then some (t, c a) else (R.prev t).bind fun t => ofTypePrev R c n (t, c a)
    else some s

/-- The loop of `FindPrevOrInvalidate` of `RangeOfType`, Range.h 303-315. -/
def ofTypePrevOrInvalidate (R : Rng σ α) (c : α → Option β) (f : σ) : Nat → σ × Option β → Option (σ × Option β)
  | 0, _ => none
  | n + 1, s =>
    if R.valid s.1 then
      match R.get s.1 with
      | none => none
      | some (a, t) =>
        if (c a).isSome then some (t, c a)
        else if R.equals t f then (R.last t).bind fun t => (R.next t).map fun t => (t, c a)
        else (R.prev t).bind fun t => ofTypePrevOrInvalidate R c f n (t, c a)
    else some s

/-- `RangeOfType`, Range.h 253-317. -/
def ofType (fuel : Nat) (R : Rng σ α) (c : α → Option β) : Rng (σ × Option β) β where
  valid s := R.valid s.1
  get s := s.2.map (·, s)
  equals s t := R.equals s.1 t.1
  first s := (R.first s.1).bind fun t => ofTypeNext R c fuel (t, s.2)
  next s := (R.next s.1).bind fun t => ofTypeNext R c fuel (t, s.2)
  last s := (R.last s.1).bind fun t => (R.first t).bind fun f => ofTypePrevOrInvalidate R c f fuel (t, s.2)
  prev s := (R.prev s.1).bind fun t => ofTypePrev R c fuel (t, s.2)

/-- The constructor of `RangeOfType`, Range.h 268. -/
def ofTypeNew (fuel : Nat) (R : Rng σ α) (c : α → Option β) (s : σ) : Option (σ × Option β) := ofTypeNext R c fuel (s, none)

/-- `RangeReverser`, Range.h 320-377; the second component is `_implBeforeBegin`. -/
def reverse (R : Rng σ α) : Rng (σ × Bool) α where
  valid s := !s.2 && R.valid s.1
  get s := if !s.2 then (R.get s.1).map fun r => (r.1, (r.2, s.2)) else none
  equals s t := R.equals s.1 t.1 && s.2 == t.2
  first s := (R.last s.1).map (·, false)
  next s := (R.first s.1).bind fun f => if !R.equals s.1 f then (R.prev s.1).map (·, s.2) else some (s.1, true)
  last s := (R.first s.1).map (·, false)
  prev s := if s.2 then some (s.1, false) else (R.next s.1).map (·, s.2)

/-- The constructor of `RangeReverser`, Range.h 334-336. -/
def reverseNew (R : Rng σ α) (s : σ) : Option (σ × Bool) := (R.last s).map (·, false)

/-- `RangeTransformer`, Range.h 390-428, and `RangeCaster`, Range.h 216-250; the second component is `_cache`; the functor may throw. -/
def transform (R : Rng σ α) (f : α → Option β) : Rng (σ × Option β) β where
  valid s := R.valid s.1
  get s :=
    match s.2 with
    | some v => some (v, s)
    | none => (R.get s.1).bind fun r => (f r.1).map fun v => (v, (r.2, some v))
  equals s t := R.equals s.1 t.1
  first s := (R.first s.1).map (·, none)
  next s := (R.next s.1).map (·, none)
  last s := (R.last s.1).map (·, none)
  prev s := (R.prev s.1).map (·, none)

/-- `RangeDropper`, Range.h 431-485; the components are `_initial` and `_impl`. -/
def drop (R : Rng σ α) : Rng (σ × σ) α where
  valid s := R.valid s.2
  get s := (R.get s.2).map fun r => (r.1, (s.1, r.2))
  equals s t := R.equals s.1 t.1 && R.equals s.2 t.2
  first s := some (s.1, s.1)
  next s := (R.next s.2).map fun t => (s.1, t)
  last s := if R.valid s.1 then (R.last s.2).map fun t => (s.1, t) else some (s.1, s.1)
  prev s := if !R.equals s.2 s.1 then (R.prev s.2).map fun t => (s.1, t) else none

/-- `DoDrop`, Range.h 501-507. -/
def doDrop (R : Rng σ α) : Nat → σ → Option σ
  | 0, s => some s
  | n + 1, s => if R.valid s then (R.next s).bind (doDrop R n) else some s

/-- The constructor of `RangeDropper`, Range.h 445-447. -/
def dropNew (R : Rng σ α) (s : σ) (count : Nat) : Option (σ × σ) := (doDrop R count s).map fun t => (t, t)

/-- `RangeTaker`, Range.h 521-524. -/
structure TakeSt (σ : Type) where
  initial : σ
  impl : σ
  index : Nat
  count : Nat

/-- `Valid` of `RangeTaker`, Range.h 531-532. -/
def takeValid (R : Rng σ α) (s : TakeSt σ) : Bool := R.valid s.impl && decide (s.index < s.count)

/-- `Next` of `RangeTaker`, Range.h 567-573. -/
def takeNext (R : Rng σ α) (s : TakeSt σ) : Option (TakeSt σ) :=
  if takeValid R s then (R.next s.impl).map fun t => { s with impl := t, index := s.index + 1 } else none

/-- The loop of `Last` of `RangeTaker`, Range.h 555-560; it ends because the index grows. -/
def takeLastLoop (R : Rng σ α) : Nat → TakeSt σ → TakeSt σ → Option (TakeSt σ)
  | 0, _, _ => none
  | n + 1, s, prev =>
    if takeValid R s then
      (takeNext R s).bind fun s => if takeValid R s then (takeNext R prev).bind fun prev => takeLastLoop R n s prev else takeLastLoop R n s prev
    else some prev

/-- `RangeTaker`, Range.h 511-581. -/
def take (R : Rng σ α) : Rng (TakeSt σ) α where
  valid := takeValid R
  get s := if takeValid R s then (R.get s.impl).map fun r => (r.1, { s with impl := r.2 }) else none
  equals s t := R.equals s.initial t.initial && R.equals s.impl t.impl && s.index == t.index && s.count == t.count
  first s := some { s with impl := s.initial, index := 0 }
  next := takeNext R
  last s := (takeLastLoop R (s.count + 1) { s with impl := s.initial, index := 0 } { s with impl := s.initial, index := 0 }).map
    fun prev => { s with impl := prev.impl, index := prev.index }
  prev s := if s.index > 0 then (R.prev s.impl).map fun t => { s with impl := t, index := s.index - 1 } else none

/-- The constructor of `RangeTaker`, Range.h 527-529. -/
def takeNew (s : σ) (count : Nat) : TakeSt σ := ⟨s, s, 0, count⟩

/-- `CheckValid` of `RangeCycler`, Range.h 659-660. -/
def checkValid (R : Rng σ α) (s : σ) : Option σ := if R.valid s then some s else none

/-- `RangeCycler`, Range.h 600-661. -/
def cycle (R : Rng σ α) : Rng σ α where
  valid _ := true
  get := R.get
  equals := R.equals
  first s := (R.first s).bind (checkValid R)
  next s := (R.next s).bind fun t => if R.valid t then some t else (R.first t).bind (checkValid R)
  last s := (R.last s).bind (checkValid R)
  prev s := (R.first s).bind fun f => (if R.equals s f then R.last s else R.prev s).bind (checkValid R)

/-- The constructor of `RangeCycler`, Range.h 610-612. -/
def cycleNew (R : Rng σ α) (s : σ) : Option σ := checkValid R s

/-- `AlignDown`, math.h 29-33. -/
def alignDown (v k : Nat) : Option Nat := if k ≠ 0 then some (k * (v / k)) else none

/-- `RangeSplitter` of a container of `n` elements into pieces of `k`, Range.h 664-732; the state is `_it`.  The pieces are
`IteratorRange`s; the cache of the piece is left out, it is reset whenever `_it` changes. -/
def split (n k : Nat) : Rng Nat Iter where
  valid s := s != n
  get s := if s ≠ n then some (⟨s, s, s + min k (n - s)⟩, s) else none
  equals s t := s == t
  first _ := some 0
  next s := if s ≠ n then some (s + min k (n - s)) else none
  last _ := alignDown n k
  prev s := if s ≠ 0 then alignDown (s - 1) k else none

/-- `FindNext` of `RangeFlattener`, Range.h 826-836.  The elements of the outer range are ranges (`ToRange` has been called). -/
def flatNext (R : Rng σ τ) (Q : Rng τ α) : Nat → σ → Option (σ × Option τ)
  | 0, _ => none
  | n + 1, s =>
    if R.valid s then
      match R.get s with
      | none => none
      | some (t, s) => if Q.valid t then some (s, some t) else (R.next s).bind (flatNext R Q n)
    else some (s, none)

/-- The loop of `FindPrev` of `RangeFlattener`, Range.h 843-853. -/
def flatPrevLoop (R : Rng σ τ) (Q : Rng τ α) : Nat → σ → Option (σ × Option τ)
  | 0, _ => none
  | n + 1, s =>
    match R.get s with
    | none => none
    | some (t, s) =>
      (Q.last t).bind fun t =>
        if Q.valid t then some (s, some t)
        else (R.first s).bind fun f => if R.equals s f then some (s, none) else (R.prev s).bind (flatPrevLoop R Q n)

/-- `FindPrev` of `RangeFlattener`, Range.h 838-854. -/
def flatPrev (R : Rng σ τ) (Q : Rng τ α) (fuel : Nat) (s : σ) : Option (σ × Option τ) :=
  if R.valid s then flatPrevLoop R Q fuel s else some (s, none)

/-- `==` of two optional ranges, optional.h 448-450. -/
def optEquals (Q : Rng τ α) : Option τ → Option τ → Bool
  | some t, some u => Q.equals t u
  | none, none => true
  | _, _ => false

/-- `RangeFlattener`, Range.h 749-823; the second component is `_currentSubRange`. -/
def flatten (fuel : Nat) (R : Rng σ τ) (Q : Rng τ α) : Rng (σ × Option τ) α where
  valid s := s.2.isSome
  get s := s.2.bind fun t => (Q.get t).map fun r => (r.1, (s.1, some r.2))
  equals s t := R.equals s.1 t.1 && optEquals Q s.2 t.2
  first s := (R.first s.1).bind (flatNext R Q fuel)
  next s := s.2.bind fun t => (Q.next t).bind fun t => if !Q.valid t then (R.next s.1).bind (flatNext R Q fuel) else some (s.1, some t)
  last s := (R.last s.1).bind (flatPrev R Q fuel)
  prev s := s.2.bind fun t => (Q.first t).bind fun f =>
    if !Q.equals t f then (Q.prev t).map fun t => (s.1, some t)
    else (R.first s.1).bind fun g => if !R.equals s.1 g then (R.prev s.1).bind (flatPrev R Q fuel) else some (s.1, none)

/-- The constructor of `RangeFlattener`, Range.h 762-764. -/
def flattenNew (fuel : Nat) (R : Rng σ τ) (Q : Rng τ α) (s : σ) : Option (σ × Option τ) := flatNext R Q fuel s

/-- `RangeZipper` of two ranges, Range.h 917-919. -/
structure ZipSt (σ τ γ : Type) where
  l : σ
  r : τ
  value : Option γ

/-- `Valid` of `RangeZipper`, Range.h 924-925. -/
def zipValid (R : Rng σ α) (Q : Rng τ β) (s : ZipSt σ τ γ) : Bool := R.valid s.l && Q.valid s.r

/-- `First`, Range.h 942-947. -/
def zipFirst (R : Rng σ α) (Q : Rng τ β) (s : ZipSt σ τ γ) : Option (ZipSt σ τ γ) := (R.first s.l).bind fun l => (Q.first s.r).map fun r => ⟨l, r, none⟩

/-- `Next`, Range.h 949-954. -/
def zipNext (R : Rng σ α) (Q : Rng τ β) (s : ZipSt σ τ γ) : Option (ZipSt σ τ γ) := (R.next s.l).bind fun l => (Q.next s.r).map fun r => ⟨l, r, none⟩

/-- `Prev`, Range.h 956-961. -/
def zipPrev (R : Rng σ α) (Q : Rng τ β) (s : ZipSt σ τ γ) : Option (ZipSt σ τ γ) := (R.prev s.l).bind fun l => (Q.prev s.r).map fun r => ⟨l, r, none⟩

/-- The loop of `Last`, Range.h 967-974. -/
def zipLastLoop (R : Rng σ α) (Q : Rng τ β) : Nat → Bool → ZipSt σ τ γ → Option (ZipSt σ τ γ)
  | 0, _, _ => none
  | n + 1, empty, s =>
    if zipValid R Q s then (zipNext R Q s).bind (zipLastLoop R Q n false)
    else if !empty then zipPrev R Q s
    else some s

/-- `RangeZipper`, Range.h 858-979. -/
def zip (fuel : Nat) (R : Rng σ α) (Q : Rng τ β) (f : α → β → γ) : Rng (ZipSt σ τ γ) γ where
  valid := zipValid R Q
  get s :=
    match s.value with
    | some v => some (v, s)
    | none => (R.get s.l).bind fun x => (Q.get s.r).map fun y => (f x.1 y.1, ⟨x.2, y.2, some (f x.1 y.1)⟩)
  equals s t := R.equals s.l t.l && Q.equals s.r t.r
  first := zipFirst R Q
  next := zipNext R Q
  last s := (zipFirst R Q s).bind fun s => (zipLastLoop R Q fuel true s).map fun s => { s with value := none }
  prev := zipPrev R Q

/-- The constructor of `RangeZipper`, Range.h 922. -/
def zipNew (s : σ) (t : τ) : ZipSt σ τ γ := ⟨s, t, none⟩

/-- `RangeGetter<true>::Get`, Range.h 1041-1047 and 1057-1059: the first valid one of the ranges from number `k` on. -/
def concatForward (R : Rng σ α) : Nat → List σ → Option (Nat × σ)
  | _, [] => none
  | k, r :: rs => if R.valid r then some (k, r) else concatForward R (k + 1) rs

/-- `RangeGetter<false>::Get`, Range.h 1049-1059: the ranges before a number, from the last one to the first. -/
def concatBackward (R : Rng σ α) : List σ → Option (Option (Nat × σ))
  | [] => some none
  | r :: rs => (R.last r).bind fun t => if R.valid t then some (some (rs.length, t)) else concatBackward R rs

/-- `RangeConcater`, Range.h 1101-1102. -/
structure ConcatSt (σ : Type) where
  ranges : List σ
  current : Option (Nat × σ)

/-- `==` of two optional indexed ranges, optional.h 448-450, variant.h 350-356 and Range.h 1018. -/
def currentEquals (R : Rng σ α) : Option (Nat × σ) → Option (Nat × σ) → Bool
  | some s, some t => s.1 == t.1 && R.equals s.2 t.2
  | none, none => true
  | _, _ => false

/-- `TupleEquals`, Range.h 1119. -/
def allEqual (R : Rng σ α) : List σ → List σ → Bool
  | s :: ss, t :: ts => R.equals s t && allEqual R ss ts
  | [], [] => true
  | _, _ => false

/-- `RangeConcater`, Range.h 997-1146. -/
def concat (R : Rng σ α) : Rng (ConcatSt σ) α where
  valid s := s.current.isSome
  get s := s.current.bind fun c => (R.get c.2).map fun r => (r.1, { s with current := some (c.1, r.2) })
  equals s t := allEqual R s.ranges t.ranges && currentEquals R s.current t.current
  first s := some { s with current := concatForward R 0 s.ranges }
  next s := s.current.bind fun c => (R.next c.2).map fun t =>
    if R.valid t then { s with current := some (c.1, t) } else { s with current := concatForward R (c.1 + 1) (s.ranges.drop (c.1 + 1)) }
  last s := (concatBackward R s.ranges.reverse).map fun c => { s with current := c }
  prev s := s.current.bind fun c => (R.first c.2).bind fun f =>
    if R.equals c.2 f then (concatBackward R (s.ranges.take c.1).reverse).map fun c => { s with current := c }
    else (R.prev c.2).map fun t => { s with current := some (c.1, t) }

/-- The constructor of `RangeConcater`, Range.h 1105-1107. -/
def concatNew (R : Rng σ α) (rs : List σ) : ConcatSt σ := ⟨rs, concatForward R 0 rs⟩

/-- `begin`, RangeBase.h 81. -/
def begin (R : Rng σ α) (s : σ) : Option σ := R.first s

/-- `end`, RangeBase.h 82. -/
def rangeEnd (R : Rng σ α) (s : σ) : Option σ := (R.last s).bind fun t => if R.valid t then R.next t else some t

/-- `for (const auto& x : range)`: from `begin` to `end` (RangeBase.h 62-69, 81-82) with the elements seen. -/
def rangeFor (R : Rng σ α) (e : σ) : Nat → σ → Option (List α)
  | 0, _ => none
  | n + 1, s => if R.equals s e then some [] else (R.get s).bind fun r => (R.next r.2).bind fun t => (rangeFor R e n t).map (r.1 :: ·)

/-- The loop `for (; range.Valid(); range.Next())` of the algorithms, Range.h 1339-1543: the body gets what has been
accumulated and the element, and goes on or returns. -/
def loop (R : Rng σ α) (body : β → α → β ⊕ γ) : Nat → σ → β → Option (β ⊕ γ)
  | 0, _, _ => none
  | n + 1, s, b =>
    if R.valid s then
      match R.get s with
      | none => none
      | some (a, s) =>
        match body b a with
        | .inl b => (R.next s).bind fun s => loop R body n s b
        | .inr c => some (.inr c)
    else some (.inl b)

/-- `ForEach`, Range.h 1339-1344: the calls of the functor. -/
def forEach (R : Rng σ α) (fuel : Nat) (s : σ) : Option (List α) :=
  (loop R (γ := Empty) (fun b a => .inl (b ++ [a])) fuel s []).map fun | .inl b => b

/-- `Count`, Range.h 1347-1354. -/
def count (R : Rng σ α) (fuel : Nat) (s : σ) : Option Nat :=
  (loop R (γ := Empty) (fun b _ => .inl (b + 1)) fuel s 0).map fun | .inl b => b

/-- `Contains` and `AnyOf`, Range.h 1357-1374 and 1405-1412. -/
def anyOf (R : Rng σ α) (p : α → Bool) (fuel : Nat) (s : σ) : Option Bool :=
  (loop R (γ := Bool) (fun _ a => if p a then .inr true else .inl ()) fuel s ()).map fun | .inl _ => false | .inr b => b

/-- `AllOf`, Range.h 1415-1422. -/
def allOf (R : Rng σ α) (p : α → Bool) (fuel : Nat) (s : σ) : Option Bool :=
  (loop R (γ := Bool) (fun _ a => if !p a then .inr false else .inl ()) fuel s ()).map fun | .inl _ => true | .inr b => b

/-- `NoneOf`, Range.h 1425-1432. -/
def noneOf (R : Rng σ α) (p : α → Bool) (fuel : Nat) (s : σ) : Option Bool :=
  (loop R (γ := Bool) (fun _ a => if p a then .inr false else .inl ()) fuel s ()).map fun | .inl _ => true | .inr b => b

/-- `IndexOf`, Range.h 1377-1402; `some none` is null. -/
def indexOf (R : Rng σ α) (p : α → Bool) (fuel : Nat) (s : σ) : Option (Option Nat) :=
  (loop R (γ := Nat) (fun b a => if p a then .inr b else .inl (b + 1)) fuel s 0).map fun | .inl _ => none | .inr b => some b

/-- `ElementAt` and `ElementAtOrDefault`, Range.h 1445-1475; `some none` is the exception, null or the default. -/
def elementAt (R : Rng σ α) (i : Nat) (fuel : Nat) (s : σ) : Option (Option α) :=
  (loop R (γ := α) (fun b a => if i = b then .inr a else .inl (b + 1)) fuel s 0).map fun | .inl _ => none | .inr b => some b

/-- `Fold` with an initial value, Range.h 1536-1543, and `Sum`, Range.h 1478-1485. -/
def fold (R : Rng σ α) (f : β → α → β) (b : β) (fuel : Nat) (s : σ) : Option β :=
  (loop R (γ := Empty) (fun b a => .inl (f b a)) fuel s b).map fun | .inl b => b

/-- `Fold` without one, Range.h 1520-1533. -/
def fold1 (R : Rng σ α) (f : α → α → α) (fuel : Nat) (s : σ) : Option (Option α) :=
  fold R (fun b a => match b with | some b => some (f b a) | none => some a) none fuel s

/-- `MinElement`, Range.h 1488-1496. -/
def minElement (R : Rng σ α) (lt : α → α → Bool) (fuel : Nat) (s : σ) : Option (Option α) :=
  fold R (fun b a => match b with | some b => if lt a b then some a else some b | none => some a) none fuel s

/-- `MaxElement`, Range.h 1504-1512. -/
def maxElement (R : Rng σ α) (lt : α → α → Bool) (fuel : Nat) (s : σ) : Option (Option α) :=
  fold R (fun b a => match b with | some b => if lt b a then some a else some b | none => some a) none fuel s

/-- Random access, Range.h 61-74. -/
structure RandomAccess (σ : Type) where
  position : σ → Int
  size : σ → Int
  move : σ → Int → Option σ

/-- The check of `Move`, Range.h 140, 495, 591 and 1212: `size_t` arithmetic. -/
def moveCheck (pos size d : Int) : Bool := decide ((pos + d) % 18446744073709551616 ≤ size)

/-- `IteratorRange`, Range.h 132-143. -/
def iterAccess : RandomAccess Iter where
  position s := s.it - s.b
  size s := s.e - s.b
  move s d := if moveCheck (s.it - s.b) (s.e - s.b) d then some { s with it := ((s.it : Int) + d).toNat } else none

/-- `RangeSingle`, Range.h 1204-1215. -/
def singleAccess : RandomAccess (α × Bool) where
  position s := if s.2 then 0 else 1
  size _ := 1
  move s d := if moveCheck (if s.2 then 0 else 1) 1 d then some (s.1, decide (((if s.2 then 0 else 1) + d) % 18446744073709551616 = 0)) else none

/-- `RangeTransformer` and `RangeCaster`, Range.h 418-420 and 240-242. -/
def transformAccess (A : RandomAccess σ) : RandomAccess (σ × Option β) where
  position s := A.position s.1
  size s := A.size s.1
  move s d := (A.move s.1 d).map (·, none)

/-- `RangeDropper`, Range.h 487-498. -/
def dropAccess (A : RandomAccess σ) : RandomAccess (σ × σ) where
  position s := A.position s.2 - A.position s.1
  size s := A.size s.2 - A.position s.1
  move s d := if moveCheck (A.position s.2 - A.position s.1) (A.size s.2 - A.position s.1) d then (A.move s.2 d).map fun t => (s.1, t) else none

/-- `RangeTaker`, Range.h 583-595. -/
def takeAccess (A : RandomAccess σ) : RandomAccess (TakeSt σ) where
  position s := s.index
  size s := min (A.size s.initial - A.position s.initial) s.count
  move s d :=
    if moveCheck s.index (min (A.size s.initial - A.position s.initial) s.count) d then
      (A.move s.impl d).map fun t => { s with impl := t, index := ((s.index : Int) + d).toNat }
    else none

/-- `RangeReverser`, Range.h 379-386 (the casts to `int` are left out). -/
def reverseAccess (A : RandomAccess σ) : RandomAccess (σ × Bool) where
  position s := A.size s.1 - A.position s.1 - (if s.2 then 0 else 1)
  size s := A.size s.1
  move s d := (A.move s.1 (-d)).map (·, s.2)

end Verif.Range
