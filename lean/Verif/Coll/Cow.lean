/-
Copy-on-write storage of the collection classes: GenericList, GenericSet, GenericDictionary, SortedMultiSet and
MultiMapDictionary (stingraykit/collection).

All five classes keep their elements in a heap allocated standard container (`_items`/`_map`, a shared_ptr) and a weak_ptr to
a `Holder`, an object which owns the container as well and is owned by every enumerator given out.  A mutating method copies the
container when that weak_ptr has not expired.  The model is a world of containers, holders, collections and enumerators.

Simplifications:
* a standard container is the list of its elements in iteration order, and an iterator is a position in it (for the node based
  containers this is exact as long as the container is not changed, which is what is proved);
* shared_ptr counts are computed from the live owners (C85 is about the counts themselves): a weak_ptr to a holder has expired
  when no live enumerator or reverse enumerable owns the holder;
* calls are made one at a time: the classes do no locking of their own.
-/
namespace Verif.Coll

/-- A collection object: the container it owns and the weak pointer to the holder of its enumerators (`none` after `reset`).
    GenericList.h 56-57, GenericSet.h 56-57, GenericDictionary.h 60-61, SortedMultiSet.h 56-60, MultiMapDictionary.h 62-68. -/
structure Coll where
  items : Nat
  holder : Option Nat
deriving Repr, DecidableEq

/-- An object given out by a collection; it owns a holder.  Enumerators: IteratorsRangeEnumerator, EnumerableFromStlContainer.h 44-52
    (current and end position, counted from the end of the container if they are reverse iterators); reverse enumerables:
    GenericList.h 43-53 and the same class in the others. -/
inductive Obj where
  | enumerator (holder cur stop : Nat) (rev : Bool)
  | enumerable (holder : Nat)
deriving Repr, DecidableEq

/-- The holder an object owns.  EnumerableFromStlContainer.h 47, GenericList.h 46. -/
def Obj.holder : Obj → Nat
  | .enumerator h _ _ _ => h
  | .enumerable h => h

/-- Everything that is alive.  `holders` gives the container of each holder (`Holder::Items`, GenericList.h 35-40). A destroyed
    enumerator is `none`. -/
structure World (α : Type) where
  arrays : List (List α)
  holders : List Nat
  colls : List Coll
  objs : List (Option Obj)

/-- What a call shows to its caller.  GenericList.h 81-175, EnumerableFromStlContainer.h 54-67. -/
inductive Out (α : Type) where
  | done
  | contents (xs : List α)
  | answer (b : Bool)
  | value (a : α)
  | threw
  | ub
deriving Repr, DecidableEq

/-- Calls on collections and on the objects they give out.  `mutate` stands for every method that changes the elements: `f` is the
    effect on the container, `none` when the method returns or throws before it touches the container (Coll/Kinds.lean has the
    effect of each method).  `enumerate` is GetEnumerator, Find, ReverseFind and GetAll: `win` gives the begin and end iterator.  GenericList.h 60-175,
    GenericSet.h 60-157, GenericDictionary.h 64-184, SortedMultiSet.h 63-186, MultiMapDictionary.h 71-229. -/
inductive Act (α : Type) where
  | create
  | copy (j : Nat)
  | assign (i j : Nat)
  | mutate (i : Nat) (f : List α → Option (List α))
  | clear (i : Nat)
  | query (i : Nat)
  | enumerate (i : Nat) (rev : Bool) (win : List α → Nat × Nat)
  | reverse (i : Nat)
  | enumFrom (k : Nat)
  | valid (k : Nat)
  | get (k : Nat)
  | next (k : Nat)
  | drop (k : Nat)

variable {α : Type}

/-- `expired()` of a weak pointer to a holder: nothing alive owns it.  GenericList.h 57. -/
def World.expired (w : World α) (h : Nat) : Bool :=
  w.objs.all fun o => match o with
    | some o => o.holder != h
    | none => true

/-- `_itemsHolder.expired()`.  GenericList.h 196, GenericSet.h 200, GenericDictionary.h 249, SortedMultiSet.h 207, MultiMapDictionary.h 250. -/
def World.unshared (w : World α) (c : Coll) : Bool :=
  match c.holder with
  | none => true
  | some h => w.expired h

/-- The elements of a container.  GenericList.h 56. -/
def World.elems (w : World α) (a : Nat) : List α := w.arrays.getD a []

/-- `CopyItems(items)` into collection `i`.  GenericList.h 178-182, GenericSet.h 182-186, GenericDictionary.h 231-235,
    SortedMultiSet.h 189-193, MultiMapDictionary.h 232-236. -/
def World.store (w : World α) (i : Nat) (xs : List α) : World α :=
  { w with arrays := w.arrays ++ [xs], colls := w.colls.set i ⟨w.arrays.length, none⟩ }

/-- `CopyOnWrite()`.  GenericList.h 194-198, GenericSet.h 198-205, GenericDictionary.h 247-254, SortedMultiSet.h 205-212,
    MultiMapDictionary.h 248-255. -/
def World.copyOnWrite (w : World α) (i : Nat) (c : Coll) : World α :=
  if w.unshared c then w else w.store i (w.elems c.items)

/-- A change of the container the collection now owns, in place: what follows `CopyOnWrite()` in each mutating method, GenericList.h 117-164,
    GenericSet.h 114-146, GenericDictionary.h 138-173, SortedMultiSet.h 121-175, MultiMapDictionary.h 157-218. -/
def World.inPlace (w : World α) (i : Nat) (xs : List α) : World α :=
  match w.colls[i]? with
  | none => w
  | some c => { w with arrays := w.arrays.set c.items xs }

/-- `GetItemsHolder()` / `GetMapHolder()`: the holder, made anew if the weak pointer has expired.  GenericList.h 184-192,
    GenericSet.h 188-196, GenericDictionary.h 237-245, SortedMultiSet.h 195-203, MultiMapDictionary.h 238-246. -/
def World.getHolder (w : World α) (i : Nat) (c : Coll) : World α × Nat :=
  match c.holder with
  | none => ({ w with holders := w.holders ++ [c.items], colls := w.colls.set i { c with holder := some w.holders.length } }, w.holders.length)
  | some h =>
    if w.expired h then
      ({ w with holders := w.holders ++ [c.items], colls := w.colls.set i { c with holder := some w.holders.length } }, w.holders.length)
    else (w, h)

/-- A new object.  EnumerableFromStlContainer.h 79-96, GenericList.h 84-85. -/
def World.give (w : World α) (o : Obj) : World α := { w with objs := w.objs ++ [some o] }

/-- The element an iterator points to; `none` if there is none.  EnumerableFromStlContainer.h 60. -/
def World.deref (w : World α) (h cur : Nat) (rev : Bool) : Option α :=
  match w.holders[h]? with
  | none => none
  | some a => if rev then (w.elems a).reverse[cur]? else (w.elems a)[cur]?

/-- One call.  GenericList.h 60-175 and the methods of the others cited at each case. -/
def World.step (w : World α) : Act α → World α × Out α
  -- GenericList.h 60-62 and the default constructors of the others
  | .create => ({ w with arrays := w.arrays ++ [[]], colls := w.colls ++ [⟨w.arrays.length, none⟩] }, .done)
  -- GenericList.h 75-76 and the copy constructors of the others
  | .copy j =>
    match w.colls[j]? with
    | none => (w, .ub)
    | some c => ({ w with arrays := w.arrays ++ [w.elems c.items], colls := w.colls ++ [⟨w.arrays.length, none⟩] }, .done)
  -- GenericList.h 78-79 and the assignments of the others
  | .assign i j =>
    match w.colls[i]?, w.colls[j]? with
    | some _, some c => (w.store i (w.elems c.items), .done)
    | _, _ => (w, .ub)
  | .mutate i f =>
    match w.colls[i]? with
    | none => (w, .ub)
    | some c =>
      match f (w.elems c.items) with
      | none => (w, .done)
      | some ys => ((w.copyOnWrite i c).inPlace i ys, .done)
  -- GenericList.h 166-175, GenericSet.h 148-157, GenericDictionary.h 175-184, SortedMultiSet.h 177-186, MultiMapDictionary.h 220-229
  | .clear i =>
    match w.colls[i]? with
    | none => (w, .ub)
    | some c => (if w.unshared c then w.inPlace i [] else w.store i [], .done)
  -- the const methods: GenericList.h 87-115 and so on; they read the container
  | .query i =>
    match w.colls[i]? with
    | none => (w, .ub)
    | some c => (w, .contents (w.elems c.items))
  -- GenericList.h 81-82, GenericSet.h 81-82, 96-112, GenericDictionary.h 86-87, 101-117, SortedMultiSet.h 83-84, 101-119, MultiMapDictionary.h 93-94, 111-155
  | .enumerate i rev win =>
    match w.colls[i]? with
    | none => (w, .ub)
    | some c =>
      ((w.getHolder i c).1.give (.enumerator (w.getHolder i c).2 (win (w.elems c.items)).1
        (min (win (w.elems c.items)).2 (w.elems c.items).length) rev), .done)
  -- GenericList.h 84-85 and the others
  | .reverse i =>
    match w.colls[i]? with
    | none => (w, .ub)
    | some c => ((w.getHolder i c).1.give (.enumerable (w.getHolder i c).2), .done)
  -- GenericList.h 51-52: rbegin and rend of the container of the holder
  | .enumFrom k =>
    match w.objs[k]? with
    | some (some (.enumerable h)) =>
      match w.holders[h]? with
      | some a => (w.give (.enumerator h 0 (w.elems a).length true), .done)
      | none => (w, .ub)
    | _ => (w, .ub)
  -- EnumerableFromStlContainer.h 54-55
  | .valid k =>
    match w.objs[k]? with
    | some (some (.enumerator _ cur stop _)) => (w, .answer (decide (cur < stop)))
    | _ => (w, .ub)
  -- EnumerableFromStlContainer.h 57-61
  | .get k =>
    match w.objs[k]? with
    | some (some (.enumerator h cur stop rev)) =>
      if cur < stop then
        match w.deref h cur rev with
        | some x => (w, .value x)
        | none => (w, .ub)
      else (w, .threw)
    | _ => (w, .ub)
  -- EnumerableFromStlContainer.h 63-67
  | .next k =>
    match w.objs[k]? with
    | some (some (.enumerator h cur stop rev)) =>
      if cur < stop then ({ w with objs := w.objs.set k (some (.enumerator h (cur + 1) stop rev)) }, .done) else (w, .threw)
    | _ => (w, .ub)
  -- the last pointer to the object goes away
  | .drop k => ({ w with objs := w.objs.set k none }, .done)

/-- The loop of `RemoveWhere` when the predicate itself may ask the collection for an enumerator and keep it (`peek`): the container is
    copied once, before the loop, and then changed in place.  GenericSet.h 135-144, GenericDictionary.h 162-171, SortedMultiSet.h 164-173,
    MultiMapDictionary.h 207-216.  `n` bounds the number of elements not yet visited. -/
def World.removeLoop (i : Nat) (pred peek : α → Bool) : Nat → Nat → World α → World α
  | 0, _, w => w
  | n + 1, p, w =>
    match w.colls[i]? with
    | none => w
    | some c =>
      match (w.elems c.items)[p]? with
      | none => w
      | some x =>
        if pred x then
          World.removeLoop i pred peek n p
            ((if peek x then (w.step (.enumerate i false fun xs => (0, xs.length))).1 else w).inPlace i ((w.elems c.items).eraseIdx p))
        else
          World.removeLoop i pred peek n (p + 1)
            (if peek x then (w.step (.enumerate i false fun xs => (0, xs.length))).1 else w)

/-- `RemoveWhere(pred)`.  GenericSet.h 131-146, GenericDictionary.h 158-173, SortedMultiSet.h 160-175, MultiMapDictionary.h 203-218. -/
def World.removeWhere (w : World α) (i : Nat) (pred peek : α → Bool) : World α :=
  match w.colls[i]? with
  | none => w
  | some c => World.removeLoop i pred peek (w.elems c.items).length 0 (w.copyOnWrite i c)

/-- A program: calls of GenericList.h 60-175 and so on. -/
def World.run (w : World α) : List (Act α) → World α × List (Out α)
  | [] => (w, [])
  | a :: as => (((w.step a).1.run as).1, (w.step a).2 :: ((w.step a).1.run as).2)

/-- Nothing has been created yet.  Before GenericList.h 60. -/
def World.empty : World α := ⟨[], [], [], []⟩

end Verif.Coll
