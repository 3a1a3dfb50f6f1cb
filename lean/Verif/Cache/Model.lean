/-
Model of `QueueCache` (`FifoCache`, `LruCache`): /repo/stingraykit/collection/QueueCache.h.

Simplifications common to the whole file:
* `std::map<Key, StampedValue>` is an association list; its key order is not observable through the cache's interface.
  Keys that are equivalent under `Less_` are taken to be equal.
* `std::map<u64, iterator>` (the queue) is the list of its entries in increasing stamp order; the stored dictionary
  iterator is represented by the key it points to (dereferencing it = looking the key up; a dangling one is the outcome `none`).
* `_monotonic` is a `Nat` (no wrap after 2^64 operations); `_size` is an `Int` so that a wrapping subtraction would be visible
  as a negative number; the sum of sizes is assumed to fit `size_t`.
* handlers connected to `OnEvicted` do not call back into the same cache.
* a failed `STINGRAYKIT_CHECK` (or a dangling iterator) is the outcome `none`.
-/
namespace Verif.Cache

/-- `QueueEvictionPolicy`, QueueCache.h:22-26. -/
inductive Policy
  | fifo
  | lru
  deriving DecidableEq, Repr

section
variable {K V : Type} [DecidableEq K]

/-- `std::map::find` on the dictionary.  For QueueCache.h 22-179. -/
def find {α : Type} (k : K) : List (K × α) → Option α
  | [] => none
  | (k', a) :: rest => if k' = k then some a else find k rest

/-- `std::map::erase(key)`.  For QueueCache.h 22-179. -/
def erase {α : Type} (k : K) (d : List (K × α)) : List (K × α) := d.filter (fun e => e.1 ≠ k)

/-- Assignment through an iterator to an existing entry (`stampedValue = ...`, QueueCache.h:91, 154). -/
def assign {α : Type} (k : K) (a : α) (d : List (K × α)) : List (K × α) :=
  d.map (fun e => if e.1 = k then (k, a) else e)

/-- `std::map<u64, iterator>::emplace`: insertion in stamp order, refused if the stamp exists.  Of QueueCache.h 22-179. -/
def enqueue (st : Nat) (k : K) : List (Nat × K) → List (Nat × K)
  | [] => [(st, k)]
  | (st', k') :: rest =>
    if st < st' then (st, k) :: (st', k') :: rest
    else if st = st' then (st', k') :: rest
    else (st', k') :: enqueue st k rest

/-- The members of `QueueCache`, QueueCache.h:58-66. -/
structure State (K V : Type) where
  capacity : Nat
  size : Int
  monotonic : Nat
  dictionary : List (K × (V × Nat))
  queue : List (Nat × K)

/-- Constructor, QueueCache.h:71-75. -/
def init (capacity : Nat) : State K V :=
  { capacity := capacity, size := 0, monotonic := 0, dictionary := [], queue := [] }

/-- `EvictExpired`, QueueCache.h:163-179, with `DoRemove`, 181-186. Returns the new members and the reported pairs, in order. -/
def evictLoop (sizeMapper : V → Nat) (capacity : Nat) :
    List (Nat × K) → Int → List (K × (V × Nat)) →
    Option (List (Nat × K) × Int × List (K × (V × Nat)) × List (K × V))
  | q, size, dict =>
    if size ≤ capacity then some (q, size, dict, [])
    else
      match q with
      | [] => none                                          -- line 167: check fails
      | (_, k) :: q' =>
        match find k dict with
        | none => none                                      -- dangling iterator
        | some (v, _) =>
          match evictLoop sizeMapper capacity q' (size - sizeMapper v) (erase k dict) with
          | none => none
          | some (q'', size', dict', ev) => some (q'', size', dict', (k, v) :: ev)

/-- The loop that evicts, QueueCache.h 22-179. -/
def evictExpired (sizeMapper : V → Nat) (s : State K V) : Option (State K V × List (K × V)) :=
  match evictLoop sizeMapper s.capacity s.queue s.size s.dictionary with
  | none => none
  | some (q, size, dict, ev) => some ({ s with queue := q, size := size, dictionary := dict }, ev)

/-- `Set`, QueueCache.h:80-100. -/
def set (sizeMapper : V → Nat) (s : State K V) (k : K) (v : V) : Option (State K V × List (K × V)) :=
  let newStamp := s.monotonic
  let s := { s with monotonic := s.monotonic + 1 }
  let s :=
    match find k s.dictionary with
    | some (old, oldStamp) =>
      { s with
        size := s.size - sizeMapper old
        queue := s.queue.filter (fun e => e.1 ≠ oldStamp)
        dictionary := assign k (v, newStamp) s.dictionary }
    | none => { s with dictionary := s.dictionary ++ [(k, (v, newStamp))] }
  let s := { s with queue := enqueue newStamp k s.queue, size := s.size + sizeMapper v }
  evictExpired sizeMapper s

/-- `TryGet`, QueueCache.h:77-78 and 129-158. -/
def tryGet (p : Policy) (s : State K V) (k : K) : State K V × Option V :=
  match find k s.dictionary with
  | none => (s, none)
  | some (v, stamp) =>
    match p with
    | .fifo => (s, some v)
    | .lru =>
      let newStamp := s.monotonic
      ({ s with
          monotonic := s.monotonic + 1
          queue := enqueue newStamp k (s.queue.filter (fun e => e.1 ≠ stamp))
          dictionary := assign k (v, newStamp) s.dictionary }, some v)

/-- `Remove`, QueueCache.h:102-113 and `DoRemove`, 181-186. -/
def remove (sizeMapper : V → Nat) (s : State K V) (k : K) : Option (State K V × Bool) :=
  match find k s.dictionary with
  | none => some (s, false)
  | some (v, stamp) =>
    if s.queue.any (fun e => e.1 = stamp) then
      some ({ s with
              size := s.size - sizeMapper v
              queue := s.queue.filter (fun e => e.1 ≠ stamp)
              dictionary := erase k s.dictionary }, true)
    else none                                               -- line 109: check fails

/-- `Clear`, QueueCache.h:115-121. -/
def clear (s : State K V) : State K V :=
  { s with size := 0, queue := [], dictionary := [], monotonic := 0 }

/-- `GetSize`, QueueCache.h:123-124. -/
def getSize (s : State K V) : Int := s.size

/-- A call of the public interface.  For QueueCache.h 22-179. -/
inductive Op (K V : Type)
  | set (k : K) (v : V)
  | get (k : K)
  | remove (k : K)
  | clear
  deriving DecidableEq

/-- What the caller of the operation sees: pairs reported through `OnEvicted`, the value obtained, the flag returned.  For QueueCache.h 22-179. -/
inductive Out (K V : Type)
  | set (evicted : List (K × V))
  | get (result : Option V)
  | remove (result : Bool)
  | clear
  deriving DecidableEq

/-- One call; `none` means a failed internal check.  For QueueCache.h 22-179. -/
def step (p : Policy) (sizeMapper : V → Nat) (s : State K V) : Op K V → Option (State K V × Out K V)
  | .set k v => (set sizeMapper s k v).map fun r => (r.1, .set r.2)
  | .get k => let r := tryGet p s k; some (r.1, .get r.2)
  | .remove k => (remove sizeMapper s k).map fun r => (r.1, .remove r.2)
  | .clear => some (clear s, .clear)

/-- A call together with everything observable about it: its outcome and `GetSize()` right after it.  For QueueCache.h 22-179. -/
structure Event (K V : Type) where
  op : Op K V
  out : Out K V
  sizeAfter : Int
  deriving DecidableEq

/-- A history of calls on a fresh cache: the observable trace, or `none` if a check failed on the way.  For QueueCache.h 22-179. -/
def runFrom (p : Policy) (sizeMapper : V → Nat) (s : State K V) : List (Op K V) → Option (State K V × List (Event K V))
  | [] => some (s, [])
  | op :: ops =>
    match step p sizeMapper s op with
    | none => none
    | some (s', out) =>
      match runFrom p sizeMapper s' ops with
      | none => none
      | some (s'', evs) => some (s'', ⟨op, out, getSize s'⟩ :: evs)

/-- One step after another, for histories of QueueCache.h 22-179. -/
def run (p : Policy) (sizeMapper : V → Nat) (capacity : Nat) (ops : List (Op K V)) : Option (List (Event K V)) :=
  (runFrom p sizeMapper (init capacity : State K V) ops).map (·.2)

end
end Verif.Cache
