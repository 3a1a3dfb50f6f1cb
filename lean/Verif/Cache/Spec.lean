import Verif.Cache.Model
/-
Specification of a queue cache in terms of *observable traces only* (calls, results, reported evictions): no reference to
stamps, dictionary or queue.
-/
namespace Verif.Cache.Spec
open Verif.Cache

section
variable {K V : Type} [DecidableEq K]

/-- Sum of the sizes of the entries. -/
def total (sizeMapper : V → Nat) (es : List (K × V)) : Nat := (es.map fun e => sizeMapper e.2).sum

/-- The list without the entries for `k`. -/
def without (k : K) (es : List (K × V)) : List (K × V) := es.filter (fun e => e.1 ≠ k)

/-- The value a user expects for `k` after the trace: that of the last `Set`, unless since then `k` was reported evicted,
removed or cleared. -/
def expected (k : K) : List (Event K V) → Option V → Option V
  | [], cur => cur
  | e :: rest, cur =>
    expected k rest <|
      match e.op, e.out with
      | .set k' v, .set evicted =>
        let cur := if k' = k then some v else cur
        if evicted.any (fun x => x.1 = k) then none else cur
      | .remove k', _ => if k' = k then none else cur
      | .clear, _ => none
      | _, _ => cur

/-- Entries ordered by the time of their last `Set` (FIFO) or last `Set`/successful `TryGet` (LRU), oldest first,
computed from the trace. -/
def aged (p : Policy) : List (Event K V) → List (K × V) → List (K × V)
  | [], es => es
  | e :: rest, es =>
    aged p rest <|
      match e.op, e.out with
      | .set k v, .set evicted => (without k es ++ [(k, v)]).filter (fun x => ¬ evicted.any (fun y => y.1 = x.1))
      | .get k, .get (some v) => if p = .lru then without k es ++ [(k, v)] else es
      | .remove k, _ => without k es
      | .clear, _ => []
      | _, _ => es

/-- Does the event use key `k` in the sense of the policy (FIFO: a `Set`; LRU: a `Set` or a successful `TryGet`)? -/
def uses (p : Policy) (k : K) (e : Event K V) : Bool :=
  match e.op, e.out with
  | .set k' _, .set _ => k' = k
  | .get k', .get (some _) => p = .lru && decide (k' = k)
  | _, _ => false

/-- Time (1-based position in the trace) of the last use of `k`; 0 if never used. -/
def lastUse (p : Policy) (k : K) : List (Event K V) → Nat → Nat → Nat
  | [], _, last => last
  | e :: rest, now, last => lastUse p k rest (now + 1) (if uses p k e then now + 1 else last)

end
end Verif.Cache.Spec
