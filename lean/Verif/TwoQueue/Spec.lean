import Verif.TwoQueue.Model
/- Specification over observable traces of a `TwoQueueCache`. -/
namespace Verif.TwoQueue.Spec
open Verif.Cache (Op)
section
variable {K V : Type} [DecidableEq K]

/-- The value a user expects for `k` after one more event: last `Set`, unless reported evicted, removed or cleared. -/
def after (k : K) (cur : Option V) (e : Event K V) : Option V :=
  let cur := match e.op with
    | .set k' v => if k' = k then some v else cur
    | .remove k' => if k' = k then none else cur
    | .clear => none
    | .get _ => cur
  if e.evicted.any (fun x => x.1 = k) then none else cur

/-- The value a user expects for `k` after the trace. -/
def expected (k : K) (t : List (Event K V)) : Option V := t.foldl (after k) none

end
end Verif.TwoQueue.Spec
