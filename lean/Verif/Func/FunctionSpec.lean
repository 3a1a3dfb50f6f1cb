import Verif.Func.Function
/-!
What a program sees of functions: names that share a functor.  No counters, no destruction: a functor is what it was made as and the arguments it was called with.
-/
namespace Verif.Func.Spec

/-- What a variable stands for, and the calls of every functor. -/
structure View (F A : Type) where
  means : Nat → Option (Option Nat)
  calls : List (F × List A)

variable {F A R : Type}

/-- Variable `k` now stands for `p`. -/
def View.put (v : View F A) (k : Nat) (p : Option (Option Nat)) : View F A := { v with means := fun i => if i = k then p else v.means i }

/-- The state of a functor after the calls. -/
def after (sem : F → A → F × R) (f : F) (as : List A) : F := as.foldl (fun f a => (sem f a).1) f

/-- One operation. -/
inductive Step (sem : F → A → F × R) : View F A → Act F A → Out R → View F A → Prop
  /-- a new functor -/
  | make {v k f} : Step sem v (.make k f) .done ({ v with calls := v.calls ++ [(f, [])] }.put k (some (some v.calls.length)))
  /-- nothing is made, the number of the functor is lost -/
  | makeThrows {v k f} : Step sem v (.makeThrows k f) .threw { v with calls := v.calls ++ [(f, [])] }
  /-- the copy stands for the same functor -/
  | copy {v k j} : Step sem v (.copy k j) .done (v.put k (v.means j))
  | assign {v k j} : Step sem v (.assign k j) .done (v.put k (v.means j))
  /-- the functor moves, nothing is left behind -/
  | move {v k j} : Step sem v (.move k j) .done ((v.put j (some none)).put k (v.means j))
  | moveAssign {v k j} : Step sem v (.moveAssign k j) .done ((v.put j (some none)).put k (v.means j))
  | destroy {v k} : Step sem v (.destroy k) .done (v.put k none)
  /-- a call sees all calls made before, by whatever variable -/
  | call {v k o f as a} : v.means k = some (some o) → v.calls[o]? = some (f, as) →
      Step sem v (.call k a) (.result (sem (after sem f as) a).2) { v with calls := v.calls.set o (f, as ++ [a]) }
  /-- nothing to call -/
  | callNull {v k a} : v.means k = some none → Step sem v (.call k a) .nullPointer v

/-- A history. -/
inductive Steps (sem : F → A → F × R) : View F A → List (Act F A) → List (Out R) → View F A → Prop
  | nil {v} : Steps sem v [] [] v
  | cons {v a o v' as os v''} : Step sem v a o v' → Steps sem v' as os v'' → Steps sem v (a :: as) (o :: os) v''

end Verif.Func.Spec
