import Verif.Inplace.Model
/- Specification: numbered plain sequences. -/
namespace Verif.Inplace.Spec

section
variable {α : Type}

def put (w : Nat → List α) (i : Nat) (l : List α) : Nat → List α := fun j => if j = i then l else w j

def step (w : Nat → List α) : Op α → (Nat → List α) × Out α
  | .push i x => (put w i (w i ++ [x]), .unit)
  | .at i n => (w, .val (w i)[n]?)
  | .setAt i n x => if n < (w i).length then (put w i ((w i).set n x), .done true) else (w, .done false)
  | .size i => (w, .num (w i).length)
  | .iterate i => (w, .all ((w i).map some))
  | .clear i => (put w i [], .unit)
  | .assign i l => (put w i l, .unit)
  | .copy i j => (put w i (w j), .unit)
  | .move i j => (put (put w i (w j)) j [], .unit)
  | .renew i => (put w i [], .unit)

def run : (Nat → List α) → List (Op α) → (Nat → List α) × List (Out α)
  | w, [] => (w, [])
  | w, op :: ops => ((run (step w op).1 ops).1, (step w op).2 :: (run (step w op).1 ops).2)

/-- No assignment of a vector to itself. -/
def noSelf : Op α → Prop
  | .copy i j => i ≠ j
  | .move i j => i ≠ j
  | _ => True

end
end Verif.Inplace.Spec
