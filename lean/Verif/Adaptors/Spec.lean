import Verif.Adaptors.Model
/- Conditions on the environment used in the statements. -/
namespace Verif.Adaptors.Spec
section
variable {α : Type}

/-- The token is not cancelled during a call that fills up the buffered block. -/
def Uncancelled (alignment : Nat) (useBuffer : Bool) : AlignSys α → List Offer → Prop
  | _, [] => True
  | s, o :: os => (s.buffer ≠ [] → (align alignment useBuffer s.buffer (s.src.take o.size) o.env).2.2.env ≠ []) ∧
      Uncancelled alignment useBuffer (alignStep alignment useBuffer s o) os

/-- The token is not cancelled during the calls. -/
def SkipUncancelled (processRest : Bool) : SkipSys α → List Offer → Prop
  | _, [] => True
  | s, o :: os => (skipProcess processRest s.left (s.src.take o.size) o.env).2.2.env ≠ [] ∧ SkipUncancelled processRest (skipStep processRest s o) os

end
end Verif.Adaptors.Spec
