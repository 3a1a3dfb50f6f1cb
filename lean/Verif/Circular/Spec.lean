import Verif.Circular.Model
/- Specification: FIFO of at most `cap` bytes with an overflow policy, over observable traces. -/
namespace Verif.Circular.Spec
section
variable {α : Type}

/-- The newest `cap` bytes. -/
def newest (cap : Nat) (l : List α) : List α := l.drop (l.length - cap)

/-- `q`: bytes stored, oldest first; `held`: bytes the user holds reserved (they are the oldest ones and still stored). -/
def Fifo (discard : Bool) (cap : Nat) : (q : List α) → (held : Option (List α)) → List (Event α) → Prop
  | _, _, [] => True
  | q, held, e :: t =>
    match e.op, e.out with
    | .push d, .done =>
      -- stored completely, or (only when discarding and nothing is reserved) the oldest bytes gave way
      (q.length + d.length ≤ cap ∧ Shows (q ++ d) e ∧ Fifo discard cap (q ++ d) held t) ∨
      (cap < q.length + d.length ∧ discard = true ∧ held.getD [] = [] ∧
        Shows (newest cap (q ++ d)) e ∧ Fifo discard cap (newest cap (q ++ d)) held t)
    | .push d, .failed f =>
      -- rejected without any change
      cap < q.length + d.length ∧ f = (if discard then .locked else .full) ∧ (discard = true → held.getD [] ≠ []) ∧
        Shows q e ∧ Fifo discard cap q held t
    | .pop n, .bytes b =>
      -- the oldest bytes; nothing only if nothing is stored or asked for
      held.getD [] = [] ∧ b <+: q ∧ b.length ≤ n ∧ (b = [] → q = [] ∨ n = 0) ∧ Shows q e ∧ Fifo discard cap q (some b) t
    | .pop _, .failed f => held.getD [] ≠ [] ∧ f = .locked ∧ Shows q e ∧ Fifo discard cap q held t
    | .release, .bytes b =>
      -- unchanged since reserved; exactly these leave the buffer
      held = some b ∧ Shows (q.drop b.length) e ∧ Fifo discard cap (q.drop b.length) none t
    | _, _ => False
where
  /-- what the observers report -/
  Shows (q : List α) (e : Event α) : Prop := e.all = q ∧ e.size = q.length ∧ e.free = cap - q.length

end
end Verif.Circular.Spec
