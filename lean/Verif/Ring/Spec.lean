import Verif.Ring.Model
/- Specification: a FIFO queue of at most `cap` bytes, over observable traces. -/
namespace Verif.Ring.Spec
section
variable {α : Type}

/-- Does the trace behave as a bounded FIFO queue?  `q`: bytes stored, `w`: bytes the writer has put in its window,
`r`: bytes the reader saw in its window. -/
def Fifo (cap : Nat) : (q : List α) → (w : Option (Nat × List α)) → (r : Option (List α)) → List (Event α) → Prop
  | _, _, _, [] => True
  | q, w, r, e :: t =>
    match e.op, e.out with
    | .startWrite, .window n =>
      -- the window fits into the free space and is non-empty unless the buffer is full
      n ≤ cap - q.length ∧ (n = 0 → q.length = cap) ∧ Sizes q e ∧ Fifo cap q (some (n, [])) r t
    | .fill d, .done =>
      Sizes q e ∧ Fifo cap q (w.map fun x => (x.1, d)) r t
    | .push n, .done =>
      -- exactly the first `n` bytes put into the window are appended
      let q' := q ++ ((w.map (·.2)).getD []).take n
      q'.length ≤ cap ∧ Sizes q' e ∧ Fifo cap q' none r t
    | .startRead, .bytes b =>
      -- the reader sees the oldest bytes; something unless the buffer is empty
      b <+: q ∧ (b = [] → q = []) ∧ Sizes q e ∧ Fifo cap q w (some b) t
    | .pop n, .bytes b =>
      -- the bytes are still what the reader saw when it obtained the window, and exactly these leave the queue
      b.length = n ∧ (∃ b₀, r = some b₀ ∧ b = b₀.take n) ∧ b = q.take n ∧ Sizes (q.drop n) e ∧ Fifo cap (q.drop n) w none t
    | .clear, .done => Sizes [] e ∧ Fifo cap [] w r t
    | _, _ => False
where
  /-- the reported sizes -/
  Sizes (q : List α) (e : Event α) : Prop := e.dataSize = q.length ∧ e.freeSize = cap - q.length

end
end Verif.Ring.Spec
