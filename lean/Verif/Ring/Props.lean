import Verif.Ring.Lemmas
/- Property theorems for `BithreadCircularBuffer`. -/
namespace Verif.Ring
section
variable {α : Type}

/-- C07. For every storage and every interleaving of a writer (obtain window, fill, push) and a reader (obtain window, copy, pop)
the observable trace is that of a FIFO queue bounded by the storage size (`Spec.Fifo`): bytes come out in the order pushed, none lost,
duplicated or altered, also while the other side is working in its window; the reported sizes are exact. -/
theorem bithread_buffer_is_fifo (storage : List α) (ops : List (Op α)) (t : List (Event α))
    (h : run storage ops = .ok t) : Spec.Fifo storage.length [] none none t := by
  have hr : Rep storage.length (Sys.create storage) [] none none :=
    ⟨Ring.create_inv _, rfl, Ring.create_contents _, trivial, trivial⟩
  unfold run at h
  cases hrun : runFrom (Sys.create storage) ops with
  | error e => rw [hrun] at h; cases h
  | ok r =>
    rw [hrun] at h
    simp only [Except.ok.injEq] at h
    subst h
    exact (simulate storage.length ops _ _ _ _ hr).2 r.1 r.2 hrun

/-- C07. The internal range checks of `Push` and `Pop` never fire for a user who stays inside the windows. -/
theorem bithread_buffer_checks_never_fail (storage : List α) (ops : List (Op α)) : run storage ops ≠ .error .check := by
  have hr : Rep storage.length (Sys.create storage) [] none none :=
    ⟨Ring.create_inv _, rfl, Ring.create_contents _, trivial, trivial⟩
  have := (simulate storage.length ops _ _ _ _ hr).1
  unfold run
  cases hrun : runFrom (Sys.create storage) ops with
  | error e => rw [hrun] at this; simpa using this
  | ok r => simp

/-- Everything pushed so far according to the trace (as the writer saw it). -/
def pushedBytes : Option (List α) → List (Event α) → List α
  | _, [] => []
  | w, e :: t =>
    match e.op with
    | .fill d => pushedBytes (w.map fun _ => d) t
    | .push n => (w.getD []).take n ++ pushedBytes none t
    | .startWrite => pushedBytes (some []) t
    | _ => pushedBytes w t

/-- Everything popped so far according to the trace. -/
def poppedBytes : List (Event α) → List α
  | [] => []
  | e :: t =>
    match e.op, e.out with
    | .pop _, .bytes b => b ++ poppedBytes t
    | _, _ => poppedBytes t

/-- C07, end to end: without `Clear`, what was read is a prefix of what was written, and what is missing is exactly the data size. -/
theorem bithread_buffer_lossless (storage : List α) (ops : List (Op α)) (op : Op α) (t : List (Event α)) (e : Event α)
    (h : run storage (ops ++ [op]) = .ok (t ++ [e])) (hc : .clear ∉ (t ++ [e]).map (·.op)) :
    ∃ rest, pushedBytes none (t ++ [e]) = poppedBytes (t ++ [e]) ++ rest ∧ rest.length = e.dataSize ∧ rest.length ≤ storage.length := by
  have hf := bithread_buffer_is_fifo storage _ _ h
  -- generalise over the queue
  have key : ∀ (t : List (Event α)) (q : List α) (w : Option (Nat × List α)) (v : Option (List α)) (e : Event α), q.length ≤ storage.length →
      Spec.Fifo storage.length q w v (t ++ [e]) → .clear ∉ (t ++ [e]).map (·.op) →
      ∃ rest, q ++ pushedBytes (w.map (·.2)) (t ++ [e]) = poppedBytes (t ++ [e]) ++ rest ∧ rest.length = e.dataSize ∧ rest.length ≤ storage.length := by
    intro t
    induction t with
    | nil =>
      intro q w v e hq hf hc
      obtain ⟨op, out, ds, fs⟩ := e
      simp only [List.nil_append] at hf hc ⊢
      cases op <;> cases out <;> simp only [Spec.Fifo, Spec.Fifo.Sizes] at hf
      · exact ⟨q, by simp [pushedBytes, poppedBytes], by exact hf.2.2.1.1.symm, hq⟩
      · exact ⟨q, by simp [pushedBytes, poppedBytes], by exact hf.1.1.symm, hq⟩
      · exact ⟨_, by simp only [pushedBytes, poppedBytes, List.nil_append, List.append_nil], hf.2.1.1.symm, hf.1⟩
      · exact ⟨q, by simp [pushedBytes, poppedBytes], by exact hf.2.2.1.1.symm, hq⟩
      · rename_i n b
        obtain ⟨h1, _, h3, h4, _⟩ := hf
        refine ⟨q.drop n, ?_, h4.1.symm, by rw [List.length_drop]; omega⟩
        simp only [pushedBytes, poppedBytes, List.append_nil]; rw [h3, List.take_append_drop]
      · simp at hc
    | cons e0 t ih =>
      intro q w v e hq hf hc
      obtain ⟨op, out, ds, fs⟩ := e0
      simp only [List.cons_append] at hf hc ⊢
      have hc' : .clear ∉ (t ++ [e]).map (·.op) := fun h => hc (by simp only [List.map_cons, List.mem_cons]; exact Or.inr h)
      cases op <;> cases out <;> simp only [Spec.Fifo, Spec.Fifo.Sizes] at hf
      · obtain ⟨r, r1, r2⟩ := ih q _ v e hq hf.2.2.2 hc'
        exact ⟨r, by simpa [pushedBytes, poppedBytes] using r1, r2⟩
      · rename_i d
        -- filling without a window cannot happen; in the specification the window's bytes become `d`
        obtain ⟨r, r1, r2⟩ := ih q _ v e hq hf.2 hc'
        cases w with
        | none => exact ⟨r, by simpa [pushedBytes, poppedBytes] using r1, r2⟩
        | some x => exact ⟨r, by simpa [pushedBytes, poppedBytes] using r1, r2⟩
      · rename_i n
        obtain ⟨r, r1, r2⟩ := ih _ none v e hf.1 hf.2.2 hc'
        exact ⟨r, by simpa [pushedBytes, poppedBytes, List.append_assoc] using r1, r2⟩
      · obtain ⟨r, r1, r2⟩ := ih q w _ e hq hf.2.2.2 hc'
        exact ⟨r, by simpa [pushedBytes, poppedBytes] using r1, r2⟩
      · rename_i n b
        obtain ⟨h1, _, h3, h4, h5⟩ := hf
        obtain ⟨r, r1, r2⟩ := ih (q.drop n) w none e (by rw [List.length_drop]; omega) h5 hc'
        refine ⟨r, ?_, r2⟩
        simp only [pushedBytes, poppedBytes]
        rw [List.append_assoc, ← r1, ← List.append_assoc, h3, List.take_append_drop]
      · simp at hc
  obtain ⟨r, r1, r2⟩ := key t [] none none e (by simp) hf hc
  exact ⟨r, by simpa using r1, r2⟩

end

/-! Non-vacuity: a history on 4 bytes of storage with a wrap-around, with the reader's window open while the writer works. -/
def demo : List (Op Nat) :=
  [.startWrite, .fill [1, 2, 3], .push 3, .startRead, .startWrite, .pop 2, .fill [4], .push 1, .startWrite, .fill [5, 6], .push 2,
   .startRead, .pop 2, .startRead, .pop 2]

example : (run [0, 0, 0, 0] demo).toOption.map (fun t => (pushedBytes none t, poppedBytes t)) =
    some ([1, 2, 3, 4, 5, 6], [1, 2, 3, 4, 5, 6]) := by decide +kernel

/-- Boundary of the guarantee: `Push` beyond the window is *not* detected by the check of line 56 when the data wraps around
(only the storage end is checked): here 1 byte is free, 2 are pushed, and the reported data size exceeds the storage. -/
theorem push_beyond_window_not_detected :
    ∃ r : Ring Nat, (∃ n, (Ring.create [0, 0, 0, 0]).push 4 = some n ∧ n.pop 1 = some r) ∧ r.writeSize = 1 ∧
      ∃ r', r.push 2 = some r' ∧ r'.dataSize = 5 :=
  ⟨⟨[0, 0, 0, 0], 0, 1, false⟩, ⟨⟨[0, 0, 0, 0], 0, 0, false⟩, by decide +kernel, by decide +kernel⟩, by decide +kernel,
    ⟨[0, 0, 0, 0], 2, 1, false⟩, by decide +kernel, by decide +kernel⟩

end Verif.Ring
