import Verif.Common
import Verif.Circular.Lemmas
/- Property theorems for `CircularBufferBase` / `MemoryCircularBuffer`. -/
namespace Verif.Circular
open Verif.Ring
section
variable {α : Type}

/-- C08. For every storage, overflow mode and history of pushes, reservations and releases, the observable trace is that of the
bounded FIFO with the overflow policy (`Spec.Fifo`): push stores everything, or is rejected without change, or leaves exactly the newest
bytes; reserved bytes are the oldest ones and stay unchanged until released; the observers are exact.  In particular no out-of-range
`memcpy` happens (the outcome `failed .ub` is not allowed by `Spec.Fifo`). -/
theorem circular_buffer_is_fifo (discard : Bool) (storage : List α) (ops : List (Op α)) (s : Sys α) (t : List (Event α))
    (h : run discard storage ops = some (s, t)) : Spec.Fifo discard storage.length [] none t :=
  (simulate discard storage.length ops _ _ _ (create_rep discard storage) s t h).1

/-- C09, proved part: in every reachable state whose stored data does not wrap around the end of the storage, `Clear` drops everything
but the reserved bytes (nothing reserved: size 0, all free, and the buffer is a FIFO from then on). Missing: the wrapped states, where
the claim is false, see `clear_violated`. -/
theorem clear_empties_partial (discard : Bool) (storage : List α) (ops : List (Op α)) (s : Sys α) (t : List (Event α))
    (h : run discard storage ops = some (s, t)) (hw : s.circ.ring.readOffset + s.circ.getSize < storage.length) :
    s.circ.clear.getSize = s.circ.locked ∧ s.circ.clear.getFree = storage.length - s.circ.locked ∧
    s.circ.clear.getAllData = s.circ.getAllData.take s.circ.locked ∧
    ∀ ops' s' t', s.held = none → runFrom ⟨s.circ.clear, none⟩ ops' = some (s', t') → Spec.Fifo discard storage.length [] none t' := by
  obtain ⟨q, b, hr⟩ := (simulate discard storage.length ops _ _ _ (create_rep discard storage) s t h).2
  have hlen := hr.len
  have hcap := hr.cap
  have hlk : s.circ.locked ≤ s.circ.ring.readSize := by
    have := hr.held
    cases hh : s.held with
    | none => cases b with
      | none => rw [hh] at this; simp only at this; omega
      | some x => rw [hh] at this; exact this.elim
    | some x =>
      cases b with
      | none => rw [hh] at this; exact this.elim
      | some y => rw [hh] at this; obtain ⟨g1, _, g3, _, _⟩ := this; omega
  obtain ⟨⟨⟨st, wo, ro, cg⟩, lk, dc⟩, held⟩ := s
  obtain ⟨⟨h1, h2, h3, h4, h5, h6⟩, hdc, _, hcon, hheld⟩ := hr
  simp only [Ring.storageSize, Circ.getSize, Ring.dataSize, Ring.readSize] at *
  cases cg with
  | false =>
    -- a wrapped state contradicts `hw`
    simp only [Bool.false_eq_true, ↓reduceIte] at hw; omega
  | true =>
    simp only [↓reduceIte, forall_const] at *
    have hcl : Circ.clear (⟨⟨st, wo, ro, true⟩, lk, dc⟩ : Circ α) = ⟨⟨st, ro + lk, ro, true⟩, lk, dc⟩ := by
      unfold Circ.clear; simp only [Ring.storageSize]; exact if_pos (show ro + lk < st.length by omega)
    rw [hcl]
    refine ⟨?_, ?_, ?_, ?_⟩
    · simp only [↓reduceIte]; omega
    · simp only [Circ.getFree, Ring.storageSize, ↓reduceIte]; omega
    · simp only [Circ.getAllData, ↓reduceIte, slice, List.take_take]
      congr 1; omega
    · intro ops' s' t' hn hrun
      subst hn
      cases b with
      | some x => exact hheld.elim
      | none =>
        have hl0 : lk = 0 := hheld
        subst hl0
        refine (simulate discard storage.length ops' _ _ _ ?_ s' t' hrun).1
        refine ⟨⟨?_, ?_, ?_, ?_, ?_, ?_⟩, hdc, hcap, ?_, rfl⟩
        · intro _; simp
        · intro hx; simp at hx
        · exact h3
        · simp only [Ring.storageSize]; omega
        · exact h5
        · simp only [Ring.storageSize]; omega
        · simp [Ring.contents, slice]

end

/-- The history of the violation: 4 bytes of storage, push 3, take 2, push 2 (wraps around). -/
def wrapDemo : List (Op Nat) := [.push [1, 2, 3], .pop 2, .release, .push [4, 5]]

/-- C09 is violated: `Clear` does not reset the wrap flag (lines 213-216), so after clearing a buffer whose data wraps around the end of
the storage and of which nothing is reserved, it is *full* instead of empty, nothing can be pushed, and old bytes are delivered. -/
theorem clear_violated :
    ∃ s t, run false [0, 0, 0, 0] wrapDemo = some (s, t) ∧ s.held = none ∧ s.circ.getAllData = [3, 4, 5] ∧
      s.circ.clear.getSize = 4 ∧ s.circ.clear.getFree = 0 ∧ s.circ.clear.push [9] = .error .full ∧
      s.circ.clear.getAllData = [3, 4, 5, 2] :=
  ⟨⟨⟨⟨[5, 2, 3, 4], 1, 2, false⟩, 0, false⟩, none⟩, _, by with_unfolding_all rfl, by decide +kernel, by decide +kernel, by decide +kernel, by decide +kernel,
    by decide +kernel, by decide +kernel⟩

/-- Boundary of C08 (why holding a second, empty, reserver is excluded): destroying an *empty* reserver resets the lock of a later
non-empty one (line 109), after which a discarding push overwrites bytes which are still reserved. -/
theorem empty_reserver_unlocks :
    ∃ c1 c2 c3 c4 : Circ Nat,
      -- reserve while empty: an empty reserver
      (Circ.create true [0, 0]).pop 9 = .ok (c1, 0, 0) ∧ c1.push [1, 2] = .ok c2 ∧
      -- reserve `[1, 2]`; now a discarding push is rejected
      c2.pop 9 = .ok (c3, 0, 2) ∧ slice c3.ring.storage 0 2 = [1, 2] ∧ c3.push [7, 8] = .error .locked ∧
      -- after the destruction of the empty reserver it is not, and the reserved bytes change
      (c3.releaseData 0).push [7, 8] = .ok c4 ∧ slice c4.ring.storage 0 2 = [7, 8] :=
  ⟨⟨⟨[0, 0], 0, 0, true⟩, 0, true⟩, ⟨⟨[1, 2], 0, 0, false⟩, 0, true⟩, ⟨⟨[1, 2], 0, 0, false⟩, 2, true⟩, ⟨⟨[7, 8], 0, 0, false⟩, 0, true⟩,
    by decide +kernel, by decide +kernel, by decide +kernel, by decide +kernel, by decide +kernel, by decide +kernel, by decide +kernel⟩

/-! Non-vacuity: a discarding buffer of 4 bytes; push over capacity, read across the wrap, a rejected push while reserved. -/
def demo : List (Op Nat) :=
  [.push [1, 2, 3], .push [4, 5, 6], .pop 9, .push [7, 8], .release, .pop 9, .release, .push [1, 2, 3, 4, 5, 6, 7], .pop 1, .release]

example : (run true [0, 0, 0, 0] demo).map (fun r => r.2.map (fun e => (e.out, e.all))) =
    some [(.done, [1, 2, 3]), (.done, [3, 4, 5, 6]), (.bytes [3, 4], [3, 4, 5, 6]), (.failed .locked, [3, 4, 5, 6]), (.bytes [3, 4], [5, 6]),
      (.bytes [5, 6], [5, 6]), (.bytes [5, 6], []), (.done, [4, 5, 6, 7]), (.bytes [4], [4, 5, 6, 7]), (.bytes [4], [5, 6, 7])] := by
  decide +kernel

example : ∃ s t, run false [0, 0, 0, 0] [.push [1, 2, 3], .pop 2] = some (s, t) ∧ s.circ.ring.readOffset + s.circ.getSize < 4 :=
  ⟨⟨⟨⟨[1, 2, 3, 0], 3, 0, true⟩, 2, false⟩, some (0, 2)⟩, _, by with_unfolding_all rfl, by decide +kernel⟩

end Verif.Circular
