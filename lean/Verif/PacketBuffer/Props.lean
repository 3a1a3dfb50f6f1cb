import Verif.Common
import Verif.PacketBuffer.Lemmas
/- Property theorems for `PacketBuffer`. -/
namespace Verif.PacketBuffer
open Verif.Ring
section
variable {α μ : Type}

/-- C11. For every storage, overflow mode and interleaving, the observable trace is that of a queue of whole packets (`Spec.Step`). -/
theorem packet_buffer_is_queue (discard : Bool) (storage : List α) (ops : List (Op α μ)) (s : Sys α μ) (t : List (Event α μ))
    (h : run discard storage ops = some (s, t)) : ∃ a, Spec.Trace discard storage.length Spec.St.init t a := by
  obtain ⟨a, h1, _⟩ := simulate discard storage.length ops _ _ (create_rep storage) s t h
  exact ⟨a, h1⟩

/-- C11, end to end: without `Clear`, the packets accepted are exactly the packets consumed, in order and unaltered, followed by the packets
still queued. -/
theorem packet_buffer_exactly_once (discard : Bool) (storage : List α) (ops : List (Op α μ)) (s : Sys α μ) (t : List (Event α μ))
    (h : run discard storage ops = some (s, t)) (hc : .clear ∉ t.map (·.op)) :
    ∃ rest, Spec.acceptedPackets none t = Spec.consumedPackets none t ++ rest ∧ rest.length = s.queue.length := by
  obtain ⟨a, h1, h2⟩ := simulate discard storage.length ops _ _ (create_rep storage) s t h
  refine ⟨a.q, ?_, by rw [h2.queue]; simp⟩
  have := trace_exact discard _ _ _ t h1 hc
  simpa [Spec.St.init] using this

/-- C11: no internal check (line 153 or those of the ring) ever fails: in every reachable state every step is either possible or
blocked / against the protocol. -/
theorem packet_buffer_checks_never_fail (discard : Bool) (storage : List α) (ops : List (Op α μ)) (s : Sys α μ) (t : List (Event α μ))
    (h : run discard storage ops = some (s, t)) (op : Op α μ) : step discard s op ≠ none ∨ disabled s op = true := by
  obtain ⟨a, _, h2⟩ := simulate discard storage.length ops _ _ (create_rep storage) s t h
  rcases step_sim discard _ s a h2 op with ⟨_, hd⟩ | ⟨s', out, a', hs, _⟩
  · exact Or.inr hd
  · left; rw [hs]; simp

/-- C11: what may be blocked, and when: a second `Process` or `Read` while one is in progress, `Clear` during a `Read`, and the later sections of calls that are
not in progress; `EndOfData` never. -/
theorem packet_buffer_blocked (s : Sys α μ) : (∀ p : Packet α μ, disabled s (.process p) = true ↔ s.writer ≠ none) ∧
    (disabled s .copy = true ↔ ∀ w, s.writer = some w → w.copied = true) ∧ (disabled s .pushed = true ↔ ∀ w, s.writer = some w → w.copied = false) ∧
    (disabled s .read = true ↔ s.reader ≠ none) ∧ (∀ b, disabled s (.consumed b) = true ↔ s.reader = none) ∧
    (disabled s .clear = true ↔ s.reader ≠ none) ∧ disabled s .endOfData = false := by
  refine ⟨fun p => ?_, ?_, ?_, ?_, fun b => ?_, ?_, rfl⟩
  · simp only [disabled]; cases s.writer <;> simp
  · simp only [disabled]
    cases h : s.writer with
    | none => simp
    | some w => obtain ⟨a, b, c⟩ := w; cases c <;> simp
  · simp only [disabled]
    cases h : s.writer with
    | none => simp
    | some w => obtain ⟨a, b, c⟩ := w; cases c <;> simp
  · simp only [disabled]; cases s.reader <;> simp
  · simp only [disabled]; cases s.reader <;> simp
  · simp only [disabled]; cases s.reader <;> simp

/-- C12, proved part: in every reachable state with no `Process` in progress a packet is accepted if the free space is at least twice its
size less one (in particular: an empty buffer accepts every packet of at most half the storage, rounded up). Missing: larger packets up to
the storage size, for which the claim is false, see `empty_buffer_rejects_violated`. -/
theorem packet_accepted_partial (discard : Bool) (storage : List α) (ops : List (Op α μ)) (s : Sys α μ) (t : List (Event α μ))
    (h : run discard storage ops = some (s, t)) (hw : s.writer = none) (p : Packet α μ) (hs : p.data.length ≤ storage.length)
    (hf : 2 * p.data.length ≤ s.ring.freeSize + 1) :
    ∃ s', step discard s (.process p) = some (s', .inProgress) := by
  obtain ⟨a, _, h2⟩ := simulate discard storage.length ops _ _ (create_rep storage) s t h
  have hpad : paddingFor s.ring p.data.length + p.data.length ≤ s.ring.freeSize := by
    unfold paddingFor
    split
    · rename_i hc
      simp only [Bool.and_eq_true, decide_eq_true_eq] at hc
      omega
    · -- no padding: 1 ≤ n or n = 0
      rcases Nat.eq_zero_or_pos p.data.length with h0 | h0 <;> omega
  have hcap := h2.cap
  simp only [step, hw]
  rw [if_neg (by omega), if_neg (by omega)]
  by_cases h3 : paddingFor s.ring p.data.length ≠ 0
  · rw [if_pos h3]
    obtain ⟨A, B, pad, hl, _⟩ := h2.layout
    obtain ⟨e1, _, _⟩ := padding_layout s.ring h2.inv hl p.data.length (by omega) h3
    have hfit := Ring.writeSize_fits _ h2.inv
    have hpush : s.ring.push (paddingFor s.ring p.data.length) = some (s.ring.advanceWrite (paddingFor s.ring p.data.length)) := by
      unfold Ring.push; rw [if_pos (by omega)]
    rw [hpush]; exact ⟨_, rfl⟩
  · rw [if_neg h3]; exact ⟨_, rfl⟩

end

/-- C12 is violated: after a packet of 5 bytes went through a buffer of 10, the *empty* buffer does not accept a packet of 8 bytes - and as
the attempt changes nothing, it never will: the producer waits forever (or the packet is dropped in discarding mode). -/
theorem empty_buffer_rejects_violated :
    ∃ (s : Sys Nat Unit) (t : List (Event Nat Unit)),
      run false (List.replicate 10 0) [.process ⟨[1, 2, 3, 4, 5], ()⟩, .copy, .pushed, .read, .consumed true] = some (s, t) ∧
      s.queue = [] ∧ s.ring.dataSize = 0 ∧ s.ring.freeSize = 10 ∧ s.writer = none ∧
      step false s (.process ⟨[1, 2, 3, 4, 5, 6, 7, 8], ()⟩) = some (s, .waiting) ∧
      step true s (.process ⟨[1, 2, 3, 4, 5, 6, 7, 8], ()⟩) = some (s, .dropped) :=
  ⟨⟨⟨[1, 2, 3, 4, 5, 0, 0, 0, 0, 0], 5, 5, true⟩, [], 0, false, none, none⟩,
   [⟨.process ⟨[1, 2, 3, 4, 5], ()⟩, .inProgress⟩, ⟨.copy, .done⟩, ⟨.pushed, .accepted⟩, ⟨.read, .offered ⟨[1, 2, 3, 4, 5], ()⟩⟩,
    ⟨.consumed true, .seen [1, 2, 3, 4, 5]⟩],
   by decide +kernel, by decide +kernel, by decide +kernel, by decide +kernel, by decide +kernel, by decide +kernel, by decide +kernel⟩

/-- `Clear` without the restriction to times when no `Read` is in its unlocked section (lines 59-75 take only the mutex). -/
def clearAnyway {α μ : Type} (s : Sys α μ) : Sys α μ := { s with ring := drain 2 s.ring, queue := [], padding := 0, eod := false }

/-- Boundary: `Clear` during the unlocked section of `Read`. When the consumer returns true, `_packetQueue.pop_front()` (line 164) is
executed on an empty queue (undefined behaviour) and the read offset is moved beyond the write offset. -/
theorem clear_during_read_is_ub :
    ∃ (s : Sys Nat Unit) (t : List (Event Nat Unit)),
      run false [0, 0, 0, 0] [.process ⟨[1, 2], ()⟩, .copy, .pushed, .read] = some (s, t) ∧ s.reader.isSome = true ∧
      (clearAnyway s).queue = [] ∧ ((clearAnyway s).ring.pop 2).map (fun r => (r.readOffset, r.writeOffset, r.contiguous)) = some (0, 2, false) :=
  ⟨⟨⟨[1, 2, 0, 0], 2, 0, true⟩, [(2, ())], 0, false, none, some ⟨0, 2, ()⟩⟩,
   [⟨.process ⟨[1, 2], ()⟩, .inProgress⟩, ⟨.copy, .done⟩, ⟨.pushed, .accepted⟩, ⟨.read, .offered ⟨[1, 2], ()⟩⟩],
   by decide +kernel, by decide +kernel, by decide +kernel, by decide +kernel⟩

/-! Non-vacuity: packets of 3, 3, 2 bytes in a storage of 8 with a padding of 2, the padding being skipped. -/
def demo : List (Op Nat Nat) :=
  [.process ⟨[1, 2, 3], 10⟩, .copy, .pushed, .process ⟨[4, 5, 6], 20⟩, .copy, .read, .pushed, .consumed true, .process ⟨[7, 8, 9], 30⟩, .read, .copy,
   .consumed false, .pushed, .read, .consumed true, .read, .consumed true, .endOfData, .read]

example : (run false (List.replicate 8 0) demo).map (fun r => (Spec.acceptedPackets none r.2, Spec.consumedPackets none r.2, r.2.getLast?.map (·.out))) =
    some ([⟨[1, 2, 3], 10⟩, ⟨[4, 5, 6], 20⟩, ⟨[7, 8, 9], 30⟩], [⟨[1, 2, 3], 10⟩, ⟨[4, 5, 6], 20⟩, ⟨[7, 8, 9], 30⟩], some .gotEod) := by
  decide +kernel

example : (run false (List.replicate 8 0) demo).map (fun r => (r.1.writer.isNone, r.1.ring.freeSize)) = some (true, 8) := by decide +kernel

end Verif.PacketBuffer
