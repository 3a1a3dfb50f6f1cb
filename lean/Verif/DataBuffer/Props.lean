import Verif.DataBuffer.Lemmas
/- Property theorems for `DataBuffer`. -/
namespace Verif.DataBuffer
open Verif.Ring
section
variable {α ε : Type}

/-- C10. For every valid configuration, storage, interleaving and consumer behaviour, the observable trace is allowed by the
specification `Spec.Step`: accepted bytes are whole packets appended to the queue, offered bytes are whole packets from its front and
exactly what the consumer takes is removed; waiting, end of data and exceptions only surface when less than a packet is stored;
`Process` only fails to store when there is no room; end-of-data mark and exception exclude each other. -/
theorem databuffer_refines_spec (c : Config) (storage : List α) (hv : c.Valid storage.length) (ops : List (Op α ε)) (s : Sys α ε)
    (t : List (Event α ε)) (h : run c storage ops = some (s, t)) :
    (∃ a, Spec.Trace c storage.length Spec.St.init t a) ∧ ¬ (s.eod = true ∧ s.exc ≠ none) := by
  obtain ⟨a, h1, h2⟩ := simulate c storage.length hv ops _ _ (create_rep c storage) s t h
  exact ⟨⟨a, h1⟩, fun ⟨h3, h4⟩ => h4 (h2.excl h3)⟩

/-- C10, end to end: if the consumer takes whole packets and the buffer is not cleared, the accepted bytes are exactly the delivered bytes
followed by the bytes still stored (whose number is the reported size). -/
theorem databuffer_lossless (c : Config) (storage : List α) (hv : c.Valid storage.length) (ops : List (Op α ε)) (s : Sys α ε)
    (t : List (Event α ε)) (h : run c storage ops = some (s, t)) (hc : .clear ∉ t.map (·.op))
    (hk : ∀ e ∈ t, ∀ k, e.op = .consumed (some k) → k % c.outputPacketSize = 0) :
    ∃ rest, Spec.accepted [] t = Spec.delivered t ++ rest ∧ rest.length = s.ring.dataSize ∧ rest.length ≤ storage.length := by
  obtain ⟨a, h1, h2⟩ := simulate c storage.length hv ops _ _ (create_rep c storage) s t h
  refine ⟨a.q, ?_, h2.len.symm, h2.le⟩
  have := trace_lossless c _ _ _ t h1 hc hk (by intro b h; cases h) [] (by intro b h; cases h)
  simpa [Spec.St.init] using this

/-- C10, end of data: if the mark is set while no `Process` is in progress, then once a `Read` has signalled the end of data, less than one
output packet is stored and nothing is ever offered again (until `Clear`). -/
theorem databuffer_eod_is_final (c : Config) (storage : List α) (hv : c.Valid storage.length) (ops ops' : List (Op α ε)) (s s1 s2 : Sys α ε)
    (t t1 t2 : List (Event α ε)) (e : Event α ε) (h : run c storage ops = some (s, t)) (hw : s.writer = none)
    (h1 : step c s .endOfData = some (s1, .done)) (h2 : runFrom c s1 ops' = some (s2, t1 ++ e :: t2))
    (hc : .clear ∉ (t1 ++ e :: t2).map (·.op)) (he : e.out = .gotEod) :
    e.dataSize < c.outputPacketSize ∧ ∀ b, .offered b ∉ t2.map (·.out) := by
  obtain ⟨a, _, ra⟩ := simulate c storage.length hv ops _ _ (create_rep c storage) s t h
  obtain ⟨a1, ra1, st1⟩ := step_sim c storage.length hv s a ra .endOfData s1 .done h1
  obtain ⟨a2, tr, _⟩ := simulate c storage.length hv ops' s1 a1 ra1 s2 _ h2
  have haw : a.w = none := by
    have := ra.writer; rw [hw] at this
    cases hx : a.w with
    | none => rfl
    | some b => rw [hx] at this; exact this.elim
  have h11 : a1.eod = true ∧ a1.w = none := by cases st1; exact ⟨rfl, haw⟩
  obtain ⟨m, tr1, tr2⟩ := trace_append c _ t1 (e :: t2) a1 a2 tr
  simp only [List.map_append, List.map_cons, List.mem_append, List.mem_cons, not_or] at hc
  obtain ⟨m1, m2, _, _⟩ := trace_eod c _ a1 m t1 tr1 hc.1 h11.1 h11.2
  cases tr2 with
  | @cons _ m' _ _ _ hst hds hfin ht =>
    rw [he] at hst
    obtain ⟨op, out, ds, fin⟩ := e
    simp only at hst he hds hc
    have hmm : m' = m ∧ m.q.length < c.outputPacketSize := by cases hst; exact ⟨rfl, by assumption⟩
    obtain ⟨rfl, hlt⟩ := hmm
    refine ⟨by simp only; omega, fun b hb => ?_⟩
    obtain ⟨_, _, _, hoff⟩ := trace_eod c _ m' a2 t2 ht hc.2.2 m1 m2
    obtain ⟨j1, j2, j3⟩ := hoff b hb
    have : b.length < c.outputPacketSize := by omega
    rw [Nat.mod_eq_of_lt this] at j3
    exact j2 (List.eq_nil_of_length_eq_zero j3)

end

/-! Non-vacuity. -/
def cfg : Config := ⟨2, 3, 0, false⟩

def demo : List (Op Nat Unit) :=
  [.process [1, 2, 3, 4], .copy, .pushed, .read, .process [5, 6], .consumed (some 3), .copy, .pushed, .process [7, 8, 9, 10], .copy,
   .read, .consumed none, .read, .pushed, .consumed (some 3), .endOfData, .read, .process [1, 1]]

example : cfg.Valid 6 := by decide +kernel

example : (run cfg [0, 0, 0, 0, 0, 0] demo).map (fun r => (Spec.accepted [] r.2, Spec.delivered r.2, r.2.getLast?.map (·.out))) =
    some ([1, 2, 3, 4, 5, 6, 7, 8], [1, 2, 3, 4, 5, 6], some .refused) := by decide +kernel

/-- The hypotheses of `databuffer_eod_is_final` are met: one byte of an incomplete packet remains when the end is signalled. -/
example : ∃ s t s1 s2 t1 e t2, run (⟨1, 2, 0, false⟩ : Config) [0, 0] [.process [7, 8], .copy, .pushed] = some (s, t) ∧ s.writer = none ∧
    step (⟨1, 2, 0, false⟩ : Config) s .endOfData = some (s1, .done) ∧
    runFrom (ε := Unit) (⟨1, 2, 0, false⟩ : Config) s1 [.read, .consumed (some 2), .read, .read] = some (s2, t1 ++ e :: t2) ∧
    e.out = .gotEod ∧ t2.length = 1 :=
  ⟨⟨⟨[7, 8], 0, 0, false⟩, false, none, none, none⟩,
   [⟨.process [7, 8], .inProgress, 0, false⟩, ⟨.copy, .done, 0, false⟩, ⟨.pushed, .returned 2, 2, false⟩],
   ⟨⟨[7, 8], 0, 0, false⟩, true, none, none, none⟩, ⟨⟨[7, 8], 0, 0, true⟩, true, none, none, none⟩,
   [⟨.read, .offered [7, 8], 2, true⟩, ⟨.consumed (some 2), .seen [7, 8], 0, true⟩], ⟨.read, .gotEod, 0, true⟩, [⟨.read, .gotEod, 0, true⟩],
   by decide +kernel, by decide +kernel, by decide +kernel, by decide +kernel, by decide +kernel, by decide +kernel⟩

/-- Boundary: `EndOfData` does not take the write guard, so when it overlaps a `Process` call of another producer the end of data is
signalled first and data is delivered after it. -/
theorem eod_overtakes_process_in_progress :
    (run (⟨1, 1, 0, false⟩ : Config) [0, 0] ([.process [7], .endOfData, .read, .copy, .pushed, .read] : List (Op Nat Unit))).map
      (fun r => r.2.map (·.out)) = some [.inProgress, .done, .gotEod, .done, .returned 1, .offered [7]] := by decide +kernel

/-- Boundary: with a required free space close to the storage size both sides can wait for each other: one byte of an incomplete output
packet is stored, the reader waits for more, the producer waits for room. -/
theorem required_free_space_can_deadlock :
    (⟨1, 2, 4, false⟩ : Config).Valid 4 ∧
    (run (⟨1, 2, 4, false⟩ : Config) [0, 0, 0, 0] ([.process [7], .copy, .pushed, .read, .process [8]] : List (Op Nat Unit))).map
      (fun r => r.2.map (·.out)) = some [.inProgress, .done, .returned 1, .waiting, .returned 0] := by decide +kernel

end Verif.DataBuffer
