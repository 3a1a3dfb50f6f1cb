import Verif.Common
import Verif.PagedBuffer.SeqLemmas
/- Property theorems for `PagedBuffer`. -/
namespace Verif.PagedBuffer
section
variable {α : Type}

/-- C13. Every sequence of calls of a single-threaded client completes, and what the client sees (the bytes its consumers take, exceptions,
sizes) is exactly what the byte log `Spec.Call` allows. -/
theorem paged_buffer_is_log (c : Config) (hc : c.Valid) (xs : List (Call α)) :
    ∃ s r l, calls c Sys.create xs = some (s, r) ∧ r.map (·.1) = xs ∧ Spec.Calls c ⟨[], 0⟩ r l :=
  seq_calls hc xs Sys.create ⟨[], 0⟩ (SeqRep.create c hc)

/-- C13 under concurrency: for every interleaving of the sections of `Push`, `Read`, `Pop` and `Seek` the trace is allowed by `Spec.Step`:
delivered bytes are the pushed bytes at the position of the `Read`, until a `Read` disturbed by a `Pop` or `Seek` ends (`chaos`). -/
theorem paged_buffer_concurrent (c : Config) (hc : c.Valid) (ops : List (Op α)) (s : Sys α) (t : List (Event α)) (h : run c ops = some (s, t)) :
    ∃ a, Spec.Trace c Spec.St.init t a := by
  obtain ⟨a, h1, _⟩ := simulate c hc ops _ _ (create_rep c hc) s t h
  exact ⟨a, h1⟩

/-- C14, proved part: if no `Pop`/`Seek` takes effect during a `Read`, no `Read` is cancelled, consumers take whole chunks and `Seek` is not
used, then the blocks taken by the consumers lie at increasing, non-overlapping positions of the pushed stream: no byte is delivered
twice. Missing: `Pop` during `Read` and cancelled `Read`s, for which the claim is false (see the two theorems below). -/
theorem no_byte_twice_partial (c : Config) (hc : c.Valid) (ops : List (Op α)) (s : Sys α) (t : List (Event α)) (h : run c ops = some (s, t))
    (hcalm : Spec.calm false t) (hseek : ∀ n, .seek n ∉ t.map (·.op)) (hcan : .readEnd true ∉ t.map (·.op))
    (hk : ∀ k, .deliver k ∈ t.map (·.op) → k % c.chunkSize = 0) : Spec.Disjoint (Spec.pushed t) 0 (Spec.taken t) := by
  obtain ⟨a, h1, _⟩ := simulate c hc ops _ _ (create_rep c hc) s t h
  obtain ⟨h2, h3⟩ := trace_disjoint c t _ a h1 rfl (by intro p d k hx; simp [Spec.St.init] at hx) hcalm hseek hcan hk
  simp only [Spec.St.init, List.nil_append] at h2
  rw [h2] at h3
  exact h3

end

/-- C14 is violated by a `Pop` that drops a page while a `Read` is in its unlocked section: `_currentOffset` is shifted, so the check at line
112 fails, the cursor is not advanced and the bytes 5..8 the consumer took are delivered again. -/
theorem pop_during_read_redelivers_violated :
    ∃ s t, run (α := Nat) ⟨4, 1⟩ [.push [1, 2, 3, 4, 5, 6, 7, 8], .pagesDone, .read, .deliver 4, .readEnd false, .read, .deliver 4, .pop 4, .readEnd false,
        .read, .deliver 4] = some (s, t) ∧ Spec.taken t = [[1, 2, 3, 4], [5, 6, 7, 8], [5, 6, 7, 8]] :=
  ⟨⟨[[1, 2, 3, 4], [5, 6, 7, 8]], 1, 0, 0, 0, none, some ⟨1, 0, 0, some 4⟩⟩, _, by with_unfolding_all rfl, by decide +kernel⟩

/-- C14 is violated by cancellation: line 100 throws after the consumer has taken the bytes, the cursor is not advanced. -/
theorem cancelled_read_redelivers_violated :
    ∃ s t, run (α := Nat) ⟨4, 1⟩ [.push [1, 2, 3, 4], .pagesDone, .read, .deliver 4, .readEnd true, .read, .deliver 4] = some (s, t) ∧
      Spec.taken t = [[1, 2, 3, 4], [1, 2, 3, 4]] :=
  ⟨⟨[[1, 2, 3, 4]], 0, 0, 0, 0, none, some ⟨0, 0, 0, some 4⟩⟩, _, by with_unfolding_all rfl, by decide +kernel⟩

/-- A `Pop` during a `Read` can also lose data: `Pop(6)` during the `Read` of bytes 3 and 4 leaves `_currentOffset` numerically unchanged (it
now denotes byte 7), so the cursor is advanced past bytes 7 and 8, which are never delivered. -/
theorem pop_during_read_skips :
    ∃ s t, run (α := Nat) ⟨4, 1⟩ [.push [1, 2, 3, 4, 5, 6, 7, 8], .pagesDone, .read, .deliver 2, .readEnd false, .read, .deliver 2, .pop 6, .readEnd false,
        .size, .read] = some (s, t) ∧ (t.getLast?.map (·.out) = some .waiting ∧ (t.dropLast.getLast?.map (·.out)) = some (.size 2)) ∧
      Spec.taken t = [[1, 2], [3, 4]] :=
  ⟨⟨[[1, 2, 3, 4], [5, 6, 7, 8]], 1, 2, 4, 0, none, none⟩, _, by with_unfolding_all rfl, by decide +kernel, by decide +kernel⟩

/-- A `Read` overlapping a `Push` can take bytes of the tail page that are written but not yet accounted for; the unsigned subtraction at line
77 then underflows and the next `Read` throws the "Broken invariant" `LogicException`. -/
theorem read_overlapping_push_throws :
    ∃ s t, run (α := Nat) ⟨4, 1⟩ [.push [1, 2], .pagesDone, .read, .push [3, 4], .tailWritten, .deliver 4, .readEnd false, .read] = some (s, t) ∧
      t.getLast?.map (·.out) = some .broken :=
  ⟨⟨[[1, 2, 3, 4]], 0, 0, 4, 2, some (.tail [3, 4] [] true), none⟩, _, by with_unfolding_all rfl, by decide +kernel⟩

/-! Non-vacuity. -/
example : (⟨4, 2⟩ : Config).Valid := by unfold Config.Valid; decide

def demoCalls : List (Call Nat) := [.push [1, 2, 3], .read 9, .push [4, 5, 6, 7, 8, 9], .read 9, .read 9, .pop 4, .size, .seek 2, .read 9, .read 9, .pop 99]

example : (calls ⟨4, 2⟩ Sys.create demoCalls).map (fun r => r.2.map (fun x => (x.2.1, x.2.2))) =
    some [([], some .done), ([1, 2, 3], some .done), ([], some .done), ([3, 4], some .done), ([5, 6, 7, 8], some .done), ([], some .done), ([], some (.size 5)),
      ([], some .done), ([7, 8], some .done), ([], some .waiting), ([], some .outOfRange)] := by decide +kernel

def demo : List (Op Nat) :=
  [.push [1, 2, 3, 4, 5, 6], .pagesDone, .read, .push [7, 8, 9], .deliver 4, .tailWritten, .readEnd false, .tailDone, .pop 4, .read, .deliver 4, .pagesDone,
   .readEnd false]

example : ∃ s t, run ⟨4, 2⟩ demo = some (s, t) ∧ Spec.calm false t ∧ (∀ n, .seek n ∉ t.map (·.op)) ∧ .readEnd true ∉ t.map (·.op) ∧
    (∀ k, .deliver k ∈ t.map (·.op) → k % 2 = 0) ∧ Spec.taken t = [[1, 2, 3, 4], [5, 6, 7, 8]] :=
  ⟨⟨[[1, 2, 3, 4], [5, 6, 7, 8], [9]], 1, 0, 4, 3, none, none⟩, _, by with_unfolding_all rfl, by simp [Spec.calm], by simp, by simp,
    by simp, by decide +kernel⟩

end Verif.PagedBuffer
