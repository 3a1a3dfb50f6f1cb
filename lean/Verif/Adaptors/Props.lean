import Verif.Common
import Verif.Adaptors.Lemmas
/- Property theorems for the data adaptors. -/
namespace Verif.Adaptors
section
variable {α : Type}

/-- C15, alignment: if the downstream consumer accepts aligned amounts, every block it is offered has an aligned size. -/
theorem aligner_blocks_aligned (alignment : Nat) (useBuffer : Bool) (src : List α) (os : List Offer)
    (hk : ∀ o ∈ os, ∀ k ∈ o.env, k % alignment = 0) :
    ∀ b ∈ (alignRun alignment useBuffer ⟨src, [], [], []⟩ os).offered, b.length % alignment = 0 :=
  align_run_offered alignment useBuffer os _ hk (by simp)

/-- C15, stream, proved part: for every source, chunking and acceptance pattern, unless a call that flushes the buffered block is cancelled:
what the consumer got, the buffered remainder (shorter than the alignment) and what the source still has are together the source.
Missing: cancellation during the flush, for which the claim is false (`aligner_loses_block_violated`). -/
theorem aligner_preserves_stream_partial (alignment : Nat) (ha : alignment ≠ 0) (useBuffer : Bool) (src : List α) (os : List Offer)
    (hu : Spec.Uncancelled alignment useBuffer ⟨src, [], [], []⟩ os) :
    (alignRun alignment useBuffer ⟨src, [], [], []⟩ os).accepted ++ (alignRun alignment useBuffer ⟨src, [], [], []⟩ os).buffer ++
      (alignRun alignment useBuffer ⟨src, [], [], []⟩ os).src = src ∧
    (alignRun alignment useBuffer ⟨src, [], [], []⟩ os).buffer.length < alignment := by
  have := align_run alignment (by omega) useBuffer os ⟨src, [], [], []⟩ (by simp only [List.length_nil]; omega) hu
  simpa using this

/-- C16, taking: for every source, chunking and acceptance pattern, if no `Read` of the source throws: what the consumer got is a prefix of the
source of at most `n` bytes; if the taker does not discard the rest, the source lost exactly that prefix; and once the taker is finished,
the consumer got exactly the first `n` bytes (everything, if the source had less). -/
theorem take_exact_partial (discardRest : Bool) (src : List α) (n : Nat) (ops : List TakeOp) (s : TakeSys α)
    (h : takeRun discardRest (takeInit src n) ops = some s) (ht : .readThrow ∉ ops) :
    s.delivered <+: src ∧ s.delivered.length ≤ n ∧ (discardRest = false → s.delivered ++ s.src = src) ∧
    (s.session = none → s.left = 0 → s.delivered = src.take n) := by
  have hi := takeRun_inv discardRest src n ops (takeInit src n) s ht
    ⟨by simp [takeInit], by simp [takeInit], fun _ => by simp [takeInit], Or.inl (by simp [takeInit])⟩ h
  refine ⟨⟨src.drop s.delivered.length, ?_⟩, hi.le, fun hd => ?_, fun h1 h2 => ?_⟩
  · conv => lhs; lhs; rw [hi.pre]
    rw [List.take_append_drop]
  · rw [hi.src (Or.inl hd)]
    conv => lhs; lhs; rw [hi.pre]
    rw [List.take_append_drop]
  · have hm := hi.main
    rw [h1] at hm
    simp only [Option.getD_none] at hm
    rcases hm with hm | ⟨_, hm⟩
    · have : s.delivered.length = n := by omega
      rw [← this]; exact hi.pre
    · have hle := hi.le
      rw [hm] at hle ⊢
      rw [List.take_of_length_le hle]

/-- C16, taking: the consumer is told of the end of data once for every time the source reported it, and only when the source had nothing left. -/
theorem take_end_of_data (discardRest : Bool) (src : List α) (n : Nat) (ops : List TakeOp) (s : TakeSys α)
    (h : takeRun discardRest (takeInit src n) ops = some s) : s.eod = ops.count .endOfData ∧ (s.eod ≠ 0 → s.src = []) := by
  have key : ∀ (ops : List TakeOp) (s0 : TakeSys α), takeRun discardRest s0 ops = some s → s.eod = s0.eod + ops.count .endOfData ∧
      (s0.src = [] ∨ s0.eod = s.eod ∨ s.src = []) ∧ (s0.src = [] → s.src = []) := by
    intro ops
    induction ops with
    | nil => intro s0 h; simp only [takeRun] at h; cases h; exact ⟨by simp, Or.inr (Or.inl rfl), id⟩
    | cons op r ih =>
      intro s0 h
      simp only [takeRun] at h
      split at h
      · cases h
      · next s1 hs =>
        obtain ⟨h1, h2, h3⟩ := ih s1 h
        cases op with
        | readBegin =>
          simp only [takeStep] at hs
          split at hs
          · cases hs
          · cases hs; exact ⟨by simpa using h1, h2, h3⟩
        | offer size k =>
          simp only [takeStep] at hs
          split at hs
          · cases hs
          · cases hs
            refine ⟨by simpa using h1, ?_, fun he => h3 (by simp [he])⟩
            rcases h2 with h2 | h2 | h2
            · exact Or.inr (Or.inr (h3 h2))
            · exact Or.inr (Or.inl h2)
            · exact Or.inr (Or.inr h2)
        | endOfData =>
          simp only [takeStep] at hs
          split at hs
          · cases hs
          · split at hs
            · next he => cases hs; exact ⟨by rw [h1, List.count_cons_self]; simp only []; omega, Or.inl he, h3⟩
            · cases hs
        | readEnd =>
          simp only [takeStep] at hs
          split at hs
          · cases hs
          · cases hs; exact ⟨by simpa using h1, h2, h3⟩
        | readThrow =>
          simp only [takeStep] at hs
          split at hs
          · cases hs
          · cases hs; exact ⟨by simpa using h1, h2, h3⟩
  obtain ⟨h1, h2, h3⟩ := key ops _ h
  refine ⟨by simpa [takeInit] using h1, fun hne => ?_⟩
  rcases h2 with h2 | h2 | h2
  · exact h3 h2
  · exact absurd (by rw [← h2]; rfl) hne
  · exact h2

example : (takeRun true (takeInit [1, 2, 3] 5) [.readBegin, .offer 3 3, .endOfData, .readEnd]).map (fun s => (s.delivered, s.eod)) = some ([1, 2, 3], 1) := by decide

/-- C16, skipping with `processRest`: for every source, chunking and acceptance pattern, unless cancelled: the consumer got, and the source
still has, exactly what follows the first `n` bytes (of the bytes skipped so far). -/
theorem skip_exact_partial (src : List α) (n : Nat) (os : List Offer) (hu : Spec.SkipUncancelled true ⟨src, n, []⟩ os) :
    (skipRun true ⟨src, n, []⟩ os).delivered ++ (skipRun true ⟨src, n, []⟩ os).src = src.drop (n - (skipRun true ⟨src, n, []⟩ os).left) ∧
    ((skipRun true ⟨src, n, []⟩ os).delivered ≠ [] → (skipRun true ⟨src, n, []⟩ os).left = 0) := by
  obtain ⟨h, _⟩ := skipRun_inv true src n os ⟨src, n, []⟩ ⟨Nat.le_refl n, by simp, fun _ => rfl⟩ (fun _ => hu)
  refine ⟨h.main, fun hd => ?_⟩
  apply Nat.eq_zero_of_not_pos
  intro hl
  exact hd (h.early hl)

/-- C16, skipping without `processRest`: nothing is delivered and the source is moved forward by exactly the bytes skipped, also when
cancelled. -/
theorem skip_only (src : List α) (n : Nat) (os : List Offer) :
    (skipRun false ⟨src, n, []⟩ os).delivered = [] ∧ (skipRun false ⟨src, n, []⟩ os).src = src.drop (n - (skipRun false ⟨src, n, []⟩ os).left) := by
  obtain ⟨h, h2⟩ := skipRun_inv false src n os ⟨src, n, []⟩ ⟨Nat.le_refl n, by simp, fun _ => rfl⟩ (fun hx => by cases hx)
  have h3 := h2 rfl
  refine ⟨h3, ?_⟩
  have := h.main
  rw [h3] at this
  exact this

end

/-- C15 is violated: if the token is cancelled when the buffered block becomes full, the block is cleared although it was not consumed
(DataAligner.h:61-62): the bytes 1 and 2 are claimed from the source and lost. -/
theorem aligner_loses_block_violated :
    alignRun 2 true (⟨[1, 2, 3], [], [], []⟩ : AlignSys Nat) [⟨1, [9]⟩, ⟨2, []⟩] = ⟨[3], [], [], []⟩ := by decide +kernel

/-- C16 is violated: if the source throws (e.g. on cancellation) after delivering, `_leftToTake` is not written back
(DataUtils.h:71-74) and a later `Read` delivers more than `n` bytes. -/
theorem taker_exceeds_violated :
    takeRun false (takeInit [1, 2] 1) [.readBegin, .offer 1 1, .readThrow, .readBegin, .offer 1 1, .readEnd] = some (⟨[], 0, none, [1, 2], 0⟩ : TakeSys Nat) := by
  decide +kernel

/-- C16 is violated: with `processRest` a cancelled call claims bytes the consumer did not accept (DataUtils.h:98-101): byte 3 is lost. -/
theorem skipper_loses_violated :
    skipRun true (⟨[1, 2, 3], 1, []⟩ : SkipSys Nat) [⟨3, [1]⟩, ⟨3, [9]⟩] = ⟨[], 0, [2]⟩ := by decide +kernel

/-! Non-vacuity. -/
example : alignRun 3 true (⟨[1, 2, 3, 4, 5, 6, 7, 8], [], [], []⟩ : AlignSys Nat) [⟨4, [3, 3]⟩, ⟨1, [3]⟩, ⟨3, [0, 3, 3]⟩] =
    ⟨[7, 8], [], [[1, 2, 3], [4, 5, 6], [4, 5, 6]], [1, 2, 3, 4, 5, 6]⟩ := by decide +kernel
example : Spec.Uncancelled 3 true (⟨[1, 2, 3, 4, 5, 6, 7, 8], [], [], []⟩ : AlignSys Nat) [⟨4, [3, 3]⟩, ⟨1, [3]⟩, ⟨3, [0, 3, 3]⟩] := by
  refine ⟨fun h => absurd rfl h, fun _ => by decide +kernel, fun _ => by decide +kernel, trivial⟩
example : takeRun false (takeInit [1, 2, 3, 4] 3) [.readBegin, .offer 2 1, .offer 3 9, .readEnd] = some (⟨[4], 0, none, [1, 2, 3], 0⟩ : TakeSys Nat) := by
  decide +kernel
example : skipRun true (⟨[1, 2, 3, 4, 5], 2, []⟩ : SkipSys Nat) [⟨1, [1]⟩, ⟨3, [1, 1, 1]⟩] = ⟨[5], 0, [3, 4]⟩ := by decide +kernel
example : Spec.SkipUncancelled true (⟨[1, 2, 3, 4, 5], 2, []⟩ : SkipSys Nat) [⟨1, [1]⟩, ⟨3, [1, 1, 1]⟩] :=
  ⟨by decide +kernel, by decide +kernel, trivial⟩

end Verif.Adaptors
