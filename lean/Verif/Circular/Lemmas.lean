import Verif.Ring.Lemmas
import Verif.Circular.Spec
set_option linter.unusedSectionVars false
namespace Verif.Circular
open Verif.Ring
section
variable {α : Type}

theorem getFree_eq (c : Circ α) (h : c.ring.Inv) : c.getFree = c.ring.storageSize - c.ring.dataSize := by
  obtain ⟨⟨st, wo, ro, cg⟩, l, d⟩ := c
  obtain ⟨h1, h2, h3, h4, h5, h6⟩ := h
  simp only [Circ.getFree, Ring.storageSize, Ring.dataSize] at *
  cases cg <;> simp only [Bool.false_eq_true, ↓reduceIte, forall_const, false_implies, reduceCtorEq] at * <;> omega

theorem doPush_ok (r : Ring α) (h : r.Inv) (d : List α) (hd : d.length ≤ r.writeSize) :
    ∃ r', Circ.doPush r d = .ok r' ∧ r'.Inv ∧ r'.contents = r.contents ++ d ∧ r'.storageSize = r.storageSize ∧
      r'.readOffset = r.readOffset ∧ r.readSize ≤ r'.readSize ∧
      r'.contiguous = (if r.writeOffset + d.length = r.storageSize then !r.contiguous else r.contiguous) ∧
      r'.writeOffset = (if r.writeOffset + d.length = r.storageSize then 0 else r.writeOffset + d.length) := by
  have hfit := Ring.writeSize_fits r h
  obtain ⟨c1, c2⟩ := Ring.splice_contents r h d hd
  have hl := length_splice r.storage r.writeOffset d (by unfold Ring.storageSize at hfit; omega)
  have hss : ({ r with storage := splice r.storage r.writeOffset d } : Ring α).storageSize = r.storageSize := by
    unfold Ring.storageSize; exact hl
  have hws : ({ r with storage := splice r.storage r.writeOffset d } : Ring α).writeSize = r.writeSize := by
    unfold Ring.writeSize Ring.storageSize; simp only [hl]
  have hrs : ({ r with storage := splice r.storage r.writeOffset d } : Ring α).readSize = r.readSize := by
    unfold Ring.readSize Ring.storageSize; simp only [hl]
  refine ⟨({ r with storage := splice r.storage r.writeOffset d } : Ring α).advanceWrite d.length, ?_, ?_, ?_, ?_, ?_, ?_, ?_, ?_⟩
  · unfold Circ.doPush; rw [if_pos (by omega)]
  · exact Ring.advanceWrite_inv _ c2 _ (by rw [hws]; exact hd)
  · rw [Ring.advanceWrite_contents _ c2 _ (by rw [hws]; exact hd), c1,
      slice_splice_self _ _ _ (by unfold Ring.storageSize at hfit; omega)]
  · unfold Ring.storageSize; rw [Ring.advanceWrite_storage]; exact hl
  · rw [Ring.advanceWrite_readOffset]
  · have := Ring.advanceWrite_readSize _ c2 d.length (by rw [hws]; exact hd)
    rw [hrs] at this; exact this
  · unfold Ring.advanceWrite; rw [hss]; split <;> rfl
  · unfold Ring.advanceWrite; rw [hss]; split <;> rfl

theorem pushChecked_ok (c : Circ α) (h : c.ring.Inv) (d : List α) (hd : d.length ≤ c.ring.storageSize - c.ring.dataSize) :
    ∃ r', c.pushChecked d = .ok { c with ring := r' } ∧ r'.Inv ∧ r'.contents = c.ring.contents ++ d ∧
      r'.storageSize = c.ring.storageSize ∧ r'.readOffset = c.ring.readOffset ∧ c.ring.readSize ≤ r'.readSize := by
  obtain ⟨r, l, dc⟩ := c
  simp only at h hd
  have h1 := h.contig; have h2 := h.wrapped; have h3 := h.ro; have h4 := h.wo; have h5 := h.roEnd; have h6 := h.woEnd
  unfold Circ.pushChecked
  simp only
  cases hc : r.contiguous
  · simp only [Bool.false_and, Bool.false_eq_true, ↓reduceIte]
    have := h2 hc
    have hw : d.length ≤ r.writeSize := by
      unfold Ring.dataSize at hd; unfold Ring.writeSize
      simp only [hc, Bool.false_eq_true, ↓reduceIte] at hd ⊢; omega
    obtain ⟨r', e1, e2, e3, e4, e5, e6, _, _⟩ := doPush_ok r h d hw
    exact ⟨r', by rw [e1], e2, e3, e4, e5, e6⟩
  · simp only [Bool.true_and, decide_eq_true_eq]
    have := h1 hc
    have hws : r.writeSize = r.storageSize - r.writeOffset := by unfold Ring.writeSize; simp [hc]
    by_cases ht : r.storageSize - r.writeOffset < d.length
    · rw [if_pos ht]
      have hl1 : (d.take (r.storageSize - r.writeOffset)).length = r.storageSize - r.writeOffset := by
        rw [List.length_take]; omega
      obtain ⟨r1, e1, e2, e3, e4, e5, e6, e7, e8⟩ := doPush_ok r h (d.take (r.storageSize - r.writeOffset)) (by omega)
      rw [if_pos (by omega)] at e7 e8
      have hds : r.dataSize = r.writeOffset - r.readOffset := by unfold Ring.dataSize; simp [hc]
      have hw1 : r1.writeSize = r.readOffset := by
        unfold Ring.writeSize; rw [e7, e5, e8, hc]; simp
      obtain ⟨r2, f1, f2, f3, f4, f5, f6, _, _⟩ := doPush_ok r1 e2 (d.drop (r.storageSize - r.writeOffset))
        (by rw [hw1, List.length_drop]; omega)
      refine ⟨r2, by rw [e1]; simp only; rw [f1], f2, ?_, by rw [f4, e4], by rw [f5, e5], Nat.le_trans e6 f6⟩
      rw [f3, e3, List.append_assoc, List.take_append_drop]
    · rw [if_neg ht]
      obtain ⟨r', e1, e2, e3, e4, e5, e6, _, _⟩ := doPush_ok r h d (by omega)
      exact ⟨r', by rw [e1], e2, e3, e4, e5, e6⟩

theorem releaseData_ok (c : Circ α) (h : c.ring.Inv) (n : Nat) (hn : n ≤ c.ring.dataSize) :
    ∃ r', c.releaseData n = { c with ring := r', locked := 0 } ∧ r'.Inv ∧ r'.contents = c.ring.contents.drop n ∧
      r'.storageSize = c.ring.storageSize := by
  obtain ⟨r, l, dc⟩ := c
  simp only at h hn
  have h1 := h.contig; have h2 := h.wrapped; have h3 := h.ro; have h4 := h.wo; have h5 := h.roEnd; have h6 := h.woEnd
  unfold Circ.releaseData
  simp only
  cases hc : r.contiguous
  · simp only [Bool.false_or, decide_eq_true_eq]
    have hrs : r.readSize = r.storageSize - r.readOffset := by unfold Ring.readSize; simp [hc]
    have hds : r.dataSize = r.storageSize - r.readOffset + r.writeOffset := by unfold Ring.dataSize; simp [hc]
    by_cases ht : n ≤ r.storageSize - r.readOffset
    · rw [if_pos ht]
      exact ⟨_, rfl, Ring.advanceRead_inv r h n (by omega), Ring.advanceRead_contents r h n (by omega),
        by unfold Ring.storageSize; rw [Ring.advanceRead_storage]⟩
    · rw [if_neg ht]
      have i1 := Ring.advanceRead_inv r h (r.storageSize - r.readOffset) (by omega)
      have c1 := Ring.advanceRead_contents r h (r.storageSize - r.readOffset) (by omega)
      have e : r.advanceRead (r.storageSize - r.readOffset) = { r with readOffset := 0, contiguous := true } := by
        unfold Ring.advanceRead; rw [if_pos (by omega), hc]; rfl
      have hw : n - (r.storageSize - r.readOffset) ≤ (r.advanceRead (r.storageSize - r.readOffset)).readSize := by
        rw [e]; unfold Ring.readSize; simp only [↓reduceIte]; omega
      refine ⟨_, rfl, Ring.advanceRead_inv _ i1 _ hw, ?_, by unfold Ring.storageSize; rw [Ring.advanceRead_storage, Ring.advanceRead_storage]⟩
      rw [Ring.advanceRead_contents _ i1 _ hw, c1, List.drop_drop]
      congr 1; omega
  · simp only [Bool.true_or, ↓reduceIte]
    have hrs : r.readSize = r.dataSize := by unfold Ring.readSize Ring.dataSize; simp [hc]
    exact ⟨_, rfl, Ring.advanceRead_inv r h n (by omega), Ring.advanceRead_contents r h n (by omega),
      by unfold Ring.storageSize; rw [Ring.advanceRead_storage]⟩

/-- The concrete state represents the queue `q` and the reserved bytes `b`. -/
structure Rep (dc : Bool) (cap : Nat) (s : Sys α) (q : List α) (b : Option (List α)) : Prop where
  inv : s.circ.ring.Inv
  discard : s.circ.discard = dc
  cap : s.circ.ring.storageSize = cap
  contents : s.circ.ring.contents = q
  held : match s.held, b with
    | none, none => s.circ.locked = 0
    | some (off, len), some b => len = s.circ.locked ∧ (len ≠ 0 → off = s.circ.ring.readOffset) ∧ len ≤ s.circ.ring.readSize ∧
        b = q.take len ∧ b.length = len
    | _, _ => False

theorem Rep.len {dc : Bool} {cap : Nat} {s : Sys α} {q : List α} {b} (h : Rep dc cap s q b) : s.circ.ring.dataSize = q.length := by
  rw [← h.contents, Ring.length_contents _ h.inv]

theorem Rep.shows {dc : Bool} {cap : Nat} {s : Sys α} {q : List α} {b} (h : Rep dc cap s q b) (op : Op α) (out : Out α) :
    Spec.Fifo.Shows cap q ⟨op, out, s.circ.getSize, s.circ.getFree, s.circ.getAllData⟩ := by
  refine ⟨h.contents, h.len, ?_⟩
  simp only
  rw [getFree_eq _ h.inv, h.cap, h.len]

theorem Rep.le {dc : Bool} {cap : Nat} {s : Sys α} {q : List α} {b} (h : Rep dc cap s q b) : q.length ≤ cap := by
  rw [← h.len, ← h.cap]; exact Ring.dataSize_le _ h.inv

theorem step_sim (dc : Bool) (cap : Nat) (s : Sys α) (q : List α) (b) (hr : Rep dc cap s q b) (op : Op α) :
    step s op = none ∨ ∃ s' out q' b', step s op = some (s', out) ∧ Rep dc cap s' q' b' ∧
      ∀ t, Spec.Fifo dc cap q' b' t →
        Spec.Fifo dc cap q b (⟨op, out, s'.circ.getSize, s'.circ.getFree, s'.circ.getAllData⟩ :: t) := by
  have hlen := hr.len
  have hle := hr.le
  have hfree : s.circ.getFree = cap - q.length := by rw [getFree_eq _ hr.inv, hr.cap, hlen]
  -- the reserved bytes are empty iff nothing is locked
  have hlock : b.getD [] = [] ↔ s.circ.locked = 0 := by
    have := hr.held
    cases hh : s.held with
    | none => cases b with
      | none => rw [hh] at this; simp only at this; simp [this]
      | some x => rw [hh] at this; exact this.elim
    | some x =>
      obtain ⟨off, len⟩ := x
      cases b with
      | none => rw [hh] at this; exact this.elim
      | some y =>
        rw [hh] at this
        obtain ⟨e1, _, _, _, e5⟩ := this
        simp only [Option.getD_some]
        rw [← e1, ← e5]; exact List.length_eq_zero_iff.symm
  have hdc := hr.discard
  cases op with
  | push d =>
    right
    by_cases hbig : s.circ.getFree < d.length
    · have hbig' : cap < q.length + d.length := by omega
      cases hd : s.circ.discard with
      | false =>
        have hs : step s (.push d) = some (s, .failed .full) := by
          simp only [step, Circ.push, Circ.checkDataSize]; rw [if_pos hbig, hd]; simp
        refine ⟨s, _, q, b, hs, hr, fun t ht => ?_⟩
        have : dc = false := by rw [← hdc, hd]
        subst this
        exact ⟨hbig', rfl, by simp, hr.shows _ _, ht⟩
      | true =>
        have hdc' : dc = true := by rw [← hdc, hd]
        subst hdc'
        by_cases hl : s.circ.locked = 0
        · -- discard the oldest bytes
          have hcap := hr.cap
          obtain ⟨r1, e1, e2, e3, e4⟩ := releaseData_ok s.circ hr.inv (min d.length s.circ.ring.storageSize - s.circ.getFree) (by omega)
          have hlen1 : r1.dataSize = q.length - (min d.length cap - (cap - q.length)) := by
            rw [← Ring.length_contents _ e2, e3, List.length_drop, hr.contents, hcap, hfree]
          have hdl : (d.drop (d.length - min d.length s.circ.ring.storageSize)).length = min d.length cap := by
            rw [List.length_drop, hcap]; omega
          obtain ⟨r2, f1, f2, f3, f4, f5, f6⟩ := pushChecked_ok ({ s.circ with ring := r1, locked := 0 } : Circ α) e2
            (d.drop (d.length - min d.length s.circ.ring.storageSize)) (by simp only; rw [hlen1, e4, hdl, hcap]; omega)
          simp only at f1 f3 f4
          have hq : Spec.newest cap (q ++ d) = q.drop (min d.length cap - (cap - q.length)) ++ d.drop (d.length - min d.length cap) := by
            unfold Spec.newest
            rw [List.drop_append]
            congr 1
            · rw [List.length_append]
              by_cases hx : d.length ≤ cap
              · congr 1; omega
              · rw [List.drop_eq_nil_of_le (by omega), List.drop_eq_nil_of_le (by omega)]
            · rw [List.length_append]; congr 1; omega
          have hs : step s (.push d) = some (⟨{ s.circ with ring := r2, locked := 0 }, s.held⟩, .done) := by
            simp only [step, Circ.push, Circ.checkDataSize]
            rw [if_pos hbig, hd]; simp only [↓reduceIte]; rw [if_pos hl, e1]
            simp only; rw [f1]
            simp [hd]
          have hr' : Rep true cap ⟨{ s.circ with ring := r2, locked := 0 }, s.held⟩ (Spec.newest cap (q ++ d)) b := by
            refine ⟨f2, hd, by simp only; rw [f4, e4, hcap], ?_, ?_⟩
            · simp only; rw [f3, e3, hr.contents, hq, hcap, hfree]
            · have := hr.held
              cases hh : s.held with
              | none => cases b with
                | none => simp
                | some x => rw [hh] at this; exact this.elim
              | some x =>
                obtain ⟨off, len⟩ := x
                cases b with
                | none => rw [hh] at this; exact this.elim
                | some y =>
                  rw [hh] at this
                  obtain ⟨g1, _, _, g4, g5⟩ := this
                  have : len = 0 := by rw [g1, hl]
                  subst this
                  refine ⟨rfl, by simp, Nat.zero_le _, ?_, g5⟩
                  rw [List.take_zero]; exact List.length_eq_zero_iff.mp g5
          refine ⟨_, _, _, b, hs, hr', fun t ht => Or.inr ⟨hbig', rfl, hlock.mpr hl, hr'.shows _ _, ht⟩⟩
        · have hs : step s (.push d) = some (s, .failed .locked) := by
            simp only [step, Circ.push, Circ.checkDataSize]; rw [if_pos hbig, hd]; simp only [↓reduceIte]; rw [if_neg hl]
          refine ⟨s, _, q, b, hs, hr, fun t ht => ?_⟩
          exact ⟨hbig', rfl, fun _ h => hl (hlock.mp h), hr.shows _ _, ht⟩
    · obtain ⟨r2, f1, f2, f3, f4, f5, f6⟩ := pushChecked_ok s.circ hr.inv d (by rw [hr.cap, hlen]; omega)
      have hs : step s (.push d) = some (⟨{ s.circ with ring := r2 }, s.held⟩, .done) := by
        simp only [step, Circ.push, Circ.checkDataSize]; rw [if_neg hbig]; simp only; rw [f1]
      have hr' : Rep dc cap ⟨{ s.circ with ring := r2 }, s.held⟩ (q ++ d) b := by
        refine ⟨f2, hdc, by simp only; rw [f4, hr.cap], by simp only; rw [f3, hr.contents], ?_⟩
        have := hr.held
        cases hh : s.held with
        | none => cases b with
          | none => rw [hh] at this; exact this
          | some x => rw [hh] at this; exact this.elim
        | some x =>
          obtain ⟨off, len⟩ := x
          cases b with
          | none => rw [hh] at this; exact this.elim
          | some y =>
            rw [hh] at this
            obtain ⟨g1, g2, g3, g4, g5⟩ := this
            refine ⟨g1, fun hx => by simp only; rw [f5]; exact g2 hx, Nat.le_trans g3 f6, ?_, g5⟩
            rw [List.take_append_of_le_length, g4]
            have := Ring.readSize_le _ hr.inv; omega
      refine ⟨_, _, _, b, hs, hr', fun t ht => Or.inl ⟨by omega, hr'.shows _ _, ht⟩⟩
  | pop n =>
    -- a successful reservation
    have hpop : s.circ.locked = 0 → s.circ.pop n =
        .ok ({ s.circ with locked := min n s.circ.ring.readSize }, s.circ.ring.readOffset, min n s.circ.ring.readSize) := by
      intro hl
      unfold Circ.pop Ring.readSize; rw [if_pos hl]; split <;> rfl
    have hsl := Ring.slice_read _ hr.inv (min n s.circ.ring.readSize) (Nat.min_le_right _ _)
    rw [hr.contents] at hsl
    have hrl := Ring.readSize_le _ hr.inv
    have hlen' : (q.take (min n s.circ.ring.readSize)).length = min n s.circ.ring.readSize := by
      rw [List.length_take]; omega
    have hr' : Rep dc cap ⟨{ s.circ with locked := min n s.circ.ring.readSize }, some (s.circ.ring.readOffset, min n s.circ.ring.readSize)⟩
        q (some (q.take (min n s.circ.ring.readSize))) :=
      ⟨hr.inv, hdc, hr.cap, hr.contents, rfl, fun _ => rfl, Nat.min_le_right _ _, rfl, hlen'⟩
    cases hh : s.held with
    | none =>
      have hl : s.circ.locked = 0 := by
        have := hr.held; rw [hh] at this
        cases b with
        | none => exact this
        | some x => exact this.elim
      right
      refine ⟨_, _, q, _, by simp only [step, hh]; rw [hpop hl], hr', fun t ht => ?_⟩
      simp only
      rw [hsl]
      refine ⟨hlock.mpr hl, List.take_prefix _ _, by rw [hlen']; omega, ?_, hr'.shows _ _, ht⟩
      intro h0
      rw [h0] at hlen'
      by_cases hn : n = 0
      · exact Or.inr hn
      · left
        have h0' : s.circ.ring.readSize = 0 := by simp only [List.length_nil] at hlen'; omega
        have := Ring.readSize_zero _ hr.inv h0'
        rw [hlen] at this; exact List.eq_nil_of_length_eq_zero this
    | some x =>
      obtain ⟨off, len⟩ := x
      cases len with
      | zero => left; simp only [step, hh]
      | succ len =>
        right
        have hl : s.circ.locked ≠ 0 := by
          have := hr.held; rw [hh] at this
          cases b with
          | none => exact this.elim
          | some x => have := this.1; omega
        refine ⟨s, .failed .locked, q, b, ?_, hr, fun t ht => ⟨fun h => hl (hlock.mp h), rfl, hr.shows _ _, ht⟩⟩
        simp only [step, hh, Circ.pop]; rw [if_neg hl]
  | release =>
    cases hh : s.held with
    | none => left; simp only [step, hh]
    | some x =>
      obtain ⟨off, len⟩ := x
      have hheld := hr.held
      rw [hh] at hheld
      cases b with
      | none => exact hheld.elim
      | some y =>
        obtain ⟨g1, g2, g3, g4, g5⟩ := hheld
        right
        have hrl := Ring.readSize_le _ hr.inv
        obtain ⟨r1, e1, e2, e3, e4⟩ := releaseData_ok s.circ hr.inv len (by omega)
        have hbytes : slice s.circ.ring.storage off len = y := by
          by_cases h0 : len = 0
          · subst h0
            rw [List.length_eq_zero_iff.mp g5]; simp [slice]
          · rw [g2 h0, Ring.slice_read _ hr.inv len g3, hr.contents, g4]
        have hr' : Rep dc cap ⟨{ s.circ with ring := r1, locked := 0 }, none⟩ (q.drop len) none :=
          ⟨e2, hdc, by simp only; rw [e4, hr.cap], by simp only; rw [e3, hr.contents], rfl⟩
        refine ⟨_, _, _, none, by simp only [step, hh]; rw [e1], hr', fun t ht => ?_⟩
        simp only
        rw [hbytes]
        exact ⟨rfl, by rw [g5]; exact hr'.shows _ _, by rw [g5]; exact ht⟩

theorem simulate (dc : Bool) (cap : Nat) (ops : List (Op α)) :
    ∀ (s : Sys α) (q : List α) (b), Rep dc cap s q b → ∀ s' t, runFrom s ops = some (s', t) →
      Spec.Fifo dc cap q b t ∧ ∃ q' b', Rep dc cap s' q' b' := by
  induction ops with
  | nil =>
    intro s q b hr s' t h
    simp only [runFrom, Option.some.injEq, Prod.mk.injEq] at h
    rw [← h.1, ← h.2]
    exact ⟨trivial, q, b, hr⟩
  | cons op ops ih =>
    intro s q b hr s' t h
    simp only [runFrom] at h
    rcases step_sim dc cap s q b hr op with hn | ⟨s1, out, q', b', h1, h2, h3⟩
    · rw [hn] at h; cases h
    · rw [h1] at h
      simp only at h
      cases hrun : runFrom s1 ops with
      | none => rw [hrun] at h; cases h
      | some r =>
        obtain ⟨s2, t2⟩ := r
        rw [hrun] at h
        simp only [Option.some.injEq, Prod.mk.injEq] at h
        obtain ⟨i1, i2⟩ := ih s1 q' b' h2 s2 t2 hrun
        rw [← h.1, ← h.2]
        exact ⟨h3 t2 i1, i2⟩

theorem create_rep (dc : Bool) (storage : List α) : Rep dc storage.length ⟨Circ.create dc storage, none⟩ [] none :=
  ⟨Ring.create_inv _, rfl, rfl, Ring.create_contents _, rfl⟩

end
end Verif.Circular
