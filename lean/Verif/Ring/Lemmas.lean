import Verif.Ring.Spec
set_option linter.unusedSectionVars false
namespace Verif.Ring
section
variable {α : Type}

theorem getElem?_slice (l : List α) (off n i : Nat) :
    (slice l off n)[i]? = if i < n then l[off + i]? else none := by
  simp [slice, List.getElem?_take, List.getElem?_drop]

theorem length_slice (l : List α) (off n : Nat) : (slice l off n).length = min n (l.length - off) := by
  simp [slice]

theorem length_splice (l : List α) (off : Nat) (d : List α) (h : off + d.length ≤ l.length) :
    (splice l off d).length = l.length := by
  simp [splice]; omega

theorem getElem?_splice (l : List α) (off : Nat) (d : List α) (h : off + d.length ≤ l.length) (i : Nat) :
    (splice l off d)[i]? = if i < off then l[i]? else if i < off + d.length then d[i - off]? else l[i]? := by
  unfold splice
  by_cases h1 : i < off
  · rw [List.getElem?_append_left (by simp; omega), List.getElem?_append_left (by simp; omega)]
    simp [h1, List.getElem?_take]
  · by_cases h2 : i < off + d.length
    · rw [List.getElem?_append_left (by simp; omega), List.getElem?_append_right (by simp; omega)]
      have : (l.take off).length = off := by simp; omega
      simp [h1, h2, this]
    · rw [List.getElem?_append_right (by simp; omega)]
      have : (l.take off ++ d).length = off + d.length := by simp; omega
      rw [this, List.getElem?_drop, if_neg h1, if_neg h2]
      congr 1; omega

namespace Ring

/-- closes the arithmetic goals below -/
macro "ring_fin" : tactic => `(tactic| (first
  | (constructor <;> simp only [storageSize, Bool.not_true, Bool.not_false, Bool.false_eq_true, ↓reduceIte, forall_const, false_implies, reduceCtorEq] <;> omega)
  | omega
  | (simp only [storageSize, Bool.not_true, Bool.not_false, Bool.false_eq_true, ↓reduceIte]; omega)))

structure Inv (r : Ring α) : Prop where
  contig : r.contiguous = true → r.readOffset ≤ r.writeOffset
  wrapped : r.contiguous = false → r.writeOffset ≤ r.readOffset
  ro : r.readOffset ≤ r.storageSize
  wo : r.writeOffset ≤ r.storageSize
  roEnd : r.readOffset = r.storageSize → r.storageSize = 0
  woEnd : r.writeOffset = r.storageSize → r.storageSize = 0

/-- The bytes stored, oldest first. -/
def contents (r : Ring α) : List α :=
  if r.contiguous then slice r.storage r.readOffset (r.writeOffset - r.readOffset)
  else slice r.storage r.readOffset (r.storageSize - r.readOffset) ++ slice r.storage 0 r.writeOffset

/-- Position in the storage of the `i`-th stored byte. -/
def pos (r : Ring α) (i : Nat) : Nat := if r.readOffset + i < r.storageSize then r.readOffset + i else r.readOffset + i - r.storageSize

theorem length_contents (r : Ring α) (h : r.Inv) : r.contents.length = r.dataSize := by
  have h1 := h.contig; have h2 := h.wrapped; have := h.ro; have := h.wo
  unfold contents dataSize storageSize at *
  cases hc : r.contiguous
  · have := h2 hc; simp only [Bool.false_eq_true, ↓reduceIte, List.length_append, length_slice, Nat.sub_zero]; omega
  · have := h1 hc; simp only [↓reduceIte, length_slice]; omega

theorem dataSize_le (r : Ring α) (h : r.Inv) : r.dataSize ≤ r.storageSize := by
  have h1 := h.contig; have h2 := h.wrapped; have := h.ro; have := h.wo
  unfold dataSize
  cases hc : r.contiguous
  · have := h2 hc; simp only [Bool.false_eq_true, ↓reduceIte]; omega
  · have := h1 hc; simp only [↓reduceIte]; omega

theorem getElem?_contents (r : Ring α) (h : r.Inv) (i : Nat) :
    r.contents[i]? = if i < r.dataSize then r.storage[r.pos i]? else none := by
  have h1 := h.contig; have h2 := h.wrapped; have h3 := h.ro; have h4 := h.wo
  unfold contents dataSize pos storageSize at *
  cases hc : r.contiguous
  · have := h2 hc
    simp only [Bool.false_eq_true, ↓reduceIte]
    by_cases hi : i < r.storage.length - r.readOffset
    · rw [List.getElem?_append_left (by rw [length_slice]; omega), getElem?_slice]
      rw [if_pos hi, if_pos (by omega), if_pos (by omega)]
    · rw [List.getElem?_append_right (by rw [length_slice]; omega), getElem?_slice, length_slice]
      rw [if_neg (show ¬ r.readOffset + i < r.storage.length by omega)]
      have e : 0 + (i - min (r.storage.length - r.readOffset) (r.storage.length - r.readOffset)) = r.readOffset + i - r.storage.length := by omega
      rw [e]
      by_cases h' : i < r.storage.length - r.readOffset + r.writeOffset
      · rw [if_pos (by omega), if_pos h']
      · rw [if_neg (by omega), if_neg h']
  · have := h1 hc
    simp only [↓reduceIte]
    rw [getElem?_slice]
    by_cases hi : i < r.writeOffset - r.readOffset
    · rw [if_pos hi, if_pos hi, if_pos (by omega)]
    · rw [if_neg hi, if_neg hi]

theorem create_inv (s : List α) : (create s).Inv := by
  constructor <;> simp only [create, storageSize, forall_const, Bool.true_eq_false, false_implies, reduceCtorEq] <;> omega

theorem create_contents (s : List α) : (create s).contents = [] := by
  simp [create, contents, slice]

theorem clear_inv (r : Ring α) : (clear r).Inv := by
  constructor <;> simp only [clear, storageSize, forall_const, Bool.true_eq_false, false_implies, reduceCtorEq] <;> omega

theorem clear_contents (r : Ring α) : (clear r).contents = [] := by
  simp [clear, contents, slice]

theorem advanceWrite_inv (r : Ring α) (h : r.Inv) (n : Nat) (hn : n ≤ r.writeSize) : (r.advanceWrite n).Inv := by
  obtain ⟨st, wo, ro, c⟩ := r
  obtain ⟨h1, h2, h3, h4, h5, h6⟩ := h
  simp only [storageSize, advanceWrite, writeSize] at *
  cases c <;> simp only [Bool.false_eq_true, ↓reduceIte, forall_const, false_implies, reduceCtorEq] at * <;>
    by_cases hE : wo + n = st.length <;> (try simp only [hE, ↓reduceIte]) <;> ring_fin

theorem advanceWrite_storage (r : Ring α) (n : Nat) : (r.advanceWrite n).storage = r.storage := by
  unfold advanceWrite; split <;> rfl

theorem advanceWrite_dataSize (r : Ring α) (h : r.Inv) (n : Nat) (hn : n ≤ r.writeSize) :
    (r.advanceWrite n).dataSize = r.dataSize + n := by
  obtain ⟨st, wo, ro, c⟩ := r
  obtain ⟨h1, h2, h3, h4, h5, h6⟩ := h
  simp only [storageSize, advanceWrite, writeSize, dataSize] at *
  cases c <;> simp only [Bool.false_eq_true, ↓reduceIte, forall_const, false_implies, reduceCtorEq] at * <;>
    by_cases hE : wo + n = st.length <;> (try simp only [hE, ↓reduceIte]) <;> ring_fin

theorem advanceWrite_readOffset (r : Ring α) (n : Nat) : (r.advanceWrite n).readOffset = r.readOffset := by
  unfold advanceWrite; split <;> rfl

/-- Position of the write offset in terms of the stored data. -/
theorem pos_write (r : Ring α) (h : r.Inv) (i : Nat) (hi : i < r.writeSize) : r.pos (r.dataSize + i) = r.writeOffset + i := by
  have h1 := h.contig; have h2 := h.wrapped; have h3 := h.ro; have h4 := h.wo; have h5 := h.roEnd; have h6 := h.woEnd
  unfold pos dataSize writeSize at *
  cases hc : r.contiguous
  · have := h2 hc; simp only [hc, Bool.false_eq_true, ↓reduceIte] at hi ⊢; split <;> omega
  · have := h1 hc; simp only [hc, ↓reduceIte] at hi ⊢; split <;> omega

theorem advanceWrite_contents (r : Ring α) (h : r.Inv) (n : Nat) (hn : n ≤ r.writeSize) :
    (r.advanceWrite n).contents = r.contents ++ slice r.storage r.writeOffset n := by
  apply List.ext_getElem?
  intro i
  rw [getElem?_contents _ (advanceWrite_inv r h n hn), advanceWrite_dataSize r h n hn, advanceWrite_storage]
  have hp : (r.advanceWrite n).pos i = r.pos i := by
    unfold pos storageSize; rw [advanceWrite_readOffset, advanceWrite_storage]
  rw [hp]
  by_cases hi : i < r.dataSize
  · rw [List.getElem?_append_left (by rw [length_contents r h]; exact hi), getElem?_contents r h, if_pos hi, if_pos (by omega)]
  · rw [List.getElem?_append_right (by rw [length_contents r h]; omega), length_contents r h, getElem?_slice]
    by_cases h' : i < r.dataSize + n
    · rw [if_pos h', if_pos (by omega), ← pos_write r h (i - r.dataSize) (by omega)]
      congr 2; omega
    · rw [if_neg h', if_neg (by omega)]

theorem readSize_le (r : Ring α) (h : r.Inv) : r.readSize ≤ r.dataSize := by
  unfold readSize dataSize; split <;> omega

theorem advanceRead_inv (r : Ring α) (h : r.Inv) (n : Nat) (hn : n ≤ r.readSize) : (r.advanceRead n).Inv := by
  obtain ⟨st, wo, ro, c⟩ := r
  obtain ⟨h1, h2, h3, h4, h5, h6⟩ := h
  simp only [storageSize, advanceRead, readSize] at *
  cases c <;> simp only [Bool.false_eq_true, ↓reduceIte, forall_const, false_implies, reduceCtorEq] at * <;>
    by_cases hE : ro + n = st.length <;> (try simp only [hE, ↓reduceIte]) <;> ring_fin

theorem advanceRead_storage (r : Ring α) (n : Nat) : (r.advanceRead n).storage = r.storage := by
  unfold advanceRead; split <;> rfl

theorem advanceRead_writeOffset (r : Ring α) (n : Nat) : (r.advanceRead n).writeOffset = r.writeOffset := by
  unfold advanceRead; split <;> rfl

theorem advanceRead_dataSize (r : Ring α) (h : r.Inv) (n : Nat) (hn : n ≤ r.readSize) :
    (r.advanceRead n).dataSize = r.dataSize - n := by
  obtain ⟨st, wo, ro, c⟩ := r
  obtain ⟨h1, h2, h3, h4, h5, h6⟩ := h
  simp only [storageSize, advanceRead, readSize, dataSize] at *
  cases c <;> simp only [Bool.false_eq_true, ↓reduceIte, forall_const, false_implies, reduceCtorEq] at * <;>
    by_cases hE : ro + n = st.length <;> (try simp only [hE, ↓reduceIte]) <;> ring_fin

theorem advanceRead_pos (r : Ring α) (h : r.Inv) (n : Nat) (hn : n ≤ r.readSize) (i : Nat) (hi : n + i < r.dataSize) :
    (r.advanceRead n).pos i = r.pos (n + i) := by
  have h1 := h.contig; have h2 := h.wrapped; have h3 := h.ro; have h4 := h.wo; have h5 := h.roEnd; have h6 := h.woEnd
  unfold advanceRead pos readSize dataSize storageSize at *
  cases hc : r.contiguous
  · have := h2 hc; simp only [hc, Bool.false_eq_true, ↓reduceIte] at hn hi ⊢
    split <;> simp only <;> split <;> split <;> omega
  · have := h1 hc; simp only [hc, ↓reduceIte] at hn hi ⊢
    split <;> simp only <;> split <;> split <;> omega

theorem advanceRead_contents (r : Ring α) (h : r.Inv) (n : Nat) (hn : n ≤ r.readSize) :
    (r.advanceRead n).contents = r.contents.drop n := by
  have hle := readSize_le r h
  apply List.ext_getElem?
  intro i
  rw [getElem?_contents _ (advanceRead_inv r h n hn), advanceRead_dataSize r h n hn, advanceRead_storage, List.getElem?_drop,
    getElem?_contents r h]
  by_cases hi : n + i < r.dataSize
  · rw [if_pos (by omega), if_pos hi, advanceRead_pos r h n hn i hi]
  · rw [if_neg (by omega), if_neg hi]

/-- The read window shows the oldest bytes. -/
theorem slice_read (r : Ring α) (h : r.Inv) (n : Nat) (hn : n ≤ r.readSize) :
    slice r.storage r.readOffset n = r.contents.take n := by
  have hle := readSize_le r h
  apply List.ext_getElem?
  intro i
  rw [getElem?_slice, List.getElem?_take, getElem?_contents r h]
  by_cases hi : i < n
  · rw [if_pos hi, if_pos hi, if_pos (by omega)]
    have h1 := h.contig; have h2 := h.wrapped; have h3 := h.ro; have h4 := h.wo
    unfold readSize at hn; unfold pos
    congr 1
    cases hc : r.contiguous <;> simp only [hc, Bool.false_eq_true, ↓reduceIte] at hn <;> split <;> omega
  · rw [if_neg hi, if_neg hi]

/-- Writing at or after the write offset inside the write window does not disturb the stored bytes. -/
theorem splice_contents (r : Ring α) (h : r.Inv) (d : List α) (hd : d.length ≤ r.writeSize) :
    ({ r with storage := splice r.storage r.writeOffset d } : Ring α).contents = r.contents ∧
    ({ r with storage := splice r.storage r.writeOffset d } : Ring α).Inv := by
  have h1 := h.contig; have h2 := h.wrapped; have h3 := h.ro; have h4 := h.wo; have h5 := h.roEnd; have h6 := h.woEnd
  have hfit : r.writeOffset + d.length ≤ r.storage.length := by
    unfold writeSize storageSize at *
    cases hc : r.contiguous
    · have := h2 hc; simp only [hc, Bool.false_eq_true, ↓reduceIte] at hd; omega
    · have := h1 hc; simp only [hc, ↓reduceIte] at hd; omega
  have hlen := length_splice r.storage r.writeOffset d hfit
  have hinv : ({ r with storage := splice r.storage r.writeOffset d } : Ring α).Inv := by
    constructor <;> simp only [storageSize, hlen] <;> assumption
  refine ⟨?_, hinv⟩
  apply List.ext_getElem?
  intro i
  rw [getElem?_contents _ hinv, getElem?_contents r h]
  have hds : ({ r with storage := splice r.storage r.writeOffset d } : Ring α).dataSize = r.dataSize := by
    unfold dataSize storageSize; simp only [hlen]
  have hps : ({ r with storage := splice r.storage r.writeOffset d } : Ring α).pos i = r.pos i := by
    unfold pos storageSize; simp only [hlen]
  rw [hds, hps]
  by_cases hi : i < r.dataSize
  · rw [if_pos hi, if_pos hi, getElem?_splice _ _ _ hfit]
    -- stored positions are outside `[wo, wo + |d|)`
    have hout : r.pos i < r.writeOffset ∨ r.writeOffset + d.length ≤ r.pos i := by
      unfold pos dataSize writeSize storageSize at *
      cases hc : r.contiguous
      · have := h2 hc; simp only [hc, Bool.false_eq_true, ↓reduceIte] at hd hi ⊢; split <;> omega
      · have := h1 hc; simp only [hc, ↓reduceIte] at hd hi ⊢; split <;> omega
    rcases hout with ho | ho
    · rw [if_pos ho]
    · rw [if_neg (by omega), if_neg (by omega)]
  · rw [if_neg hi, if_neg hi]

theorem writeSize_fits (r : Ring α) (h : r.Inv) : r.writeOffset + r.writeSize ≤ r.storageSize := by
  have h1 := h.contig; have h2 := h.wrapped; have h3 := h.ro; have h4 := h.wo
  unfold writeSize
  cases hc : r.contiguous
  · have := h2 hc; simp only [Bool.false_eq_true, ↓reduceIte]; omega
  · have := h1 hc; simp only [↓reduceIte]; omega

theorem readSize_fits (r : Ring α) (h : r.Inv) : r.readOffset + r.readSize ≤ r.storageSize := by
  have h1 := h.contig; have h2 := h.wrapped; have h3 := h.ro; have h4 := h.wo
  unfold readSize
  cases hc : r.contiguous
  · have := h2 hc; simp only [Bool.false_eq_true, ↓reduceIte]; omega
  · have := h1 hc; simp only [↓reduceIte]; omega

theorem writeSize_le_free (r : Ring α) (h : r.Inv) : r.writeSize ≤ r.storageSize - r.dataSize := by
  have h1 := h.contig; have h2 := h.wrapped; have h3 := h.ro; have h4 := h.wo
  unfold writeSize dataSize
  cases hc : r.contiguous
  · have := h2 hc; simp only [Bool.false_eq_true, ↓reduceIte]; omega
  · have := h1 hc; simp only [↓reduceIte]; omega

theorem writeSize_zero (r : Ring α) (h : r.Inv) (hz : r.writeSize = 0) : r.dataSize = r.storageSize := by
  have h1 := h.contig; have h2 := h.wrapped; have h3 := h.ro; have h4 := h.wo; have h6 := h.woEnd
  unfold writeSize at hz; unfold dataSize
  cases hc : r.contiguous
  · have := h2 hc; simp only [hc, Bool.false_eq_true, ↓reduceIte] at hz ⊢; omega
  · have := h1 hc; simp only [hc, ↓reduceIte] at hz ⊢; omega

theorem readSize_zero (r : Ring α) (h : r.Inv) (hz : r.readSize = 0) : r.dataSize = 0 := by
  have h1 := h.contig; have h2 := h.wrapped; have h3 := h.ro; have h4 := h.wo; have h5 := h.roEnd
  unfold readSize at hz; unfold dataSize
  cases hc : r.contiguous
  · have := h2 hc; simp only [hc, Bool.false_eq_true, ↓reduceIte] at hz ⊢; omega
  · simp only [hc, ↓reduceIte] at hz ⊢; omega

/-- Reading only enlarges the write window. -/
theorem advanceRead_writeSize (r : Ring α) (h : r.Inv) (n : Nat) (hn : n ≤ r.readSize) :
    r.writeSize ≤ (r.advanceRead n).writeSize := by
  obtain ⟨st, wo, ro, c⟩ := r
  obtain ⟨h1, h2, h3, h4, h5, h6⟩ := h
  simp only [storageSize, advanceRead, readSize, writeSize] at *
  cases c <;> simp only [Bool.false_eq_true, ↓reduceIte, forall_const, false_implies, reduceCtorEq] at * <;>
    by_cases hE : ro + n = st.length <;> (try simp only [hE, ↓reduceIte]) <;> ring_fin

/-- Writing only enlarges the read window. -/
theorem advanceWrite_readSize (r : Ring α) (h : r.Inv) (n : Nat) (hn : n ≤ r.writeSize) :
    r.readSize ≤ (r.advanceWrite n).readSize := by
  obtain ⟨st, wo, ro, c⟩ := r
  obtain ⟨h1, h2, h3, h4, h5, h6⟩ := h
  simp only [storageSize, advanceWrite, readSize, writeSize] at *
  cases c <;> simp only [Bool.false_eq_true, ↓reduceIte, forall_const, false_implies, reduceCtorEq] at * <;>
    by_cases hE : wo + n = st.length <;> (try simp only [hE, ↓reduceIte]) <;> ring_fin

end Ring

/-- The concrete system represents the queue `q`, the writer's bytes `w` and the reader's view `v`. -/
structure Rep (cap : Nat) (s : Sys α) (q : List α) (w : Option (Nat × List α)) (v : Option (List α)) : Prop where
  inv : s.ring.Inv
  cap : s.ring.storageSize = cap
  contents : s.ring.contents = q
  writer : match s.writer, w with
    | none, none => True
    | some (off, len, d), some (n, d') => off = s.ring.writeOffset ∧ len = n ∧ n ≤ s.ring.writeSize ∧ d = d' ∧ d.length ≤ n ∧
        slice s.ring.storage off d.length = d
    | _, _ => False
  reader : match s.reader, v with
    | none, none => True
    | some (off, len), some b => off = s.ring.readOffset ∧ len = b.length ∧ len ≤ s.ring.readSize ∧ b = q.take len
    | _, _ => False

theorem Rep.dataSize {cap : Nat} {s : Sys α} {q : List α} {w v} (h : Rep cap s q w v) : s.ring.dataSize = q.length := by
  rw [← h.contents, Ring.length_contents _ h.inv]

theorem Rep.freeSize {cap : Nat} {s : Sys α} {q : List α} {w v} (h : Rep cap s q w v) : s.ring.freeSize = cap - q.length := by
  unfold Ring.freeSize; rw [h.dataSize, h.cap]

theorem Rep.le {cap : Nat} {s : Sys α} {q : List α} {w v} (h : Rep cap s q w v) : q.length ≤ cap := by
  rw [← h.dataSize, ← h.cap]; exact Ring.dataSize_le _ h.inv

theorem slice_splice_self (l : List α) (off : Nat) (d : List α) (h : off + d.length ≤ l.length) :
    slice (splice l off d) off d.length = d := by
  apply List.ext_getElem?
  intro i
  rw [getElem?_slice]
  by_cases hi : i < d.length
  · rw [if_pos hi, getElem?_splice l off d h, if_neg (by omega), if_pos (by omega)]
    congr 1; omega
  · rw [if_neg hi, List.getElem?_eq_none (by omega)]

theorem slice_take (l : List α) (off n m : Nat) (h : n ≤ m) : slice l off n = (slice l off m).take n := by
  unfold slice; rw [List.take_take, Nat.min_eq_left h]

/-- Simulation: every history of the concrete system is a FIFO trace, and no check fails. -/
theorem simulate (cap : Nat) (ops : List (Op α)) :
    ∀ (s : Sys α) (q : List α) (w v), Rep cap s q w v →
      runFrom s ops ≠ .error .check ∧
      ∀ s' t, runFrom s ops = .ok (s', t) → Spec.Fifo cap q w v t := by
  induction ops with
  | nil =>
    intro s q w v _
    refine ⟨by simp [runFrom], fun s' t h => ?_⟩
    simp only [runFrom, Except.ok.injEq, Prod.mk.injEq] at h
    rw [← h.2]; trivial
  | cons op ops ih =>
    intro s q w v hr
    -- one step
    have main : ∀ (P : List (Event α) → Prop), (step s op = .error .misuse ∨ ∃ s' out q' w' v', step s op = .ok (s', out) ∧
          Rep cap s' q' w' v' ∧ ∀ t, Spec.Fifo cap q' w' v' t → P (⟨op, out, s'.ring.dataSize, s'.ring.freeSize⟩ :: t)) →
        runFrom s (op :: ops) ≠ .error .check ∧ ∀ s' t, runFrom s (op :: ops) = .ok (s', t) → P t := by
      intro P hP
      rcases hP with hP | ⟨s', out, q', w', v', h1, h2, h3⟩
      · simp [runFrom, hP]
      · obtain ⟨i1, i2⟩ := ih s' q' w' v' h2
        simp only [runFrom, h1]
        cases hrun : runFrom s' ops with
        | error e => rw [hrun] at i1; exact ⟨i1, fun _ _ h => by cases h⟩
        | ok r =>
          obtain ⟨s'', t⟩ := r
          refine ⟨by simp, fun s1 t1 h => ?_⟩
          simp only [Except.ok.injEq, Prod.mk.injEq] at h
          rw [← h.2]; exact h3 t (i2 s'' t hrun)
    apply main
    obtain ⟨ring, writer, reader⟩ := s
    obtain ⟨hinv, hcap, hcon, hw, hv⟩ := hr
    simp only at hinv hcap hcon hw hv
    have hlenq : ring.dataSize = q.length := by rw [← hcon, Ring.length_contents _ hinv]
    cases op with
    | startWrite =>
      cases writer with
      | some x => left; rfl
      | none =>
        right
        have hr' : Rep cap ⟨ring, some (ring.writeOffset, ring.writeSize, []), reader⟩ q (some (ring.writeSize, [])) v :=
          ⟨hinv, hcap, hcon, ⟨rfl, rfl, Nat.le_refl _, rfl, by simp, by simp [slice]⟩, hv⟩
        refine ⟨_, _, q, _, v, rfl, hr', fun t ht => ?_⟩
        refine ⟨?_, ?_, ⟨hr'.dataSize, hr'.freeSize⟩, ht⟩
        · rw [← hlenq, ← hcap]; exact Ring.writeSize_le_free _ hinv
        · intro h0; rw [← hlenq, ← hcap]; exact Ring.writeSize_zero _ hinv h0
    | fill d =>
      cases writer with
      | none => left; rfl
      | some x =>
        obtain ⟨off, len, d0⟩ := x
        cases w with
        | none => exact absurd hw (by simp)
        | some y =>
          obtain ⟨n, d1⟩ := y
          obtain ⟨rfl, rfl, hle, rfl, _, _⟩ := hw
          by_cases hd : d.length ≤ len
          · right
            obtain ⟨c1, c2⟩ := Ring.splice_contents ring hinv d (by omega)
            have hfit : ring.writeOffset + d.length ≤ ring.storage.length := by
              have := Ring.writeSize_fits ring hinv; unfold Ring.storageSize at this; omega
            have hsl := length_splice ring.storage ring.writeOffset d hfit
            have hr' : Rep cap ⟨{ ring with storage := splice ring.storage ring.writeOffset d }, some (ring.writeOffset, len, d), reader⟩
                q (some (len, d)) v := by
              refine ⟨c2, by simp only [Ring.storageSize, hsl]; exact hcap, by simp only; rw [c1, hcon], ?_, ?_⟩
              · refine ⟨rfl, rfl, ?_, rfl, hd, slice_splice_self _ _ _ hfit⟩
                have : ({ ring with storage := splice ring.storage ring.writeOffset d } : Ring α).writeSize = ring.writeSize := by
                  unfold Ring.writeSize Ring.storageSize; simp only [hsl]
                rw [this]; exact hle
              · have : ({ ring with storage := splice ring.storage ring.writeOffset d } : Ring α).readSize = ring.readSize := by
                  unfold Ring.readSize Ring.storageSize; simp only [hsl]
                rw [this]; exact hv
            refine ⟨_, _, q, _, v, by simp only [step]; rw [if_pos hd], hr', fun t ht => ?_⟩
            exact ⟨⟨hr'.dataSize, hr'.freeSize⟩, ht⟩
          · left; simp only [step]; rw [if_neg hd]
    | push n =>
      cases writer with
      | none => left; rfl
      | some x =>
        obtain ⟨off, len, d0⟩ := x
        cases w with
        | none => exact absurd hw (by simp)
        | some y =>
          obtain ⟨m, d1⟩ := y
          obtain ⟨rfl, rfl, hle, rfl, hdl, hsl⟩ := hw
          by_cases hn : n ≤ d0.length
          · right
            have hnw : n ≤ ring.writeSize := by omega
            have hfit := Ring.writeSize_fits ring hinv
            have hdata : slice ring.storage ring.writeOffset n = d0.take n := by
              rw [slice_take _ _ _ _ hn, hsl]
            have hr' : Rep cap ⟨ring.advanceWrite n, none, reader⟩ (q ++ d0.take n) none v := by
              refine ⟨Ring.advanceWrite_inv _ hinv n hnw, ?_, ?_, trivial, ?_⟩
              · simp only [Ring.storageSize, Ring.advanceWrite_storage]; exact hcap
              · simp only; rw [Ring.advanceWrite_contents _ hinv n hnw, hcon, hdata]
              · cases reader with
                | none => cases v with
                  | none => trivial
                  | some b => exact hv
                | some z =>
                  obtain ⟨o, l⟩ := z
                  cases v with
                  | none => exact hv
                  | some b =>
                    obtain ⟨e1, e2, e3, e4⟩ := hv
                    refine ⟨by rw [e1]; exact (Ring.advanceWrite_readOffset ring n).symm, e2, ?_, ?_⟩
                    · exact Nat.le_trans e3 (Ring.advanceWrite_readSize ring hinv n hnw)
                    · rw [e4, List.take_append_of_le_length]
                      have := Ring.readSize_le ring hinv; omega
            have hstep : step (⟨ring, some (ring.writeOffset, len, d0), reader⟩ : Sys α) (.push n) =
                .ok (⟨ring.advanceWrite n, none, reader⟩, .done) := by
              simp only [step, Ring.push]; rw [if_pos hn, if_pos (by omega)]
            refine ⟨_, _, _, _, v, hstep, hr', fun t ht => ?_⟩
            exact ⟨hr'.le, ⟨hr'.dataSize, hr'.freeSize⟩, ht⟩
          · left; simp only [step]; rw [if_neg hn]
    | startRead =>
      cases reader with
      | some x => left; rfl
      | none =>
        right
        have hsl := Ring.slice_read ring hinv ring.readSize (Nat.le_refl _)
        rw [hcon] at hsl
        have hle := Ring.readSize_le ring hinv
        have hlen : (slice ring.storage ring.readOffset ring.readSize).length = ring.readSize := by
          rw [hsl, List.length_take]; omega
        have hr' : Rep cap ⟨ring, writer, some (ring.readOffset, ring.readSize)⟩ q w (some (slice ring.storage ring.readOffset ring.readSize)) :=
          ⟨hinv, hcap, hcon, hw, ⟨rfl, hlen.symm, Nat.le_refl _, hsl⟩⟩
        refine ⟨_, _, q, w, _, rfl, hr', fun t ht => ?_⟩
        refine ⟨?_, ?_, ⟨hr'.dataSize, hr'.freeSize⟩, ht⟩
        · rw [hsl]; exact List.take_prefix _ _
        · intro h0
          rw [h0] at hlen
          have := Ring.readSize_zero ring hinv (by simpa using hlen.symm)
          rw [hlenq] at this
          exact List.eq_nil_of_length_eq_zero this
    | pop n =>
      cases reader with
      | none => left; rfl
      | some x =>
        obtain ⟨off, len⟩ := x
        cases v with
        | none => exact absurd hv (by simp)
        | some b =>
          obtain ⟨rfl, hlb, hle, hb⟩ := hv
          by_cases hn : n ≤ len
          · right
            have hnr : n ≤ ring.readSize := by omega
            have hfit := Ring.readSize_fits ring hinv
            have hdata : slice ring.storage ring.readOffset n = q.take n := by
              rw [Ring.slice_read ring hinv n hnr, hcon]
            have hle' := Ring.readSize_le ring hinv
            have hr' : Rep cap ⟨ring.advanceRead n, writer, none⟩ (q.drop n) w none := by
              refine ⟨Ring.advanceRead_inv _ hinv n hnr, ?_, ?_, ?_, trivial⟩
              · simp only [Ring.storageSize, Ring.advanceRead_storage]; exact hcap
              · simp only; rw [Ring.advanceRead_contents _ hinv n hnr, hcon]
              · cases writer with
                | none => cases w with
                  | none => trivial
                  | some b => exact hw
                | some z =>
                  obtain ⟨o, l, d⟩ := z
                  cases w with
                  | none => exact hw
                  | some y =>
                    obtain ⟨m, d'⟩ := y
                    obtain ⟨e1, e2, e3, e4, e5, e6⟩ := hw
                    refine ⟨by rw [e1]; exact (Ring.advanceRead_writeOffset ring n).symm, e2, ?_, e4, e5, ?_⟩
                    · exact Nat.le_trans e3 (Ring.advanceRead_writeSize ring hinv n hnr)
                    · simp only [Ring.advanceRead_storage]; exact e6
            have hstep : step (⟨ring, writer, some (ring.readOffset, len)⟩ : Sys α) (.pop n) =
                .ok (⟨ring.advanceRead n, writer, none⟩, .bytes (slice ring.storage ring.readOffset n)) := by
              simp only [step, Ring.pop]; rw [if_pos hn, if_pos (by omega)]
            refine ⟨_, _, _, _, _, hstep, hr', fun t ht => ?_⟩
            refine ⟨?_, ⟨b, rfl, ?_⟩, hdata, ⟨hr'.dataSize, hr'.freeSize⟩, ht⟩
            · rw [hdata, List.length_take]; omega
            · rw [hdata, hb, List.take_take, Nat.min_eq_left hn]
          · left; simp only [step]; rw [if_neg hn]
    | clear =>
      cases writer with
      | some x => left; cases reader <;> rfl
      | none =>
        cases reader with
        | some x => left; rfl
        | none =>
          right
          have hr' : Rep cap ⟨ring.clear, none, none⟩ [] w v := by
            refine ⟨Ring.clear_inv _, hcap, Ring.clear_contents _, ?_, ?_⟩
            · cases w with
              | none => trivial
              | some b => exact hw
            · cases v with
              | none => trivial
              | some b => exact hv
          refine ⟨_, _, _, w, v, rfl, hr', fun t ht => ?_⟩
          exact ⟨⟨hr'.dataSize, hr'.freeSize⟩, ht⟩

end
end Verif.Ring
