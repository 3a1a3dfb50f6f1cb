import Verif.Stream.Mem
/-
Model of `ChunkedMemoryByteStream` (stingraykit/io/ChunkedMemoryByteStream.h) and property C57. The iterator `_chunk` is the index of the chunk. The container is not
changed by others while the stream exists.
-/
namespace Verif.Stream

/-- `ChunkedMemoryByteStream`: ChunkedMemoryByteStream.h:26-34. -/
structure Chunked where
  chunks : List (List Nat)
  idx : Nat
  off : Nat
  total : Nat
  deriving DecidableEq, Repr

namespace Chunked

/-- `TotalSize`: ChunkedMemoryByteStream.h:119-125. -/
def totalSize (cs : List (List Nat)) : Nat := (cs.map List.length).sum

/-- The state after construction, ChunkedMemoryByteStream.h 26-134. -/
def create (cs : List (List Nat)) : Chunked := ⟨cs, 0, 0, totalSize cs⟩

/-- `NormalizePosition`: ChunkedMemoryByteStream.h:127-134. -/
def normalize (s : Chunked) : Chunked := if s.idx ≠ s.chunks.length ∧ s.off = (s.chunks.getD s.idx []).length then { s with idx := s.idx + 1, off := 0 } else s

/-- The loop of `Read`: ChunkedMemoryByteStream.h:42-54, over the chunks from the current one on. -/
def readLoop : List (List Nat) → Nat → Nat → Nat → List Nat × Nat × Nat
  | [], i, o, _ => ([], i, o)
  | c :: cs, i, o, want =>
    if want = 0 then ([], i, o)
    else if o + min want (c.length - o) = c.length then
      ((c.drop o).take (min want (c.length - o)) ++ (readLoop cs (i + 1) 0 (want - min want (c.length - o))).1, (readLoop cs (i + 1) 0 (want - min want (c.length - o))).2)
    else ((c.drop o).take (min want (c.length - o)), i, o + min want (c.length - o))

/-- `Read`: ChunkedMemoryByteStream.h:36-56. -/
def read (s : Chunked) (n : Nat) : Except Err (List Nat) × Chunked :=
  if s.chunks = [] then (.error .logic, s)
  else if s.normalize.idx = s.chunks.length then (.error .logic, s.normalize)
  else (.ok (readLoop (s.chunks.drop s.normalize.idx) s.normalize.idx s.normalize.off n).1,
    ⟨s.chunks, (readLoop (s.chunks.drop s.normalize.idx) s.normalize.idx s.normalize.off n).2.1, (readLoop (s.chunks.drop s.normalize.idx) s.normalize.idx s.normalize.off n).2.2, s.total⟩)

/-- The loop of `Write`: ChunkedMemoryByteStream.h:63-82, at most `fuel` rounds (every round but the last copies at least one byte). Result: the error, if any. -/
def writeLoop : Nat → Chunked → List Nat → Option Err × Chunked
  | 0, s, _ => (none, s)
  | fuel + 1, s, d =>
    if d = [] then (none, s)
    else if s.idx = s.chunks.length then
      if s.off = 0 then (none, ⟨s.chunks ++ [d], s.chunks.length + 1, 0, totalSize (s.chunks ++ [d])⟩) else (some .logic, s)
    else if (s.chunks.getD s.idx []).length > s.off then
      writeLoop fuel
        ⟨s.chunks.set s.idx (overwrite (s.chunks.getD s.idx []) s.off (d.take (min d.length ((s.chunks.getD s.idx []).length - s.off)))), s.idx,
          s.off + min d.length ((s.chunks.getD s.idx []).length - s.off), s.total⟩
        (d.drop (min d.length ((s.chunks.getD s.idx []).length - s.off)))
    else (some .outOfRange, s)

/-- `Write`: ChunkedMemoryByteStream.h:58-84. -/
def write (s : Chunked) (d : List Nat) : Except Err Nat × Chunked :=
  if d = [] then (.error .logic, s)
  else match writeLoop (d.length + 1) s.normalize d with
    | (none, s') => (.ok d.length, s')
    | (some e, s') => (.error e, s')

/-- `Tell`: ChunkedMemoryByteStream.h:109-116. -/
def tell (s : Chunked) : Nat := totalSize (s.chunks.take s.idx) + s.off

/-- The loop of `Seek`: ChunkedMemoryByteStream.h:101-103. -/
def seekLoop : List (List Nat) → Nat → Nat → Nat × Nat
  | [], i, o => (i, o)
  | c :: cs, i, o => if o ≥ c.length then seekLoop cs (i + 1) (o - c.length) else (i, o)

/-- The requested offset: ChunkedMemoryByteStream.h:90-96. -/
def target (s : Chunked) (off : Int) : Mode → Int
  | .begin => off
  | .current => off + s.tell
  | .end_ => off + s.total

/-- `Seek`: ChunkedMemoryByteStream.h:86-107. -/
def seek (s : Chunked) (off : Int) (m : Mode) : Except Err Chunked :=
  if s.chunks = [] then .error .logic
  else if s.target off m ≥ 0 ∧ s.target off m ≤ s.total then
    .ok ⟨s.chunks, (seekLoop s.chunks 0 (s.target off m).toNat).1, (seekLoop s.chunks 0 (s.target off m).toNat).2, s.total⟩
  else .error .outOfRange

end Chunked

/-- A chunked stream in a state that occurs: the position lies in a chunk or at the end. -/
structure Spec.ChunkedOk (s : Chunked) : Prop where
  idx_le : s.idx ≤ s.chunks.length
  off_le : s.off ≤ (s.chunks.getD s.idx []).length
  total : s.total = (s.chunks.flatten).length

/-- The bytes the stream stands for. -/
def Spec.bytes (s : Chunked) : List Nat := s.chunks.flatten

namespace Chunked
open Spec

theorem totalSize_eq (cs : List (List Nat)) : totalSize cs = cs.flatten.length := by
  unfold totalSize; rw [List.length_flatten]

theorem flatten_split (cs : List (List Nat)) (i : Nat) : cs.flatten = (cs.take i).flatten ++ (cs.drop i).flatten := by
  rw [← List.flatten_append, List.take_append_drop]

theorem drop_tell {s : Chunked} (h : ChunkedOk s) : (bytes s).drop s.tell = ((s.chunks.drop s.idx).flatten).drop s.off := by
  unfold bytes tell
  rw [flatten_split s.chunks s.idx, totalSize_eq, ← List.drop_drop, List.drop_left' rfl]

theorem tell_le {s : Chunked} (h : ChunkedOk s) : s.tell ≤ (bytes s).length := by
  unfold bytes tell
  rw [flatten_split s.chunks s.idx, totalSize_eq, List.length_append]
  have := h.off_le
  by_cases hi : s.idx < s.chunks.length
  · rw [List.drop_eq_getElem_cons hi, List.flatten_cons, List.length_append]
    rw [List.getD_eq_getElem?_getD, List.getElem?_eq_getElem hi] at this
    simp only [Option.getD_some] at this
    omega
  · rw [List.getD_eq_getElem?_getD, List.getElem?_eq_none (by omega)] at this
    simp only [Option.getD_none, List.length_nil] at this
    omega

theorem normalize_ok {s : Chunked} (h : ChunkedOk s) : ChunkedOk s.normalize ∧ s.normalize.tell = s.tell ∧ s.normalize.chunks = s.chunks ∧ s.normalize.total = s.total := by
  unfold normalize
  by_cases hc : s.idx ≠ s.chunks.length ∧ s.off = (s.chunks.getD s.idx []).length
  · rw [if_pos hc]
    have hi : s.idx < s.chunks.length := by have := h.idx_le; omega
    refine ⟨⟨hi, Nat.zero_le _, h.total⟩, ?_, rfl, rfl⟩
    unfold tell
    simp only [totalSize_eq]
    rw [List.take_succ_eq_append_getElem hi, List.flatten_append, List.length_append, hc.2, List.getD_eq_getElem?_getD, List.getElem?_eq_getElem hi]
    simp
  · rw [if_neg hc]; exact ⟨h, rfl, rfl, rfl⟩

theorem readLoop_spec : ∀ (cs : List (List Nat)) (i o n : Nat), o ≤ (cs.getD 0 []).length →
    (readLoop cs i o n).1 = (cs.flatten.drop o).take n ∧ i ≤ (readLoop cs i o n).2.1 ∧ (readLoop cs i o n).2.1 ≤ i + cs.length ∧
    (readLoop cs i o n).2.2 ≤ (cs.getD ((readLoop cs i o n).2.1 - i) []).length ∧
    totalSize (cs.take ((readLoop cs i o n).2.1 - i)) + (readLoop cs i o n).2.2 = o + (readLoop cs i o n).1.length
  | [], i, o, n, h => by
    have : o = 0 := by simpa using h
    subst this
    simp [readLoop, totalSize]
  | c :: cs, i, o, n, h => by
    have ho : o ≤ c.length := by simpa using h
    rw [readLoop]
    by_cases hn : n = 0
    · rw [if_pos hn]
      subst hn
      refine ⟨by simp, Nat.le_refl _, by simp, ?_, ?_⟩
      · simpa using ho
      · simp [totalSize]
    · rw [if_neg hn]
      have hfl : ((c :: cs).flatten.drop o) = c.drop o ++ cs.flatten := by
        rw [List.flatten_cons, List.drop_append_of_le_length ho]
      by_cases hc : o + min n (c.length - o) = c.length
      · rw [if_pos hc]
        obtain ⟨h1, h2, h3, h4, h5⟩ := readLoop_spec cs (i + 1) 0 (n - min n (c.length - o)) (Nat.zero_le _)
        generalize hR : readLoop cs (i + 1) 0 (n - min n (c.length - o)) = R at *
        simp only []
        have hmin : min n (c.length - o) = c.length - o := by omega
        have hl : ((c.drop o).take (c.length - o)) = c.drop o := List.take_of_length_le (by rw [List.length_drop]; exact Nat.le_refl _)
        have hsub : R.2.1 - i = (R.2.1 - (i + 1)) + 1 := by omega
        refine ⟨?_, by omega, by rw [List.length_cons]; omega, ?_, ?_⟩
        · rw [hfl, h1, hmin, hl, List.take_append, List.take_of_length_le (l := c.drop o) (by rw [List.length_drop]; omega), List.length_drop, List.drop_zero]
        · rw [hsub, List.getD_cons_succ]; exact h4
        · rw [hsub, List.take_succ_cons]
          rw [hmin, hl, List.length_append, List.length_drop]
          simp only [totalSize, List.map_cons, List.sum_cons] at h5 ⊢
          omega
      · rw [if_neg hc]
        have hmin : min n (c.length - o) = n := by omega
        rw [hmin]
        refine ⟨?_, Nat.le_refl _, by simp only []; omega, ?_, ?_⟩
        · rw [hfl, List.take_append_of_le_length (by rw [List.length_drop]; omega)]
        · simp only [Nat.sub_self, List.getD_cons_zero]; omega
        · simp only [Nat.sub_self, List.take_zero, totalSize, List.map_nil, List.sum_nil, List.length_take, List.length_drop]; omega

/-- C57, reading: the bytes of the chunks from the position on, across chunk boundaries; the position moves behind them. Reading at the end (or from no chunks) may be
rejected instead of returning nothing. -/
theorem chunked_read {s : Chunked} (h : ChunkedOk s) (n : Nat) :
    ((s.read n).1 = .ok (((bytes s).drop s.tell).take n) ∧ (s.read n).2.tell = s.tell + (((bytes s).drop s.tell).take n).length ∨
      (s.read n).1 = .error .logic ∧ s.tell = (bytes s).length ∧ (s.read n).2.tell = s.tell) ∧
    bytes (s.read n).2 = bytes s ∧ ChunkedOk (s.read n).2 := by
  obtain ⟨n1, n2, n3, n4⟩ := normalize_ok h
  have hd := drop_tell n1
  rw [n2, show bytes s.normalize = bytes s by unfold bytes; rw [n3]] at hd
  unfold read
  by_cases h0 : s.chunks = []
  · rw [if_pos h0]
    have h1 := h.idx_le
    have h2 := h.off_le
    rw [h0] at h1 h2
    have h1' : s.idx = 0 := by simpa using h1
    have h2' : s.off = 0 := by simpa using h2
    refine ⟨Or.inr ⟨rfl, ?_, rfl⟩, rfl, h⟩
    unfold bytes tell
    rw [h0, h1', h2']; rfl
  · rw [if_neg h0]
    by_cases he : s.normalize.idx = s.chunks.length
    · rw [if_pos he]
      refine ⟨Or.inr ⟨rfl, ?_, n2⟩, by unfold bytes; rw [n3], n1⟩
      have h2 := n1.off_le
      rw [List.getD_eq_getElem?_getD, List.getElem?_eq_none (by rw [n3, he]; exact Nat.le_refl _)] at h2
      have h2' : s.normalize.off = 0 := by simpa using h2
      rw [← n2]
      unfold tell bytes
      rw [n3, he, List.take_length, h2', totalSize_eq, Nat.add_zero]
    · rw [if_neg he]
      have hi : s.normalize.idx < s.chunks.length := by have := n1.idx_le; rw [n3] at this; omega
      obtain ⟨r1, r2, r3, r4, r5⟩ := readLoop_spec (s.chunks.drop s.normalize.idx) s.normalize.idx s.normalize.off n (by
        have := n1.off_le
        rw [n3] at this
        rw [List.getD_eq_getElem?_getD, List.getElem?_drop, Nat.add_zero, ← List.getD_eq_getElem?_getD]
        exact this)
      generalize hR : readLoop (s.chunks.drop s.normalize.idx) s.normalize.idx s.normalize.off n = R at *
      rw [List.length_drop] at r3
      have hidx : R.2.1 = s.normalize.idx + (R.2.1 - s.normalize.idx) := by omega
      rw [n3] at hd
      refine ⟨Or.inl ⟨?_, ?_⟩, rfl, ⟨?_, ?_, h.total⟩⟩
      · simp only [r1, hd]
      · have e : totalSize (s.chunks.take R.2.1) = totalSize (s.chunks.take s.normalize.idx) + totalSize ((s.chunks.drop s.normalize.idx).take (R.2.1 - s.normalize.idx)) := by
          have ht := List.take_add (l := s.chunks) (i := s.normalize.idx) (j := R.2.1 - s.normalize.idx)
          rw [← hidx] at ht
          simp only [totalSize_eq]
          rw [ht, List.flatten_append, List.length_append]
        unfold tell
        simp only []
        have n2' : s.normalize.tell = totalSize (s.chunks.take s.normalize.idx) + s.normalize.off := by unfold tell; rw [n3]
        have hs : s.tell = totalSize (s.chunks.take s.idx) + s.off := rfl
        rw [show totalSize (s.chunks.take s.idx) + s.off = s.tell from hs.symm]
        rw [hd, ← r1, ← n2, n2', e]
        omega
      · simp only []; omega
      · simp only []
        rw [List.getD_eq_getElem?_getD, List.getElem?_drop, ← hidx, ← List.getD_eq_getElem?_getD] at r4
        exact r4

theorem seekLoop_spec : ∀ (cs : List (List Nat)) (i o : Nat), o ≤ cs.flatten.length →
    i ≤ (seekLoop cs i o).1 ∧ (seekLoop cs i o).1 ≤ i + cs.length ∧ (seekLoop cs i o).2 ≤ (cs.getD ((seekLoop cs i o).1 - i) []).length ∧
    totalSize (cs.take ((seekLoop cs i o).1 - i)) + (seekLoop cs i o).2 = o
  | [], i, o, h => by
    have : o = 0 := by simpa using h
    subst this
    simp [seekLoop, totalSize]
  | c :: cs, i, o, h => by
    rw [seekLoop]
    by_cases hc : o ≥ c.length
    · rw [if_pos hc]
      rw [List.flatten_cons, List.length_append] at h
      obtain ⟨h1, h2, h3, h4⟩ := seekLoop_spec cs (i + 1) (o - c.length) (by omega)
      generalize seekLoop cs (i + 1) (o - c.length) = R at *
      have hsub : R.1 - i = (R.1 - (i + 1)) + 1 := by omega
      refine ⟨by omega, by rw [List.length_cons]; omega, ?_, ?_⟩
      · rw [hsub, List.getD_cons_succ]; exact h3
      · rw [hsub, List.take_succ_cons]
        simp only [totalSize, List.map_cons, List.sum_cons] at h4 ⊢
        omega
    · rw [if_neg hc]
      refine ⟨Nat.le_refl _, by simp only []; omega, ?_, ?_⟩
      · simp only [Nat.sub_self, List.getD_cons_zero]; omega
      · simp [totalSize]

/-- C57, seeking: to every position inside or at the end of the bytes; anything else is rejected without effect. -/
theorem chunked_seek {s : Chunked} (h : ChunkedOk s) (off : Int) (m : Mode) :
    (∃ (s' : Chunked) (q : Nat), s.seek off m = .ok s' ∧ (q : Int) = origin (bytes s).length s.tell m + off ∧ q ≤ (bytes s).length ∧ s'.tell = q ∧ bytes s' = bytes s ∧ ChunkedOk s') ∨
    (∃ e, s.seek off m = .error e ∧ (origin (bytes s).length s.tell m + off < 0 ∨ origin (bytes s).length s.tell m + off > ((bytes s).length : Int) ∨ s.chunks = [])) := by
  have ht : s.target off m = origin (bytes s).length s.tell m + off := by
    have := h.total
    cases m <;> simp only [target, origin, bytes] <;> omega
  have htot : s.total = (bytes s).length := h.total
  unfold seek
  by_cases h0 : s.chunks = []
  · rw [if_pos h0]; exact Or.inr ⟨_, rfl, Or.inr (Or.inr h0)⟩
  · rw [if_neg h0]
    by_cases h1 : s.target off m ≥ 0 ∧ s.target off m ≤ s.total
    · rw [if_pos h1]
      obtain ⟨r1, r2, r3, r4⟩ := seekLoop_spec s.chunks 0 (s.target off m).toNat (by have := h.total; omega)
      rw [Nat.sub_zero] at r3 r4
      exact Or.inl ⟨_, (s.target off m).toNat, rfl, by omega, by omega, r4, rfl, ⟨by simpa using r2, r3, h.total⟩⟩
    · rw [if_neg h1]
      exact Or.inr ⟨_, rfl, by omega⟩

theorem flatten_set (cs : List (List Nat)) (i : Nat) (hi : i < cs.length) (c : List Nat) : (cs.set i c).flatten = (cs.take i).flatten ++ c ++ (cs.drop (i + 1)).flatten := by
  rw [List.set_eq_take_append_cons_drop, if_pos hi]
  simp

/-- C57, writing at the end (appends a chunk) or inside one chunk (overwrites): exact. Not true: writing across a chunk boundary, see `chunked_write_violated`. -/
theorem chunked_write_partial {s : Chunked} (h : ChunkedOk s) (d : List Nat) (hd : d ≠ [])
    (hfit : s.normalize.idx = s.chunks.length ∨ s.normalize.off + d.length ≤ (s.chunks.getD s.normalize.idx []).length) :
    (s.write d).1 = .ok d.length ∧ bytes (s.write d).2 = (bytes s).take s.tell ++ d ++ (bytes s).drop (s.tell + d.length) ∧ (s.write d).2.tell = s.tell + d.length ∧ ChunkedOk (s.write d).2 := by
  obtain ⟨n1, n2, n3, n4⟩ := normalize_ok h
  have hb : bytes s.normalize = bytes s := by unfold bytes; rw [n3]
  rw [← n2, ← hb]
  rw [← n3] at hfit
  unfold write
  rw [if_neg hd]
  generalize s.normalize = t at *
  have hdl : 0 < d.length := List.length_pos_iff.mpr hd
  by_cases he : t.idx = t.chunks.length
  · have ho : t.off = 0 := by
      have h2 := n1.off_le
      rw [List.getD_eq_getElem?_getD, List.getElem?_eq_none (by omega)] at h2
      simpa using h2
    have hw : writeLoop (d.length + 1) t d = (none, ⟨t.chunks ++ [d], t.chunks.length + 1, 0, totalSize (t.chunks ++ [d])⟩) := by
      rw [writeLoop, if_neg hd, if_pos he, if_pos ho]
    rw [hw]
    have htell : t.tell = (bytes t).length := by
      unfold tell bytes
      rw [he, List.take_length, ho, totalSize_eq, Nat.add_zero]
    refine ⟨rfl, ?_, ?_, ⟨by simp, by simp, by rw [totalSize_eq]⟩⟩
    · rw [htell, List.take_length, List.drop_eq_nil_of_le (by omega)]
      simp [bytes]
    · rw [htell]
      unfold tell bytes
      simp only [totalSize_eq]
      rw [List.take_of_length_le (by simp)]
      simp
  · have hi : t.idx < t.chunks.length := by have := n1.idx_le; omega
    have hf : t.off + d.length ≤ (t.chunks.getD t.idx []).length := by
      rcases hfit with h | h
      · exact absurd h he
      · exact h
    generalize hc : t.chunks.getD t.idx [] = c at *
    have hg : t.chunks[t.idx] = c := by
      rw [List.getD_eq_getElem?_getD, List.getElem?_eq_getElem hi] at hc
      simpa using hc
    have hmin : min d.length (c.length - t.off) = d.length := by omega
    have hw : writeLoop (d.length + 1) t d = (none, ⟨t.chunks.set t.idx (overwrite c t.off d), t.idx, t.off + d.length, t.total⟩) := by
      rw [writeLoop, if_neg hd, if_neg he, hc, if_pos (by omega), hmin, List.take_length, List.drop_length]
      rw [show d.length = (d.length - 1) + 1 by omega, writeLoop, if_pos rfl]
    rw [hw]
    have hol : (overwrite c t.off d).length = c.length := by
      unfold overwrite
      simp only [List.length_append, List.length_take, List.length_drop]; omega
    have hsplit : bytes t = (t.chunks.take t.idx).flatten ++ c ++ (t.chunks.drop (t.idx + 1)).flatten := by
      unfold bytes
      rw [flatten_split t.chunks t.idx, List.drop_eq_getElem_cons hi, List.flatten_cons, hg, List.append_assoc]
    have htl : t.tell = (t.chunks.take t.idx).flatten.length + t.off := by unfold tell; rw [totalSize_eq]
    refine ⟨rfl, ?_, ?_, ⟨?_, ?_, ?_⟩⟩
    · have hbs : bytes (⟨t.chunks.set t.idx (overwrite c t.off d), t.idx, t.off + d.length, t.total⟩ : Chunked) =
          (t.chunks.take t.idx).flatten ++ overwrite c t.off d ++ (t.chunks.drop (t.idx + 1)).flatten := by
        unfold bytes; exact flatten_set _ _ hi _
      simp only []
      rw [hbs, hsplit, htl]
      unfold overwrite
      have a1 : ((t.chunks.take t.idx).flatten ++ c ++ (t.chunks.drop (t.idx + 1)).flatten).take ((t.chunks.take t.idx).flatten.length + t.off) = (t.chunks.take t.idx).flatten ++ c.take t.off := by
        rw [List.append_assoc, List.take_length_add_append, List.take_append_of_le_length (by omega)]
      have a2 : ((t.chunks.take t.idx).flatten ++ c ++ (t.chunks.drop (t.idx + 1)).flatten).drop ((t.chunks.take t.idx).flatten.length + t.off + d.length) =
          c.drop (t.off + d.length) ++ (t.chunks.drop (t.idx + 1)).flatten := by
        rw [List.append_assoc, Nat.add_assoc, List.drop_length_add_append, List.drop_append_of_le_length (by omega)]
      rw [a1, a2]
      simp only [List.append_assoc]
    · unfold tell
      simp only []
      rw [List.take_set_of_le (Nat.le_refl _)]
      omega
    · simp only [List.length_set]; omega
    · simp only []
      rw [List.getD_eq_getElem?_getD, List.getElem?_set_self hi]
      simp only [Option.getD_some, hol]; exact hf
    · simp only []
      rw [n1.total, flatten_set _ _ hi]
      have := congrArg List.length hsplit
      unfold bytes at this
      rw [this]
      simp only [List.length_append, hol]

/-- C57 refuted: writing across a chunk boundary writes up to the boundary and then throws. -/
theorem chunked_write_violated : (create [[1, 2, 3], [4, 5, 6]]).write [7, 7, 7, 7] = (.error .outOfRange, ⟨[[7, 7, 7], [4, 5, 6]], 0, 3, 6⟩) := by with_unfolding_all rfl

/-! Non-vacuity. -/
example (cs : List (List Nat)) : ChunkedOk (create cs) := ⟨Nat.zero_le _, Nat.zero_le _, totalSize_eq cs⟩

example : ((create [[1, 2, 3], [], [4, 5, 6]]).read 5).1 = .ok [1, 2, 3, 4, 5] ∧ ((create [[1, 2, 3], [4, 5, 6]]).read 5).2.tell = 5 ∧
    ((create [[1, 2, 3]]).write [9, 8]).2 = ⟨[[9, 8, 3]], 0, 2, 3⟩ := by
  refine ⟨rfl, rfl, by with_unfolding_all rfl⟩

end Chunked
end Verif.Stream
