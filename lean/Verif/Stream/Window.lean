import Verif.Stream.Mem
/-
Model of `ByteStreamWithOffset` and `ByteStreamWithOffsetAndSize` (stingraykit/io/ByteStreamWithOffset.h, ByteStreamWithOffsetAndSize.h) over a `MemoryByteStream`
of any kind, and property C37. 64-bit overflow of offsets is not modelled.
-/
namespace Verif.Stream

/-- `ByteStreamWithOffset`: ByteStreamWithOffset.h:19-21. -/
structure Win where
  mem : Mem
  offset : Nat
  position : Nat
  deriving DecidableEq, Repr

namespace Win

/-- The constructor: ByteStreamWithOffset.h:24-28. -/
def create (m : Mem) (offset : Int) : Except Err Win :=
  if offset ≥ 0 then
    match m.seek offset .begin with
    | .error e => .error e
    | .ok m' => .ok ⟨m', offset.toNat, 0⟩
  else .error .argument

/-- `Tell`: ByteStreamWithOffset.h:30-37. -/
def tell (s : Win) : Except Err Nat :=
  if s.mem.tell ≥ s.offset then if s.mem.tell - s.offset = s.position then .ok (s.mem.tell - s.offset) else .error .logic else .error .outOfRange

/-- The end of `Seek`: ByteStreamWithOffset.h:67-69. -/
def seekTo (s : Win) (newPos : Int) : Except Err Win :=
  if newPos ≥ s.offset then
    match s.mem.seek newPos .begin with
    | .error e => .error e
    | .ok m' => .ok ⟨m', s.offset, (newPos - s.offset).toNat⟩
  else .error .outOfRange

/-- `Seek`: ByteStreamWithOffset.h:39-70. For `End` the underlying stream is moved to its end and back. -/
def seek (s : Win) (off : Int) : Mode → Except Err Win
  | .begin => s.seekTo (s.offset + off)
  | .current => match s.tell with
    | .error e => .error e
    | .ok t => s.seekTo (t + s.offset + off)
  | .end_ => match s.mem.seek 0 .end_ with
    | .error e => .error e
    | .ok m1 => match m1.seek s.mem.tell .begin with
      | .error e => .error e
      | .ok m2 => (⟨m2, s.offset, s.position⟩ : Win).seekTo (m1.tell + off)

/-- `Read`: ByteStreamWithOffset.h:72-78. -/
def read (s : Win) (n : Nat) : Except Err (List Nat × Win) :=
  match s.mem.seek (s.offset + s.position : Nat) .begin with
  | .error e => .error e
  | .ok m => .ok ((m.read n).1, ⟨(m.read n).2, s.offset, s.position + (m.read n).1.length⟩)

/-- `Write`: ByteStreamWithOffset.h:80-86. -/
def write (s : Win) (d : List Nat) : Except Err (Nat × Win) :=
  match s.mem.seek (s.offset + s.position : Nat) .begin with
  | .error e => .error e
  | .ok m => match m.write d with
    | .error e => .error e
    | .ok r => .ok (r.1, ⟨r.2, s.offset, s.position + r.1⟩)

/-- One step, ByteStreamWithOffset.h 19-86 and ByteStreamWithOffsetAndSize.h 19-84. -/
def step (s : Win) : Mem.Op → Win × Mem.Out
  | .read n => match s.read n with
    | .error e => (s, .err e)
    | .ok r => (r.2, .bytes r.1)
  | .write d => match s.write d with
    | .error e => (s, .err e)
    | .ok r => (r.2, .num r.1)
  | .seek off m => match s.seek off m with
    | .error e => (s, .err e)
    | .ok s' => (s', .unit)
  | .tell => match s.tell with
    | .error e => (s, .err e)
    | .ok t => (s, .num t)

end Win

/-- `ByteStreamWithOffsetAndSize`: ByteStreamWithOffsetAndSize.h:19-22. -/
structure WinSize where
  mem : Mem
  offset : Nat
  endOffset : Nat
  position : Nat
  deriving DecidableEq, Repr

namespace WinSize

/-- The constructor: ByteStreamWithOffsetAndSize.h:25-29. -/
def create (m : Mem) (offset size : Int) : Except Err WinSize :=
  if offset ≥ 0 ∧ offset < offset + size then
    match m.seek offset .begin with
    | .error e => .error e
    | .ok m' => .ok ⟨m', offset.toNat, (offset + size).toNat, 0⟩
  else .error .outOfRange

/-- `Tell`: ByteStreamWithOffsetAndSize.h:31-36. -/
def tell (s : WinSize) : Except Err Nat := if s.position ≤ s.endOffset - s.offset then .ok s.position else .error .outOfRange

/-- `Seek`: ByteStreamWithOffsetAndSize.h:38-63. -/
def newPos (s : WinSize) (off : Int) : Mode → Int
  | .begin => s.offset + off
  | .current => s.position + s.offset + off
  | .end_ => s.endOffset + off

/-- Seek, ByteStreamWithOffset.h 19-86 and ByteStreamWithOffsetAndSize.h 19-84. -/
def seek (s : WinSize) (off : Int) (m : Mode) : Except Err WinSize :=
  if s.newPos off m ≥ s.offset ∧ s.newPos off m ≤ s.endOffset then
    match s.mem.seek (s.newPos off m) .begin with
    | .error e => .error e
    | .ok m' => .ok ⟨m', s.offset, s.endOffset, (s.newPos off m - s.offset).toNat⟩
  else .error .outOfRange

/-- `Read`: ByteStreamWithOffsetAndSize.h:65-73. -/
def read (s : WinSize) (n : Nat) : Except Err (List Nat × WinSize) :=
  if s.offset + s.position ≤ s.endOffset then
    match s.mem.seek (s.offset + s.position : Nat) .begin with
    | .error e => .error e
    | .ok m => .ok ((m.read (min n (s.endOffset - s.offset - s.position))).1,
        ⟨(m.read (min n (s.endOffset - s.offset - s.position))).2, s.offset, s.endOffset, s.position + (m.read (min n (s.endOffset - s.offset - s.position))).1.length⟩)
  else .error .outOfRange

/-- `Write`: ByteStreamWithOffsetAndSize.h:75-84. -/
def write (s : WinSize) (d : List Nat) : Except Err (Nat × WinSize) :=
  if s.offset + s.position ≤ s.endOffset then
    if s.endOffset - s.offset - s.position ≠ 0 then
      match s.mem.seek (s.offset + s.position : Nat) .begin with
      | .error e => .error e
      | .ok m => match m.write (d.take (min d.length (s.endOffset - s.offset - s.position))) with
        | .error e => .error e
        | .ok r => .ok (r.1, ⟨r.2, s.offset, s.endOffset, s.position + r.1⟩)
    else .error .noSpace
  else .error .outOfRange

/-- One step, ByteStreamWithOffset.h 19-86 and ByteStreamWithOffsetAndSize.h 19-84. -/
def step (s : WinSize) : Mem.Op → WinSize × Mem.Out
  | .read n => match s.read n with
    | .error e => (s, .err e)
    | .ok r => (r.2, .bytes r.1)
  | .write d => match s.write d with
    | .error e => (s, .err e)
    | .ok r => (r.2, .num r.1)
  | .seek off m => match s.seek off m with
    | .error e => (s, .err e)
    | .ok s' => (s', .unit)
  | .tell => match s.tell with
    | .error e => (s, .err e)
    | .ok t => (s, .num t)

end WinSize

/-- A window of at most `size` bytes with contents `w` and position `p`: what a call does and returns. Seeking beyond the bytes present is rejected by the memory
stream underneath; writing takes only what fits the window (and, for fixed memory, the memory). -/
inductive Spec.WinStep (k : Kind) (size : Nat) : List Nat → Nat → Mem.Op → List Nat → Nat → Mem.Out → Prop
  | read (w p n) : WinStep k size w p (.read n) w (p + ((w.drop p).take n).length) (.bytes ((w.drop p).take n))
  | write (w p d d' rest) : k ≠ .const → p < size → d = d' ++ rest → p + d'.length ≤ size → (k = .fixed → p + d'.length ≤ w.length) →
      (rest ≠ [] → p + d'.length = size ∨ (k = .fixed ∧ p + d'.length = w.length)) →
      WinStep k size w p (.write d) (w.take p ++ d' ++ w.drop (p + d'.length)) (p + d'.length) (.num d'.length)
  | writeFull (w p d) : p = size → WinStep k size w p (.write d) w p (.err .noSpace)
  | writeConst (w p d) : k = .const → p < size → WinStep k size w p (.write d) w p (.err .constContainer)
  | seek (w p off m) (q : Nat) : (q : Int) = origin size p m + off → q ≤ size → q ≤ w.length → WinStep k size w p (.seek off m) w q .unit
  | seekBad (w p off m e) : origin size p m + off < 0 ∨ origin size p m + off > (size : Int) ∨ origin size p m + off > (w.length : Int) →
      WinStep k size w p (.seek off m) w p (.err e)
  | tell (w p) : WinStep k size w p .tell w p (.num p)

theorem seek_begin {m : Mem} (hsz : m.data.length < 2 ^ 31) (q : Int) :
    (0 ≤ q ∧ q ≤ m.data.length ∧ m.seek q .begin = .ok { m with offset := q.toNat }) ∨ ((q < 0 ∨ q > m.data.length) ∧ ∃ e, m.seek q .begin = .error e) := by
  have ht : m.target q .begin = q := rfl
  unfold Mem.seek
  rw [ht]
  by_cases h1 : q < 0
  · rw [if_pos h1]; exact Or.inr ⟨Or.inl h1, _, rfl⟩
  · rw [if_neg h1, Mem.toInt_small hsz]
    by_cases h2 : q > m.data.length
    · rw [if_pos h2]; exact Or.inr ⟨Or.inr h2, _, rfl⟩
    · rw [if_neg h2]; exact Or.inl ⟨by omega, by omega, rfl⟩

/-- What a successful write of the memory stream does, for a growing or fixed container. -/
theorem mem_write_ok {m : Mem} (hk : m.kind ≠ .const) (ho : m.offset ≤ m.data.length) (d : List Nat) :
    ∃ d' rest, d = d' ++ rest ∧ m.write d = .ok (d'.length, ⟨m.kind, m.data.take m.offset ++ d' ++ m.data.drop (m.offset + d'.length), m.offset + d'.length⟩) ∧
      (m.kind = .growing → rest = []) ∧ (m.kind = .fixed → m.offset + d'.length ≤ m.data.length ∧ (rest ≠ [] → m.offset + d'.length = m.data.length)) := by
  cases hkk : m.kind with
  | const => exact absurd hkk hk
  | growing =>
    refine ⟨d, [], by simp, ?_, fun _ => rfl, by simp⟩
    have hg : (m.grown d).take m.offset = m.data.take m.offset ∧ (m.grown d).drop (m.offset + d.length) = m.data.drop (m.offset + d.length) ∧ m.offset + d.length ≤ (m.grown d).length := by
      unfold Mem.grown Mem.require
      by_cases h1 : m.data.length - m.offset < d.length
      · rw [if_pos h1, if_pos hkk]
        refine ⟨by rw [List.take_append_of_le_length ho], ?_, by simp; omega⟩
        rw [List.drop_append, List.drop_replicate, Nat.sub_self]; simp
      · rw [if_neg h1]
        exact ⟨rfl, rfl, by omega⟩
    have hm : min d.length ((m.grown d).length - m.offset) = d.length := by omega
    rw [Mem.write, if_neg hk]
    simp only [hm, overwrite, List.take_length, hg.1, hg.2.1, hkk]
  | fixed =>
    have hg : m.grown d = m.data := by
      unfold Mem.grown Mem.require
      rw [if_neg (show ¬ m.kind = .growing by rw [hkk]; simp)]
      split <;> rfl
    have hl : (d.take (min d.length (m.data.length - m.offset))).length = min d.length (m.data.length - m.offset) := by rw [List.length_take]; omega
    refine ⟨d.take (min d.length (m.data.length - m.offset)), d.drop (min d.length (m.data.length - m.offset)), (List.take_append_drop _ _).symm, ?_, by simp, ?_⟩
    · rw [Mem.write, if_neg hk]
      simp only [hg, overwrite, hl, hkk]
    · intro _
      rw [hl]
      refine ⟨by omega, fun hne => ?_⟩
      have : ¬ d.length ≤ min d.length (m.data.length - m.offset) := fun hle => hne (List.drop_eq_nil_of_le hle)
      omega

theorem mem_read (m : Mem) (n : Nat) : m.read n = ((m.data.drop m.offset).take n, { m with offset := m.offset + ((m.data.drop m.offset).take n).length }) := by
  obtain ⟨h1, h2⟩ := Mem.read_length m n
  unfold Mem.read
  rw [h1]
  rw [h2]

/-- The data of the stream underneath is as long as the underlying implementation supports, and the position is on bytes that exist. -/
def Spec.WinOk (m : Mem) (offset position : Nat) : Prop := m.data.length < 2 ^ 31 ∧ offset + position ≤ m.data.length

open Spec

/-- C37, `ByteStreamWithOffset`: every call acts on the bytes from the offset on as a memory stream over exactly those bytes would, and leaves the bytes before the
offset alone. Reading and writing do not depend on where the stream underneath was left by others; `Tell` and seeking from the current position do
(`hpos`; `Tell` then throws). -/
theorem window_step_partial (s : Win) (op : Mem.Op) (h : WinOk s.mem s.offset s.position)
    (hpos : op = .tell ∨ (∃ off, op = .seek off .current) → s.mem.offset = s.offset + s.position)
    (hend : s.mem.offset ≤ s.mem.data.length) :
    Step s.mem.kind (s.mem.data.drop s.offset) s.position op ((s.step op).1.mem.data.drop s.offset) (s.step op).1.position (s.step op).2 ∧
    (s.step op).1.mem.data.take s.offset = s.mem.data.take s.offset ∧ (s.step op).1.offset = s.offset ∧ (s.step op).1.mem.kind = s.mem.kind ∧
    s.offset + (s.step op).1.position ≤ (s.step op).1.mem.data.length := by
  obtain ⟨hsz, hp⟩ := h
  have hlen : (s.mem.data.drop s.offset).length = s.mem.data.length - s.offset := List.length_drop
  have key : ∀ (s : Win) (q p0 : Int), s.mem.data.length < 2 ^ 31 → s.offset ≤ s.mem.data.length → q = s.offset + p0 →
      (∃ e, s.seekTo q = .error e ∧ (p0 < 0 ∨ p0 > ((s.mem.data.drop s.offset).length : Int))) ∨
      (0 ≤ p0 ∧ p0 ≤ (s.mem.data.drop s.offset).length ∧ s.seekTo q = .ok ⟨{ s.mem with offset := q.toNat }, s.offset, p0.toNat⟩) := by
    intro s q p0 hsz hso hq
    unfold Win.seekTo
    have hlen : (s.mem.data.drop s.offset).length = s.mem.data.length - s.offset := List.length_drop
    by_cases h1 : q ≥ s.offset
    · rw [if_pos h1]
      rcases seek_begin hsz q with ⟨g1, g2, g3⟩ | ⟨g1, e, g2⟩
      · rw [g3]
        refine Or.inr ⟨by omega, by omega, ?_⟩
        simp only [Except.ok.injEq, Win.mk.injEq, true_and]
        omega
      · rw [g2]
        exact Or.inl ⟨e, rfl, by omega⟩
    · rw [if_neg h1]
      exact Or.inl ⟨_, rfl, by omega⟩
  cases op with
  | read n =>
    rcases seek_begin hsz ((s.offset + s.position : Nat) : Int) with ⟨_, _, g3⟩ | ⟨g1, _⟩
    · have e1 : (((s.offset + s.position : Nat) : Int)).toNat = s.offset + s.position := by omega
      have hr : s.read n = .ok ((s.mem.data.drop (s.offset + s.position)).take n,
          ⟨{ s.mem with offset := s.offset + s.position + ((s.mem.data.drop (s.offset + s.position)).take n).length }, s.offset, s.position + ((s.mem.data.drop (s.offset + s.position)).take n).length⟩) := by
        unfold Win.read
        rw [g3, e1]
        simp only [mem_read]
      simp only [Win.step, hr]
      have e2 : s.mem.data.drop (s.offset + s.position) = (s.mem.data.drop s.offset).drop s.position := by rw [List.drop_drop]
      refine ⟨?_, trivial, trivial, trivial, ?_⟩
      · rw [e2]; exact .read _ _ _
      · rw [List.length_take, List.length_drop]; omega
    · omega
  | write d =>
    rcases seek_begin hsz ((s.offset + s.position : Nat) : Int) with ⟨_, _, g3⟩ | ⟨g1, _⟩
    · have e1 : (((s.offset + s.position : Nat) : Int)).toNat = s.offset + s.position := by omega
      rw [e1] at g3
      by_cases hk : s.mem.kind = .const
      · have hw : s.write d = .error .constContainer := by
          unfold Win.write
          rw [g3]
          simp only [Mem.write, if_pos hk]
        simp only [Win.step, hw]
        exact ⟨.writeConst _ _ _ hk, trivial, trivial, trivial, hp⟩
      · obtain ⟨d', rest, w1, w2, w3, w4⟩ := mem_write_ok (m := { s.mem with offset := s.offset + s.position }) hk hp d
        have hw : s.write d = .ok (d'.length, ⟨⟨s.mem.kind, s.mem.data.take (s.offset + s.position) ++ d' ++ s.mem.data.drop (s.offset + s.position + d'.length),
            s.offset + s.position + d'.length⟩, s.offset, s.position + d'.length⟩) := by
          unfold Win.write
          rw [g3]
          simp only [w2]
        simp only [Win.step, hw]
        have f1 : s.mem.data.take (s.offset + s.position) = s.mem.data.take s.offset ++ (s.mem.data.drop s.offset).take s.position := by
          rw [List.take_add]
        have f2 : s.mem.data.drop (s.offset + s.position + d'.length) = (s.mem.data.drop s.offset).drop (s.position + d'.length) := by
          rw [List.drop_drop, Nat.add_assoc]
        have f3 : (s.mem.data.take s.offset).length = s.offset := by rw [List.length_take]; omega
        have f4 : (s.mem.data.take (s.offset + s.position) ++ d' ++ s.mem.data.drop (s.offset + s.position + d'.length)).drop s.offset =
            (s.mem.data.drop s.offset).take s.position ++ d' ++ (s.mem.data.drop s.offset).drop (s.position + d'.length) := by
          rw [f1, f2, List.append_assoc, List.append_assoc, List.drop_left' f3, List.append_assoc]
        refine ⟨?_, ?_, trivial, trivial, ?_⟩
        · rw [f4]
          cases hkk : s.mem.kind with
          | const => exact absurd hkk hk
          | growing =>
            have hr0 := w3 hkk
            rw [hr0, List.append_nil] at w1
            rw [w1]
            exact .writeGrowing _ _ _ rfl
          | fixed =>
            obtain ⟨u1, u2⟩ := w4 hkk
            simp only [] at u1 u2
            refine .writeFixed _ _ _ _ rest rfl w1 (by omega) (fun hne => ?_)
            have := u2 hne
            omega
        · rw [f1, List.append_assoc, List.append_assoc, List.take_left' f3]
        · simp only [List.length_append, List.length_take, List.length_drop]; omega
    · omega
  | seek off m =>
    have hseek : ∃ s0 : Win, s0.mem.data = s.mem.data ∧ s0.mem.kind = s.mem.kind ∧ s0.offset = s.offset ∧
        s.seek off m = s0.seekTo (s.offset + (origin (s.mem.data.drop s.offset).length s.position m + off)) := by
      cases m with
      | begin => exact ⟨s, rfl, rfl, rfl, by simp [Win.seek, origin]⟩
      | current =>
        have := hpos (Or.inr ⟨off, rfl⟩)
        refine ⟨s, rfl, rfl, rfl, ?_⟩
        have ht : s.tell = .ok s.position := by
          unfold Win.tell Mem.tell
          rw [if_pos (by omega), if_pos (by omega)]
          congr 1; omega
        simp only [Win.seek, ht, origin]
        congr 1; omega
      | end_ =>
        have g1 : s.mem.seek 0 .end_ = .ok { s.mem with offset := s.mem.data.length } := by
          unfold Mem.seek
          simp only [Mem.target, Int.add_zero]
          rw [if_neg (by omega), Mem.toInt_small hsz, if_neg (by omega)]
          rfl
        rcases seek_begin (m := { s.mem with offset := s.mem.data.length }) hsz (s.mem.offset : Int) with ⟨_, _, g3⟩ | ⟨g2, _⟩
        · refine ⟨⟨{ s.mem with offset := s.mem.offset }, s.offset, s.position⟩, rfl, rfl, rfl, ?_⟩
          simp only [Win.seek, g1, Mem.tell, origin]
          rw [g3]
          simp only []
          congr 1
          rw [hlen]; omega
        · simp only [] at g2; omega
    obtain ⟨s0, q1, q2, q3, q4⟩ := hseek
    rcases key s0 (s.offset + (origin (s.mem.data.drop s.offset).length s.position m + off)) (origin (s.mem.data.drop s.offset).length s.position m + off)
        (by rw [q1]; exact hsz) (by rw [q1, q3]; omega) (by rw [q3]) with ⟨e, k1, k2⟩ | ⟨k1, k2, k3⟩
    · rw [q1, q3] at k2
      simp only [Win.step, q4, k1]
      exact ⟨.seekBad _ _ _ _ _ k2, trivial, trivial, trivial, hp⟩
    · rw [q1, q3] at k2
      simp only [Win.step, q4, k3, q1, q2, q3]
      refine ⟨.seek _ _ _ _ _ (by omega) (by omega), trivial, trivial, trivial, by omega⟩
  | tell =>
    have := hpos (Or.inl rfl)
    have ht : s.tell = .ok s.position := by
      unfold Win.tell Mem.tell
      rw [if_pos (by omega), if_pos (by omega)]
      congr 1; omega
    simp only [Win.step, ht]
    exact ⟨.tell _ _, trivial, trivial, trivial, hp⟩

/-- C37, `ByteStreamWithOffsetAndSize`: every call acts on the window as specified, never touches a byte outside it, and does not depend on where the stream underneath
was left by others. -/
theorem sized_window_step_partial (s : WinSize) (op : Mem.Op) (h : WinOk s.mem s.offset s.position) (hw : s.offset + s.position ≤ s.endOffset) :
    WinStep s.mem.kind (s.endOffset - s.offset) ((s.mem.data.drop s.offset).take (s.endOffset - s.offset)) s.position op
      (((s.step op).1.mem.data.drop s.offset).take (s.endOffset - s.offset)) (s.step op).1.position (s.step op).2 ∧
    (s.step op).1.mem.data.take s.offset = s.mem.data.take s.offset ∧ (s.step op).1.mem.data.drop s.endOffset = s.mem.data.drop s.endOffset ∧
    (s.step op).1.offset = s.offset ∧ (s.step op).1.endOffset = s.endOffset ∧ (s.step op).1.mem.kind = s.mem.kind ∧
    s.offset + (s.step op).1.position ≤ (s.step op).1.mem.data.length ∧ s.offset + (s.step op).1.position ≤ s.endOffset := by
  obtain ⟨hsz, hp⟩ := h
  have e1 : (((s.offset + s.position : Nat) : Int)).toNat = s.offset + s.position := by omega
  have hwl : ((s.mem.data.drop s.offset).take (s.endOffset - s.offset)).length = min (s.endOffset - s.offset) (s.mem.data.length - s.offset) := by
    rw [List.length_take, List.length_drop]
  cases op with
  | read n =>
    rcases seek_begin hsz ((s.offset + s.position : Nat) : Int) with ⟨_, _, g3⟩ | ⟨g1, _⟩
    · rw [e1] at g3
      have hb : (s.mem.data.drop (s.offset + s.position)).take (min n (s.endOffset - s.offset - s.position)) =
          (((s.mem.data.drop s.offset).take (s.endOffset - s.offset)).drop s.position).take n := by
        rw [List.drop_take, List.take_take, List.drop_drop]
      have hr : s.read n = .ok ((((s.mem.data.drop s.offset).take (s.endOffset - s.offset)).drop s.position).take n,
          ⟨{ s.mem with offset := s.offset + s.position + ((((s.mem.data.drop s.offset).take (s.endOffset - s.offset)).drop s.position).take n).length }, s.offset, s.endOffset,
            s.position + ((((s.mem.data.drop s.offset).take (s.endOffset - s.offset)).drop s.position).take n).length⟩) := by
        unfold WinSize.read
        rw [if_pos hw, g3]
        simp only [mem_read, hb]
      simp only [WinSize.step, hr]
      refine ⟨.read _ _ _, trivial, trivial, trivial, trivial, trivial, ?_, ?_⟩ <;>
      · rw [List.length_take, List.length_drop, hwl]; omega
    · omega
  | write d =>
    by_cases hfull : s.endOffset - s.offset - s.position = 0
    · have hwr : s.write d = .error .noSpace := by
        unfold WinSize.write
        rw [if_pos hw, if_neg (by omega)]
      simp only [WinSize.step, hwr]
      exact ⟨.writeFull _ _ _ (by omega), trivial, trivial, trivial, trivial, trivial, hp, hw⟩
    · rcases seek_begin hsz ((s.offset + s.position : Nat) : Int) with ⟨_, _, g3⟩ | ⟨g1, _⟩
      · rw [e1] at g3
        by_cases hk : s.mem.kind = .const
        · have hwr : s.write d = .error .constContainer := by
            unfold WinSize.write
            rw [if_pos hw, if_pos hfull, g3]
            simp only [Mem.write, if_pos hk]
          simp only [WinSize.step, hwr]
          exact ⟨.writeConst _ _ _ hk (by omega), trivial, trivial, trivial, trivial, trivial, hp, hw⟩
        · obtain ⟨d', rest, w1, w2, w3, w4⟩ := mem_write_ok (m := { s.mem with offset := s.offset + s.position }) hk hp (d.take (min d.length (s.endOffset - s.offset - s.position)))
          have hwr : s.write d = .ok (d'.length, ⟨⟨s.mem.kind, s.mem.data.take (s.offset + s.position) ++ d' ++ s.mem.data.drop (s.offset + s.position + d'.length),
              s.offset + s.position + d'.length⟩, s.offset, s.endOffset, s.position + d'.length⟩) := by
            unfold WinSize.write
            rw [if_pos hw, if_pos hfull, g3]
            simp only [w2]
          have hd' : d'.length + rest.length = min d.length (s.endOffset - s.offset - s.position) := by
            have := congrArg List.length w1
            rw [List.length_take, List.length_append] at this
            omega
          simp only [WinSize.step, hwr]
          have f1 : s.mem.data.take (s.offset + s.position) = s.mem.data.take s.offset ++ (s.mem.data.drop s.offset).take s.position := by
            rw [List.take_add]
          have f2 : s.mem.data.drop (s.offset + s.position + d'.length) = (s.mem.data.drop s.offset).drop (s.position + d'.length) := by
            rw [List.drop_drop, Nat.add_assoc]
          have f3 : (s.mem.data.take s.offset).length = s.offset := by rw [List.length_take]; omega
          have f4 : (s.mem.data.take (s.offset + s.position) ++ d' ++ s.mem.data.drop (s.offset + s.position + d'.length)).drop s.offset =
              (s.mem.data.drop s.offset).take s.position ++ d' ++ (s.mem.data.drop s.offset).drop (s.position + d'.length) := by
            rw [f1, f2, List.append_assoc, List.append_assoc, List.drop_left' f3, List.append_assoc]
          have f5 : (s.mem.data.take (s.offset + s.position) ++ d').length = s.offset + s.position + d'.length := by
            rw [List.length_append, List.length_take]; omega
          have hpl : ((s.mem.data.drop s.offset).take s.position).length = s.position := by rw [List.length_take, List.length_drop]; omega
          have f6 : ((s.mem.data.drop s.offset).take s.position ++ d' ++ (s.mem.data.drop s.offset).drop (s.position + d'.length)).take (s.endOffset - s.offset) =
              ((s.mem.data.drop s.offset).take (s.endOffset - s.offset)).take s.position ++ d' ++ ((s.mem.data.drop s.offset).take (s.endOffset - s.offset)).drop (s.position + d'.length) := by
            rw [List.take_append, List.length_append, hpl, List.take_of_length_le (by rw [List.length_append, hpl]; omega), List.take_take, Nat.min_eq_left (by omega : s.position ≤ s.endOffset - s.offset),
              List.drop_take]
          refine ⟨?_, ?_, ?_, trivial, trivial, trivial, ?_, by omega⟩
          · rw [f4, f6]
            refine .write _ _ _ d' (rest ++ d.drop (min d.length (s.endOffset - s.offset - s.position))) hk (by omega) ?_ (by omega) ?_ ?_
            · rw [← List.append_assoc, ← w1, List.take_append_drop]
            · intro hf
              have := (w4 hf).1
              simp only [] at this
              rw [hwl]; omega
            · intro hne
              by_cases hrest : rest = []
              · left
                rw [hrest, List.nil_append] at hne
                have h1 : ¬ d.length ≤ min d.length (s.endOffset - s.offset - s.position) := fun hle => hne (List.drop_eq_nil_of_le hle)
                rw [hrest, List.length_nil] at hd'
                omega
              · cases hkk : s.mem.kind with
                | const => exact absurd hkk hk
                | growing => exact absurd (w3 hkk) hrest
                | fixed =>
                  have h1 := (w4 hkk).2 hrest
                  simp only [] at h1
                  right
                  refine ⟨rfl, ?_⟩
                  rw [hwl]
                  omega
          · rw [f1, List.append_assoc, List.append_assoc, List.take_left' f3]
          · obtain ⟨j, hj⟩ : ∃ j, s.endOffset = s.offset + s.position + d'.length + j := ⟨s.endOffset - (s.offset + s.position + d'.length), by omega⟩
            rw [hj, ← List.drop_drop, List.drop_left' f5, List.drop_drop]
          · simp only [List.length_append, List.length_take, List.length_drop]; omega
      · omega
  | seek off m =>
    have ht : s.newPos off m = s.offset + (origin (s.endOffset - s.offset) s.position m + off) := by
      cases m <;> simp only [WinSize.newPos, origin] <;> omega
    simp only [WinSize.step, WinSize.seek]
    by_cases h1 : s.newPos off m ≥ s.offset ∧ s.newPos off m ≤ s.endOffset
    · rw [if_pos h1]
      rcases seek_begin hsz (s.newPos off m) with ⟨g1, g2, g3⟩ | ⟨g1, e, g2⟩
      · rw [g3]
        simp only []
        refine ⟨.seek _ _ _ _ _ (by omega) (by omega) (by rw [hwl]; omega), trivial, trivial, trivial, trivial, trivial, by omega, by omega⟩
      · rw [g2]
        simp only []
        refine ⟨.seekBad _ _ _ _ _ ?_, trivial, trivial, trivial, trivial, trivial, hp, hw⟩
        rw [hwl]; omega
    · rw [if_neg h1]; simp only []
      refine ⟨.seekBad _ _ _ _ _ ?_, trivial, trivial, trivial, trivial, trivial, hp, hw⟩
      omega
  | tell =>
    have ht : s.tell = .ok s.position := by
      unfold WinSize.tell
      rw [if_pos (by omega)]
    simp only [WinSize.step, ht]
    exact ⟨.tell _ _, trivial, trivial, trivial, trivial, trivial, hp, hw⟩

/-- C37, construction: the hypotheses of the step theorems hold for a new window, or its creation is rejected. -/
theorem window_create {m : Mem} (hsz : m.data.length < 2 ^ 31) (hm : m.offset ≤ m.data.length) (offset size : Int) :
    ((∃ e, Win.create m offset = .error e) ∨ ∃ s, Win.create m offset = .ok s ∧ WinOk s.mem s.offset s.position ∧ s.mem.data = m.data ∧ s.offset = offset ∧ s.position = 0 ∧
      s.mem.offset = s.offset + s.position ∧ s.mem.offset ≤ s.mem.data.length) ∧
    ((∃ e, WinSize.create m offset size = .error e) ∨ ∃ s, WinSize.create m offset size = .ok s ∧ WinOk s.mem s.offset s.position ∧ s.mem.data = m.data ∧ s.offset = offset ∧ s.position = 0 ∧
      s.endOffset = offset + size ∧ s.offset + s.position ≤ s.endOffset) := by
  constructor
  · unfold Win.create
    by_cases h : offset ≥ 0
    · rw [if_pos h]
      rcases seek_begin hsz offset with ⟨g1, g2, g3⟩ | ⟨_, e, g2⟩
      · rw [g3]
        refine Or.inr ⟨_, rfl, ⟨hsz, ?_⟩, rfl, ?_, rfl, rfl, ?_⟩ <;> (simp only []; omega)
      · rw [g2]; exact Or.inl ⟨e, rfl⟩
    · rw [if_neg h]; exact Or.inl ⟨_, rfl⟩
  · unfold WinSize.create
    by_cases h : offset ≥ 0 ∧ offset < offset + size
    · rw [if_pos h]
      rcases seek_begin hsz offset with ⟨g1, g2, g3⟩ | ⟨_, e, g2⟩
      · rw [g3]
        refine Or.inr ⟨_, rfl, ⟨hsz, ?_⟩, rfl, ?_, rfl, ?_, ?_⟩ <;> (simp only []; omega)
      · rw [g2]; exact Or.inl ⟨e, rfl⟩
    · rw [if_neg h]; exact Or.inl ⟨_, rfl⟩

/-- C37 refuted for `Tell` of `ByteStreamWithOffset` when someone else uses the stream underneath: it throws although the window's position is 0. -/
theorem window_tell_violated : Win.tell ⟨⟨.growing, [1, 2, 3], 3⟩, 1, 0⟩ = .error .logic := rfl

/-! Non-vacuity. -/
example : (Win.step ⟨⟨.growing, [1, 2, 3], 3⟩, 1, 0⟩ (.read 5)).2 = .bytes [2, 3] ∧
    (WinSize.step ⟨⟨.growing, [1, 2, 3, 4, 5], 0⟩, 1, 4, 1⟩ (.write [7, 8, 9])) = (⟨⟨.growing, [1, 2, 7, 8, 5], 4⟩, 1, 4, 3⟩, .num 2) ∧
    (WinSize.step ⟨⟨.growing, [1, 2, 3, 4, 5], 0⟩, 1, 4, 1⟩ (.seek 1 .end_)).2 = .err .outOfRange := by decide +kernel

end Verif.Stream
