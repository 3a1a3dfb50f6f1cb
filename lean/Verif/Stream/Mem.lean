/-
Model of `MemoryByteStream` (stingraykit/io/MemoryByteStream.h) over a `ByteArray` without size limit (writes extend it), a fixed `ByteData` or a constant container,
and property C56.
-/
namespace Verif.Stream

/-- The ways in which the code of MemoryByteStream.h 21-101 can fail. -/
inductive Err where
  | outOfRange | notImplemented | constContainer | logic | noSpace | argument
  deriving DecidableEq, Repr

/-- `SeekMode`: io/SeekMode.h:18-28. -/
inductive Mode where
  | begin | current | end_
  deriving DecidableEq, Repr

/-- The exceptions, MemoryByteStream.h 21-101. -/
inductive Kind where
  | growing | fixed | const
  deriving DecidableEq, Repr

/-- `MemoryByteStream`: MemoryByteStream.h:62-69. -/
structure Mem where
  kind : Kind
  data : List Nat
  offset : Nat
  deriving DecidableEq, Repr

/-- Overwriting `l` with `d` from position `p` (`std::copy`).  For MemoryByteStream.h 21-101. -/
def overwrite (l : List Nat) (p : Nat) (d : List Nat) : List Nat := l.take p ++ d ++ l.drop (p + d.length)

namespace Mem

/-- The state after construction, MemoryByteStream.h 21-101. -/
def create (k : Kind) (data : List Nat) : Mem := ⟨k, data, 0⟩

/-- `Read`: MemoryByteStream.h:73-79. -/
def read (s : Mem) (n : Nat) : List Nat × Mem :=
  ((s.data.drop s.offset).take (min n (s.data.length - s.offset)), { s with offset := s.offset + min n (s.data.length - s.offset) })

/-- `RequireSize` of the container: MemoryByteStream.h:21-33 and ByteData.h:211-216 (new bytes are zero). -/
def require (s : Mem) (size : Nat) : List Nat := if s.kind = .growing then s.data ++ List.replicate (size - s.data.length) 0 else s.data

/-- The container after the size check: MemoryByteStream.h:41-42. -/
def grown (s : Mem) (d : List Nat) : List Nat := if s.data.length - s.offset < d.length then s.require (s.offset + d.length) else s.data

/-- `Write`: MemoryByteStream.h:36-56, 81-82. -/
def write (s : Mem) (d : List Nat) : Except Err (Nat × Mem) :=
  if s.kind = .const then .error .constContainer
  else .ok (min d.length ((s.grown d).length - s.offset),
    ⟨s.kind, overwrite (s.grown d) s.offset (d.take (min d.length ((s.grown d).length - s.offset))), s.offset + min d.length ((s.grown d).length - s.offset)⟩)

/-- `(int)n` for a `size_t`: two's complement of the low 32 bits.  Of MemoryByteStream.h 21-101. -/
def toInt (n : Nat) : Int := if n % 2 ^ 32 < 2 ^ 31 then n % 2 ^ 32 else (n % 2 ^ 32 : Nat) - 2 ^ 32

/-- The new offset: MemoryByteStream.h:86-92. -/
def target (s : Mem) (off : Int) : Mode → Int
  | .begin => off
  | .current => s.offset + off
  | .end_ => s.data.length + off

/-- `Seek`: MemoryByteStream.h:84-98. -/
def seek (s : Mem) (off : Int) (m : Mode) : Except Err Mem :=
  if s.target off m < 0 then .error .outOfRange
  else if s.target off m > toInt s.data.length then .error .notImplemented
  else .ok { s with offset := (s.target off m).toNat }

/-- `Tell`: MemoryByteStream.h:100-101. -/
def tell (s : Mem) : Nat := s.offset

/-- The calls, MemoryByteStream.h 21-101. -/
inductive Op where
  | read (n : Nat) | write (d : List Nat) | seek (off : Int) (m : Mode) | tell
  deriving Repr

/-- What a call returns, MemoryByteStream.h 21-101. -/
inductive Out where
  | bytes (l : List Nat) | num (n : Nat) | unit | err (e : Err)
  deriving DecidableEq, Repr

/-- One step, MemoryByteStream.h 21-101. -/
def step (s : Mem) : Op → Mem × Out
  | .read n => ((s.read n).2, .bytes (s.read n).1)
  | .write d => match s.write d with
    | .error e => (s, .err e)
    | .ok r => (r.2, .num r.1)
  | .seek off m => match s.seek off m with
    | .error e => (s, .err e)
    | .ok s' => (s', .unit)
  | .tell => (s, .num s.tell)

end Mem

/-! ### Specification: a byte array with a position -/

/-- The position a seek counts from, for an array of size `n` and position `p`. -/
def Spec.origin (n p : Nat) : Mode → Int
  | .begin => 0
  | .current => p
  | .end_ => n

/-- What a call does to a byte array `c` with position `p ≤ c.length`, and what it returns. -/
inductive Spec.Step (k : Kind) : List Nat → Nat → Mem.Op → List Nat → Nat → Mem.Out → Prop
  | read (c p n) : Step k c p (.read n) c (p + ((c.drop p).take n).length) (.bytes ((c.drop p).take n))
  /-- writing replaces the bytes from the position on, extending the array -/
  | writeGrowing (c p d) : k = .growing → Step k c p (.write d) (c.take p ++ d ++ c.drop (p + d.length)) (p + d.length) (.num d.length)
  /-- a fixed array takes only what fits -/
  | writeFixed (c p d d' rest) : k = .fixed → d = d' ++ rest → p + d'.length ≤ c.length → (rest ≠ [] → p + d'.length = c.length) →
      Step k c p (.write d) (c.take p ++ d' ++ c.drop (p + d'.length)) (p + d'.length) (.num d'.length)
  | writeConst (c p d) : k = .const → Step k c p (.write d) c p (.err .constContainer)
  | seek (c p off m) (q : Nat) : (q : Int) = origin c.length p m + off → q ≤ c.length → Step k c p (.seek off m) c q .unit
  | seekBad (c p off m e) : origin c.length p m + off < 0 ∨ origin c.length p m + off > (c.length : Int) → Step k c p (.seek off m) c p (.err e)
  | tell (c p) : Step k c p .tell c p (.num p)

namespace Mem

theorem read_length (s : Mem) (n : Nat) : (s.data.drop s.offset).take (min n (s.data.length - s.offset)) = (s.data.drop s.offset).take n ∧
    min n (s.data.length - s.offset) = ((s.data.drop s.offset).take n).length := by
  constructor
  · rw [List.take_eq_take_iff, List.length_drop]; omega
  · rw [List.length_take, List.length_drop]

theorem toInt_small {n : Nat} (h : n < 2 ^ 31) : toInt n = n := by
  unfold toInt
  rw [if_pos (by omega)]
  omega

/-- C56: while the data is shorter than 2 GiB every call acts on the byte array and position as specified, and the position stays inside. -/
theorem mem_step_partial (s : Mem) (op : Op) (h : s.offset ≤ s.data.length) (hsz : s.data.length < 2 ^ 31) :
    Spec.Step s.kind s.data s.offset op (s.step op).1.data (s.step op).1.offset (s.step op).2 ∧ (s.step op).1.offset ≤ (s.step op).1.data.length ∧ (s.step op).1.kind = s.kind := by
  cases op with
  | read n =>
    obtain ⟨h1, h2⟩ := read_length s n
    refine ⟨?_, ?_, rfl⟩
    · simp only [step, read, h1]
      rw [h2]
      exact .read _ _ _
    · simp only [step, read]; omega
  | write d =>
    cases hk : s.kind with
    | const =>
      simp only [step, write, if_pos hk]
      exact ⟨.writeConst _ _ _ rfl, h, hk⟩
    | growing =>
      have hg : (s.grown d).take s.offset = s.data.take s.offset ∧ (s.grown d).drop (s.offset + d.length) = s.data.drop (s.offset + d.length) ∧ s.offset + d.length ≤ (s.grown d).length ∧
          (s.grown d).length ≥ s.data.length := by
        unfold grown require
        by_cases h1 : s.data.length - s.offset < d.length
        · rw [if_pos h1, if_pos hk]
          refine ⟨by rw [List.take_append_of_le_length h], ?_, by simp; omega, by simp⟩
          rw [List.drop_append, List.drop_replicate]
          have : s.offset + d.length - s.data.length = s.offset + d.length - s.data.length := rfl
          rw [Nat.sub_self]; simp
        · rw [if_neg h1]
          exact ⟨rfl, rfl, by omega, Nat.le_refl _⟩
      have hm : min d.length ((s.grown d).length - s.offset) = d.length := by omega
      simp only [step, write, if_neg (show ¬ s.kind = .const by rw [hk]; simp), hm, overwrite, List.take_length, hg.1, hg.2.1]
      refine ⟨.writeGrowing _ _ _ rfl, ?_, hk⟩
      simp only [List.length_append, List.length_take, List.length_drop]; omega
    | fixed =>
      have hg : s.grown d = s.data := by
        unfold grown require
        rw [if_neg (show ¬ s.kind = .growing by rw [hk]; simp)]
        split <;> rfl
      have hl : (d.take (min d.length (s.data.length - s.offset))).length = min d.length (s.data.length - s.offset) := by rw [List.length_take]; omega
      simp only [step, write, if_neg (show ¬ s.kind = .const by rw [hk]; simp), hg, overwrite]
      refine ⟨?_, ?_, hk⟩
      · have := Spec.Step.writeFixed (k := .fixed) s.data s.offset d (d.take (min d.length (s.data.length - s.offset))) (d.drop (min d.length (s.data.length - s.offset))) rfl
          (List.take_append_drop _ _).symm (by rw [hl]; omega) (by
            intro hne
            rw [hl]
            have : ¬ d.length ≤ min d.length (s.data.length - s.offset) := fun hle => hne (List.drop_eq_nil_of_le hle)
            omega)
        rw [hl] at this
        rw [hl]
        exact this
      · simp only [List.length_append, List.length_take, List.length_drop]; omega
  | seek off m =>
    have ht : s.target off m = Spec.origin s.data.length s.offset m + off := by
      cases m <;> simp [target, Spec.origin]
    simp only [step, seek]
    by_cases h1 : s.target off m < 0
    · rw [if_pos h1]
      exact ⟨.seekBad _ _ _ _ _ (Or.inl (ht ▸ h1)), h, rfl⟩
    · rw [if_neg h1, toInt_small hsz]
      by_cases h2 : s.target off m > s.data.length
      · rw [if_pos h2]
        exact ⟨.seekBad _ _ _ _ _ (Or.inr (ht ▸ h2)), h, rfl⟩
      · rw [if_neg h2]
        refine ⟨.seek _ _ _ _ _ ?_ ?_, ?_, rfl⟩
        · rw [← ht]; simp only []; omega
        · simp only []; omega
        · simp only []; omega
  | tell => exact ⟨.tell _ _, h, rfl⟩

/-- C56 refuted for data of 2 GiB: the size is cast to `int`, so every `Seek`, even to the beginning, is rejected. -/
theorem mem_seek_violated (k : Kind) (data : List Nat) (p : Nat) (h : data.length = 2 ^ 31) : Mem.seek ⟨k, data, p⟩ 0 .begin = .error .notImplemented := by
  unfold seek target toInt
  simp only [h]
  rw [if_neg (by omega), if_pos (by decide)]

/-! Non-vacuity: the hypotheses hold initially, and a history. -/
example (k : Kind) (data : List Nat) : (create k data).offset ≤ (create k data).data.length := Nat.zero_le _

example : ((((create .growing [1, 2, 3]).step (.seek (-1) .end_)).1.step (.write [8, 9])).1.data = [1, 2, 8, 9]) ∧
    (((create .growing [1, 2, 3]).step (.seek 1 .begin)).1.step (.read 9)).2 = .bytes [2, 3] ∧ ((create .fixed [1, 2, 3]).step (.write [7, 7, 7, 7])).2 = .num 3 := by decide +kernel

end Mem
end Verif.Stream
