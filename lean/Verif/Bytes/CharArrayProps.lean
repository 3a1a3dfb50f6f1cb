import Verif.Bytes.CharArray
/-!
What fits is stored, terminated and padded; what does not fit is refused, and nothing is written past the end.
-/
namespace Verif.Bytes.CharArray

/-- The array `cells` holds the text `s`: `s`, and terminators from there to the end, at least one. -/
def Holds (size : Nat) (cells s : List Char) : Prop := ∃ k, cells = s ++ List.replicate (k + 1) nul ∧ cells.length = size

/-- The same, but the text may fill the array. -/
def HoldsFull (size : Nat) (cells s : List Char) : Prop := ∃ k, cells = s ++ List.replicate k nul ∧ cells.length = size

theorem strncpy_text (s rest : List Char) (h : nul ∉ s) : ∀ n, s.length < n → strncpy n (s ++ nul :: rest) = some (s ++ List.replicate (n - s.length) nul) := by
  induction s with
  | nil =>
    intro n hn
    cases n with
    | zero => simp at hn
    | succ n => simp [strncpy]
  | cons c s ih =>
    intro n hn
    simp only [List.mem_cons, not_or] at h
    cases n with
    | zero => simp at hn
    | succ n =>
      simp only [List.length_cons] at hn
      simp only [List.cons_append, strncpy, if_neg (Ne.symm h.1), ih h.2 n (by omega), List.length_cons]
      rw [show n + 1 - (s.length + 1) = n - s.length by omega]

theorem strncpy_full (s rest : List Char) (h : nul ∉ s) : ∀ n, n ≤ s.length → strncpy n (s ++ rest) = some (s.take n) := by
  induction s with
  | nil => intro n hn; simp at hn; subst hn; simp [strncpy]
  | cons c s ih =>
    intro n hn
    simp only [List.mem_cons, not_or] at h
    cases n with
    | zero => simp [strncpy]
    | succ n =>
      simp only [List.length_cons] at hn
      simp only [List.cons_append, strncpy, if_neg (Ne.symm h.1), ih h.2 n (by omega), List.take_succ_cons]

/-- Nothing is ever written outside the array, and every cell of it is. -/
theorem strncpy_length (src : List Char) : ∀ (n : Nat) (r : List Char), strncpy n src = some r → r.length = n := by
  induction src with
  | nil => intro n r h; cases n <;> simp [strncpy] at h; rw [h]; rfl
  | cons c src ih =>
    intro n r h
    cases n with
    | zero => simp [strncpy] at h; rw [h]; rfl
    | succ n =>
      simp only [strncpy] at h
      split at h
      · simp only [Option.some.injEq] at h; rw [← h]; simp
      · cases hs : strncpy n src with
        | none => rw [hs] at h; simp at h
        | some r' =>
          rw [hs] at h
          simp only [Option.some.injEq] at h
          rw [← h, List.length_cons, ih n r' hs]

/-- Every assignment writes exactly the cells of the array. -/
theorem in_bounds (size : Nat) (src cells : List Char) :
    (assignArray size src = .contents cells → cells.length = size) ∧ (assignString size src = .contents cells → cells.length = size) ∧
    (assignCStr size src = .contents cells → cells.length = size) ∧ (helper size src = .contents cells → cells.length = size) := by
  have key : ∀ l, copied (strncpy size l) = .contents cells → cells.length = size := by
    intro l h
    cases hs : strncpy size l with
    | none => rw [hs] at h; simp [copied] at h
    | some r => rw [hs] at h; simp only [copied, Assigned.contents.injEq] at h; rw [← h]; exact strncpy_length l size r hs
  refine ⟨key _, ?_, ?_, ?_⟩
  · intro h; simp only [assignString] at h; split at h
    · exact key _ h
    · simp at h
  · intro h; simp only [assignCStr] at h
    split at h
    · simp at h
    · split at h
      · exact key _ h
      · simp at h
  · intro h; simp only [helper] at h; split at h
    · exact key _ h
    · simp at h

/-- A string without terminators inside is stored exactly if it and a terminator fit; otherwise there is an exception. -/
theorem string_stored {size : Nat} {str : List Char} (h : nul ∉ str) :
    (str.length < size → ∃ cells, assignString size str = .contents cells ∧ helper size str = .contents cells ∧ Holds size cells str) ∧
    (size ≤ str.length → assignString size str = .threw ∧ helper size str = .threw) := by
  refine ⟨fun hl => ⟨str ++ List.replicate (size - str.length) nul, ?_, ?_, size - str.length - 1, ?_, ?_⟩, fun hl => ?_⟩
  · simp only [assignString, if_pos hl, strncpy_text str [] h size hl, copied]
  · simp only [helper, if_pos hl, strncpy_text str [] h size hl, copied]
  · rw [show size - str.length - 1 + 1 = size - str.length by omega]
  · simp; omega
  · simp only [assignString, helper, if_neg (by omega : ¬ str.length < size)]; exact ⟨trivial, trivial⟩

theorem strlen_text (s rest : List Char) (h : nul ∉ s) : strlen (s ++ nul :: rest) = some s.length := by
  induction s with
  | nil => simp [strlen]
  | cons c s ih =>
    simp only [List.mem_cons, not_or] at h
    simp only [List.cons_append, strlen, if_neg (Ne.symm h.1), ih h.2, List.length_cons]

/-- The same of a C string, whatever follows its terminator in memory. -/
theorem cstr_stored {size : Nat} {str : List Char} (h : nul ∉ str) (rest : List Char) :
    (str.length < size → ∃ cells, assignCStr size (str ++ nul :: rest) = .contents cells ∧ Holds size cells str) ∧
    (size ≤ str.length → assignCStr size (str ++ nul :: rest) = .threw) := by
  refine ⟨fun hl => ⟨str ++ List.replicate (size - str.length) nul, ?_, size - str.length - 1, ?_, ?_⟩, fun hl => ?_⟩
  · simp only [assignCStr, strlen_text str rest h, if_pos hl, strncpy_text str rest h size hl, copied]
  · rw [show size - str.length - 1 + 1 = size - str.length by omega]
  · simp; omega
  · simp only [assignCStr, strlen_text str rest h, if_neg (by omega : ¬ str.length < size)]

/-- An array that holds a text gives it to an array that is not smaller. -/
theorem array_stored {size other : Nat} {src s : List Char} (h : nul ∉ s) (hs : Holds other src s) (hle : other ≤ size) :
    ∃ cells, assignArray size src = .contents cells ∧ Holds size cells s := by
  obtain ⟨k, rfl, hl⟩ := hs
  simp at hl
  refine ⟨s ++ List.replicate (size - s.length) nul, ?_, size - s.length - 1, ?_, ?_⟩
  · simp only [assignArray]
    rw [List.replicate_succ, strncpy_text s _ h size (by omega)]
    rfl
  · rw [show size - s.length - 1 + 1 = size - s.length by omega]
  · simp; omega

/-- An array of the same size is copied even if its text fills it. -/
theorem same_size {size : Nat} {src s : List Char} (h : nul ∉ s) (hs : HoldsFull size src s) : ∃ cells, assignArray size src = .contents cells ∧ HoldsFull size cells s := by
  obtain ⟨k, rfl, hl⟩ := hs
  cases k with
  | zero =>
    simp at hl
    refine ⟨s, ?_, 0, by simp, hl⟩
    simp only [assignArray, List.replicate_zero]
    rw [strncpy_full s [] h size (by omega), List.take_of_length_le (by omega)]
    rfl
  | succ k =>
    obtain ⟨cells, h1, j, h2, h3⟩ := array_stored h ⟨k, rfl, by simpa using hl⟩ (Nat.le_refl size)
    exact ⟨cells, h1, j + 1, h2, h3⟩

example : assignString 4 "abc".toList = .contents ['a', 'b', 'c', nul] ∧ assignString 3 "abc".toList = .threw ∧
    assignArray 5 ['a', nul, 'x'] = .contents ['a', nul, nul, nul, nul] ∧ assignCStr 4 ['a', 'b', nul] = .contents ['a', 'b', nul, nul] ∧
    assignArray 2 ['a', 'b'] = .contents ['a', 'b'] := by decide

/-- An array whose text fills it is read past its end when it is assigned to a larger array. -/
theorem unterminated_violated {size other : Nat} {s : List Char} (h : nul ∉ s) (hl : s.length = other) (hlt : other < size) : assignArray size s = .ub := by
  have key : ∀ (l : List Char) n, nul ∉ l → l.length < n → strncpy n l = none := by
    intro l
    induction l with
    | nil => intro n _ hn; cases n <;> simp [strncpy] at hn ⊢
    | cons c l ih =>
      intro n hm hn
      simp only [List.mem_cons, not_or] at hm
      cases n with
      | zero => simp at hn
      | succ n => simp only [strncpy, if_neg (Ne.symm hm.1), ih n hm.2 (by simpa using hn)]
  simp only [assignArray, key s size h (by omega), copied]

/-- A string with a terminator inside is cut there, silently. -/
theorem embedded_nul_violated {size : Nat} {a b : List Char} (h : nul ∉ a) (hl : (a ++ nul :: b).length < size) :
    ∃ cells, assignString size (a ++ nul :: b) = .contents cells ∧ Holds size cells a := by
  have ha : a.length < size := by simp at hl; omega
  refine ⟨a ++ List.replicate (size - a.length) nul, ?_, size - a.length - 1, ?_, ?_⟩
  · simp only [assignString, if_pos hl]
    rw [List.append_assoc, List.cons_append, strncpy_text a _ h size ha]
    rfl
  · rw [show size - a.length - 1 + 1 = size - a.length by omega]
  · simp; omega

end Verif.Bytes.CharArray
