import Verif.Str.CaseCompare
/-! C164: case insensitive comparison of strings. -/

namespace Verif.Str.CaseCompare

/-- The string is ASCII. -/
def Spec.Ascii (s : List Int) : Prop := ∀ c ∈ s, 0 ≤ c ∧ c ≤ 127

/-- The lower case of an ASCII string: `A`–`Z` become `a`–`z`. -/
def Spec.lower (s : List Int) : List Int := s.map (fun c => if 65 ≤ c ∧ c ≤ 90 then c + (97 - 65) else c)

/-- The order of dictionaries on strings, of the values of the characters. -/
inductive Spec.Before : List Int → List Int → Prop
  | prefix (a : Int) (as : List Int) : Before [] (a :: as)
  | head {a b : Int} (as bs : List Int) : a < b → Before (a :: as) (b :: bs)
  | tail (a : Int) {as bs : List Int} : Before as bs → Before (a :: as) (a :: bs)

open Spec

theorem tolower_ascii {c : Int} (h : 0 ≤ c ∧ c ≤ 127) : tolower c = some (if 65 ≤ c ∧ c ≤ 90 then c + (97 - 65) else c) := by
  rw [tolower, if_pos (.inr ⟨h.1, by omega⟩)]
  rfl

theorem ascii_tail {c : Int} {s : List Int} (h : Ascii (c :: s)) : Ascii s := fun d hd => h d (List.mem_cons_of_mem _ hd)

theorem ascii_head {c : Int} {s : List Int} (h : Ascii (c :: s)) : 0 ≤ c ∧ c ≤ 127 := h c (List.mem_cons_self ..)

/-- C164.  `CaseInsensitiveLess` of ASCII strings is defined and is the order of dictionaries on the strings in lower case. -/
theorem less_exact_partial : ∀ {a b : List Int}, Ascii a → Ascii b →
    ∃ r, caseInsensitiveLess a b = some r ∧ (r = true ↔ Before (lower a) (lower b))
  | [], [], _, _ => ⟨false, rfl, by simp [lower]; nofun⟩
  | _ :: _, [], _, _ => ⟨false, rfl, by simp [lower]; nofun⟩
  | [], b :: bs, _, _ => ⟨true, rfl, by simp only [lower, List.map_nil, List.map_cons, true_iff]; exact .prefix ..⟩
  | a :: as, b :: bs, ha, hb => by
    obtain ⟨r, h1, h2⟩ := less_exact_partial (ascii_tail ha) (ascii_tail hb)
    rw [caseInsensitiveLess] at h1 ⊢
    simp only [lexicographicalCompare, charCompare, tolower_ascii (ascii_head ha), tolower_ascii (ascii_head hb), less, lower, List.map_cons]
    generalize (if 65 ≤ a ∧ a ≤ 90 then a + (97 - 65) else a) = x
    generalize (if 65 ≤ b ∧ b ≤ 90 then b + (97 - 65) else b) = y
    by_cases hxy : x < y
    · rw [decide_eq_true hxy]
      exact ⟨true, rfl, by simp only [true_iff]; exact .head _ _ hxy⟩
    · rw [decide_eq_false hxy]
      by_cases hyx : y < x
      · rw [decide_eq_true hyx]
        refine ⟨false, rfl, ?_⟩
        simp only [Bool.false_eq_true, false_iff]
        intro h
        cases h with
        | head _ _ h => omega
        | tail _ h => omega
      · rw [decide_eq_false hyx]
        have : x = y := by omega
        subst this
        refine ⟨r, h1, h2.trans ⟨fun h => .tail _ h, ?_⟩⟩
        intro h
        cases h with
        | head _ _ h => omega
        | tail _ h => exact h

/-- C164.  `CaseInsensitiveEquals` of ASCII strings is defined and is equality of the strings in lower case. -/
theorem equals_exact_partial {a b : List Int} (ha : Ascii a) (hb : Ascii b) : caseInsensitiveEquals a b = some (decide (lower a = lower b)) := by
  have key : ∀ {a b : List Int}, Ascii a → Ascii b → a.length = b.length → equalSeq (charCompare equals) a b = some (decide (lower a = lower b)) := by
    intro a
    induction a with
    | nil =>
      intro b _ _ hl
      cases b with
      | nil => rfl
      | cons => simp at hl
    | cons x a ih =>
      intro b ha hb hl
      cases b with
      | nil => simp at hl
      | cons y b =>
        have := ih (ascii_tail ha) (ascii_tail hb) (by simpa using hl)
        simp only [equalSeq, charCompare, tolower_ascii (ascii_head ha), tolower_ascii (ascii_head hb), equals, lower, List.map_cons] at this ⊢
        generalize (if 65 ≤ x ∧ x ≤ 90 then x + (97 - 65) else x) = x
        generalize (if 65 ≤ y ∧ y ≤ 90 then y + (97 - 65) else y) = y
        by_cases h : x = y
        · rw [decide_eq_true h]
          simp only []
          rw [this]
          simp [h]
        · rw [decide_eq_false h]
          simp [h]
  rw [caseInsensitiveEquals]
  by_cases hl : a.length = b.length
  · rw [if_pos hl]; exact key ha hb hl
  · rw [if_neg hl, decide_eq_false]
    intro h
    apply hl
    have := congrArg List.length h
    simpa [lower] using this

theorem before_irrefl : ∀ {a : List Int}, ¬ Before a a
  | [] => nofun
  | _ :: _ => fun h => by
    cases h with
    | head _ _ h => omega
    | tail _ h => exact before_irrefl h

theorem before_trans {a b c : List Int} (h1 : Before a b) : Before b c → Before a c := by
  induction h1 generalizing c with
  | «prefix» a as =>
    intro h2
    cases h2 with
    | head => exact .prefix ..
    | tail => exact .prefix ..
  | head as bs h =>
    intro h2
    cases h2 with
    | head _ _ h' => exact .head _ _ (by omega)
    | tail _ h' => exact .head _ _ h
  | tail a h ih =>
    intro h2
    cases h2 with
    | head _ _ h' => exact .head _ _ h'
    | tail _ h' => exact .tail _ (ih h')

theorem before_total : ∀ (a b : List Int), Before a b ∨ a = b ∨ Before b a
  | [], [] => .inr (.inl rfl)
  | [], _ :: _ => .inl (.prefix ..)
  | _ :: _, [] => .inr (.inr (.prefix ..))
  | x :: a, y :: b => by
    rcases Int.lt_trichotomy x y with h | h | h
    · exact .inl (.head _ _ h)
    · subst h
      rcases before_total a b with h | h | h
      · exact .inl (.tail _ h)
      · exact .inr (.inl (by rw [h]))
      · exact .inr (.inr (.tail _ h))
    · exact .inr (.inr (.head _ _ h))

/-- C164.  `CaseInsensitiveLess` is a strict weak order of the ASCII strings, and two of them are equivalent in it exactly if `CaseInsensitiveEquals` says so. -/
theorem less_order_partial {a b c : List Int} (ha : Ascii a) (hb : Ascii b) (hc : Ascii c) :
    caseInsensitiveLess a a = some false ∧
    (caseInsensitiveLess a b = some true → caseInsensitiveLess b a = some false) ∧
    (caseInsensitiveLess a b = some true → caseInsensitiveLess b c = some true → caseInsensitiveLess a c = some true) ∧
    (caseInsensitiveEquals a b = some true ↔ caseInsensitiveLess a b = some false ∧ caseInsensitiveLess b a = some false) := by
  have f : ∀ {a b}, Ascii a → Ascii b → (caseInsensitiveLess a b = some true ↔ Before (lower a) (lower b)) ∧ (caseInsensitiveLess a b = some false ↔ ¬ Before (lower a) (lower b)) := by
    intro a b ha hb
    obtain ⟨r, h1, h2⟩ := less_exact_partial ha hb
    rw [h1, ← h2]
    cases r <;> simp
  refine ⟨(f ha ha).2.mpr before_irrefl, fun h => (f hb ha).2.mpr (fun h' => before_irrefl (before_trans ((f ha hb).1.mp h) h')),
    fun h h' => (f ha hc).1.mpr (before_trans ((f ha hb).1.mp h) ((f hb hc).1.mp h')), ?_⟩
  rw [equals_exact_partial ha hb, (f ha hb).2, (f hb ha).2]
  simp only [Option.some.injEq, decide_eq_true_eq]
  constructor
  · intro h; rw [h]; exact ⟨before_irrefl, before_irrefl⟩
  · rintro ⟨h1, h2⟩
    rcases before_total (lower a) (lower b) with h | h | h
    · exact absurd h h1
    · exact h
    · exact absurd h h2

/-- C164, why ASCII is needed: a character above it (here `0xD0`, the first byte of a Cyrillic letter in UTF-8, as a `char`) must not be given to `tolower`. -/
theorem non_ascii_violated : caseInsensitiveLess [-48] [97] = none ∧ caseInsensitiveEquals [-48] [-48] = none := by decide

/-! Non-vacuity: `aBc`, `AbD`. -/
example : Ascii [97, 66, 99] ∧ caseInsensitiveLess [97, 66, 99] [65, 98, 68] = some true ∧ caseInsensitiveEquals [97, 66, 99] [65, 98, 67] = some true ∧
    caseInsensitiveLess [90] [97] = some false := by
  refine ⟨by simp [Ascii], ?_, ?_, ?_⟩ <;> decide

end Verif.Str.CaseCompare
