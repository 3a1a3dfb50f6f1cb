import Verif.Time.Text
import Verif.Str.ParseProps
import Verif.Str.IntsProps

/-! Lemmas about digits and about `StringParse` with separators of one character. -/

namespace Verif.Time

open Verif.Str

/-- A text of decimal digits with the value `v`. -/
structure Numeral (s : List Char) (v : Int) : Prop where
  ne : s ≠ []
  dig : s.all isDigit = true
  val : decimal s = v

theorem decimal_zero (s : List Char) : decimal ('0' :: s) = decimal s := by
  unfold decimal
  rw [List.foldl_cons]
  have : (0 * 10 + digitVal '0' : Int) = 0 := by decide
  rw [this]

theorem decimal_zeros (n : Nat) (s : List Char) : decimal (List.replicate n '0' ++ s) = decimal s := by
  induction n with
  | zero => rfl
  | succ n ih => rw [List.replicate_succ, List.cons_append, decimal_zero, ih]

theorem numeral_digits {t : IntTy} (ht : t.Ok) (hb : t.hi < 10 ^ 31) {v : Int} (h0 : 0 ≤ v) (h2 : v ≤ t.hi) : Numeral (digits t v) v ∧
    ((digits t v).head? = some '0' → digits t v = ['0']) := by
  have hl := ht.lo
  have hlo : t.lo ≤ 0 := by have := ht.hi; split at hl <;> omega
  obtain ⟨ds, a, b, c, d, e⟩ := toText_spec ht hb (v := v) (by omega) h2
  rw [if_neg (by omega)] at a
  unfold digits
  rw [a]
  exact ⟨⟨b, c, by rw [Option.getD_some]; omega⟩, e⟩

theorem Numeral.pad {s : List Char} {v : Int} (h : Numeral s v) (w : Nat) : Numeral (padZero w s) v := by
  refine ⟨?_, ?_, ?_⟩
  · unfold padZero; simp [h.ne]
  · unfold padZero
    rw [List.all_append, h.dig, Bool.and_true, List.all_replicate]
    have : isDigit '0' = true := by decide
    simp [this]
  · unfold padZero; rw [decimal_zeros, h.val]

theorem Numeral.nonneg {s : List Char} {v : Int} (h : Numeral s v) : 0 ≤ v := by
  rw [← h.val]
  have := (fold_ge s h.dig 0 (by omega))
  unfold decimal; omega

theorem Numeral.fromText {s : List Char} {v : Int} (h : Numeral s v) {t : IntTy} (ht : t.Ok) :
    fromText t s = if v ≤ t.hi then .ok v else .rangeError := by
  rw [(fromText_digits ht h.ne h.dig).1, h.val]

theorem Numeral.not_mem {s : List Char} {v : Int} (h : Numeral s v) {c : Char} (hc : isDigit c = false) : c ∉ s := by
  intro hm
  have := List.all_eq_true.mp h.dig c hm
  rw [hc] at this; cases this

theorem numeral_length {s : List Char} {v : Int} (h : Numeral s v) : v < 10 ^ s.length := by
  have key : ∀ (s : List Char), s.all isDigit = true → ∀ a : Int, s.foldl (fun a c => a * 10 + digitVal c) a < (a + 1) * 10 ^ s.length := by
    intro s
    induction s with
    | nil => intro _ a; simp; omega
    | cons c s ih =>
      intro hd a
      rw [List.all_cons, Bool.and_eq_true] at hd
      rw [List.foldl_cons]
      have h1 := ih hd.2 (a * 10 + digitVal c)
      have h2 := digitVal_range hd.1
      refine Int.lt_of_lt_of_le h1 ?_
      rw [List.length_cons, Int.pow_succ, Int.mul_comm (10 ^ s.length) 10, ← Int.mul_assoc]
      refine Int.mul_le_mul_of_nonneg_right (by omega) ?_
      exact Int.pow_nonneg (by omega)
  have := key s h.dig 0
  rw [← h.val]
  unfold decimal
  simpa using this

/-! ### Matching -/

theorem occurs_char {c : Char} {s : List Char} {p : Nat} (h : OccursAt [c] s p) : s[p]? = some c := by
  obtain ⟨x, y, h1, h2⟩ := h
  rw [h1, ← h2]
  simp

theorem cutsFirst_char {c : Char} {v rest : List Char} (h : c ∉ v) : CutsFirst [c] (v ++ [c] ++ rest) v rest := by
  refine ⟨rfl, fun p hp => ?_⟩
  have h1 := occurs_char hp
  rcases Nat.lt_or_ge p v.length with h2 | h2
  · rw [List.append_assoc, List.getElem?_append_left h2] at h1
    exact absurd (List.mem_of_getElem? h1) h
  · exact h2

theorem takes_some {args : Nat} {reads : Nat → List Char → Bool} {i : Nat} {v : List Char} {asg : List (Nat × List Char)} :
    Takes args reads (some i) v asg ↔ i < args ∧ reads i v = true ∧ asg = [(i, v)] :=
  ⟨fun h => by cases h with | read h1 h2 => exact ⟨h1, h2, rfl⟩, fun ⟨h1, h2, h3⟩ => h3 ▸ .read h1 h2⟩

theorem matches_nil {args : Nat} {reads : Nat → List Char → Bool} {s : List Char} {asg : List (Nat × List Char)} :
    Matches args reads [] s asg ↔ s = [] ∧ asg = [] :=
  ⟨fun h => by cases h; exact ⟨rfl, rfl⟩, fun ⟨h1, h2⟩ => by rw [h1, h2]; exact .nil⟩

theorem matches_last {args : Nat} {reads : Nat → List Char → Bool} {i : Nat} {s : List Char} {asg : List (Nat × List Char)} :
    Matches args reads [⟨some i, []⟩] s asg ↔ s ≠ [] ∧ i < args ∧ reads i s = true ∧ asg = [(i, s)] := by
  constructor
  · intro h
    generalize hit : [(⟨some i, []⟩ : Item)] = its at h
    cases h with
    | nil => cases hit
    | last h1 h2 => cases hit; exact ⟨h1, takes_some.mp h2⟩
    | place h1 h2 h3 h4 h5 => cases hit; exact absurd rfl h1
  · rintro ⟨h1, h2⟩
    exact .last h1 (takes_some.mpr h2)

theorem matches_step {args : Nat} {reads : Nat → List Char → Bool} {i : Nat} {c : Char} {items : List Item} {v rest : List Char}
    {asg : List (Nat × List Char)} (hc : c ∉ v) :
    Matches args reads (⟨some i, [c]⟩ :: items) (v ++ c :: rest) asg ↔
      v ≠ [] ∧ i < args ∧ reads i v = true ∧ ∃ asg', asg = (i, v) :: asg' ∧ Matches args reads items rest asg' := by
  constructor
  · intro h
    generalize hit : (⟨some i, [c]⟩ :: items : List Item) = its at h
    generalize hs : v ++ c :: rest = s at h
    cases h with
    | nil => cases hit
    | last h1 h2 => cases hit
    | @place a l v' rest' items' asg1 asg2 h1 h2 h3 h4 h5 =>
      cases hit
      have hcut := cutsFirst_char (rest := rest) hc
      rw [show v ++ [c] ++ rest = v ++ c :: rest by simp, hs] at hcut
      obtain ⟨e1, e2⟩ := cutsFirst_unique h3 hcut
      subst e1; subst e2
      obtain ⟨g1, g2, g3⟩ := takes_some.mp h4
      exact ⟨h2, g1, g2, asg2, by rw [g3]; rfl, h5⟩
  · rintro ⟨h1, h2, h3, asg', h4, h5⟩
    rw [h4]
    have := Matches.place (args := args) (reads := reads) (a := some i) (l := [c]) (v := v) (rest := rest) (items := items) (asg := [(i, v)]) (asg' := asg')
      (by simp) h1 (cutsFirst_char hc) (takes_some.mpr ⟨h2, h3, rfl⟩) h5
    simpa using this

theorem matches_mem {args : Nat} {reads : Nat → List Char → Bool} {items : List Item} {s : List Char} {asg : List (Nat × List Char)}
    (h : Matches args reads items s asg) {a : Option Nat} {c : Char} (hi : ⟨a, [c]⟩ ∈ items) : c ∈ s := by
  induction h with
  | nil => cases hi
  | last h1 h2 => simp at hi
  | place h1 h2 h3 h4 h5 ih =>
    rcases List.mem_cons.mp hi with h | h
    · cases h; simp
    · have := ih h; simp [this]

/-- `StringParse` with a format that begins with a place. -/
theorem stringParse_yes {args : Nat} {reads : Nat → List Char → Bool} (hargs : args ≤ 8) {items : List Item} {format : List Char}
    (hf : format = formatText [] items) (hg : GoodItems args items) {s : List Char} {asg : List (Nat × List Char)}
    (h : Matches args reads items s asg) : stringParse args reads s format = .yes asg := by
  rw [hf]
  exact (parse_places_partial (by unfold skipIndex; omega) hg s asg).1.mpr h

theorem stringParse_no {args : Nat} {reads : Nat → List Char → Bool} (hargs : args ≤ 8) {items : List Item} {format : List Char}
    (hf : format = formatText [] items) (hg : GoodItems args items) {s : List Char}
    (h : ∀ asg, ¬ Matches args reads items s asg) : ∃ asg, stringParse args reads s format = .no asg := by
  rw [hf]
  have hargs' : args + 1 < skipIndex := by unfold skipIndex; omega
  cases hr : stringParse args reads s (formatText [] items) with
  | yes asg => exact absurd ((parse_places_partial hargs' hg s asg).1.mp hr) (h asg)
  | no asg => exact ⟨asg, rfl⟩
  | threw => exact absurd hr (parse_places_partial hargs' hg s []).2

theorem goodItems_of {args : Nat} {items : List Item} (h1 : ∀ i ∈ items, '%' ∉ i.text) (h2 : ∀ i ∈ items, ∀ k, i.arg = some k → k < args)
    (h3 : ∀ i ∈ items.dropLast, i.text ≠ []) : GoodItems args items :=
  ⟨fun i hi => .free (h1 i hi), h2, h3⟩

end Verif.Time
