import Verif.Text.LocaleStr
import Verif.Text.CodecProps

/-! C141: equality of texts with an encoding. -/

namespace Verif.Text

open Spec

/-- C141.  `==` is reflexive and symmetric on arbitrary bytes in arbitrary encodings, and `!=` is its negation. -/
theorem locale_eq_sym (ea eb : Enc) (a b : List Nat) : localeEq ea a ea a = some true ∧ localeEq ea a eb b = localeEq eb b ea a ∧
    ∃ x, localeEq ea a eb b = some x ∧ localeNe ea a eb b = some (!x) := by
  obtain ⟨⟨x, h1, h2⟩, -⟩ := locale_compare_preorder ea eb ea a b a
  refine ⟨by simp [localeEq], ?_, ?_⟩
  · unfold localeEq
    by_cases h : ea = eb
    · subst h
      rw [if_pos rfl, if_pos rfl]
      congr 1
      exact decide_eq_decide.mpr ⟨Eq.symm, Eq.symm⟩
    · rw [if_neg h, if_neg (Ne.symm h)]
      by_cases hl : a.length = b.length
      · rw [if_neg (by simpa using hl), if_neg (by simpa using hl.symm), h1, h2]
        simp only [Option.map_some]
        congr 1
        exact decide_eq_decide.mpr (by omega)
      · rw [if_pos hl, if_pos (fun e => hl e.symm)]
  · have : ∃ x, localeEq ea a eb b = some x := by
      unfold localeEq
      split
      · exact ⟨_, rfl⟩
      · split
        · exact ⟨_, rfl⟩
        · rw [h1]; exact ⟨_, rfl⟩
    obtain ⟨y, hy⟩ := this
    exact ⟨y, hy, by unfold localeNe; rw [hy]; rfl⟩

/-- The encoding of a character determines it. -/
theorem texts_equal {ea eb : Enc} (ha : ea ≠ .iso10646) (hb : eb ≠ .iso10646) {cs ds : List Nat} (h1 : ∀ c ∈ cs, Spec.Supported ea c) (h2 : ∀ d ∈ ds, Spec.Supported eb d)
    (he : localeEq ea (cs.flatMap (encodeIn ea)) eb (ds.flatMap (encodeIn eb)) = some true) : cs = ds := by
  obtain ⟨x, hx, -, hz, -⟩ := locale_compare_exact ha hb h1 h2
  unfold localeEq at he
  split at he
  · rename_i e
    subst e
    simp only [Option.some.injEq, decide_eq_true_eq] at he
    rw [← he] at hx
    obtain ⟨y, hy, -, hy0, -⟩ := locale_compare_exact ha ha h1 h1
    rw [hy] at hx
    injection hx with e
    exact hz.mp (by rw [← e]; exact hy0.mpr rfl)
  · split at he
    · cases he
    · rw [hx] at he
      simp only [Option.map_some, Option.some.injEq, decide_eq_true_eq] at he
      exact hz.mp he

/-- C141.  Texts in supported characters that are equal have the same characters; conversely the same characters are equal if the encoding
is the same or the bytes are as many. -/
theorem locale_eq_partial {ea eb : Enc} (ha : ea ≠ .iso10646) (hb : eb ≠ .iso10646) {cs ds : List Nat} (h1 : ∀ c ∈ cs, Spec.Supported ea c) (h2 : ∀ d ∈ ds, Spec.Supported eb d) :
    (localeEq ea (cs.flatMap (encodeIn ea)) eb (ds.flatMap (encodeIn eb)) = some true ↔
      cs = ds ∧ (ea = eb ∨ (cs.flatMap (encodeIn ea)).length = (ds.flatMap (encodeIn eb)).length)) ∧
    (localeLess ea (cs.flatMap (encodeIn ea)) eb (ds.flatMap (encodeIn eb)) = some true ↔ cs < ds) := by
  obtain ⟨x, hx, hlt, hz, -⟩ := locale_compare_exact ha hb h1 h2
  constructor
  · constructor
    · intro h
      refine ⟨texts_equal ha hb h1 h2 h, ?_⟩
      unfold localeEq at h
      split at h
      · rename_i e; exact .inl e
      · split at h
        · cases h
        · rename_i hl; exact .inr (Classical.not_not.mp hl)
    · rintro ⟨rfl, h⟩
      unfold localeEq
      by_cases e : ea = eb
      · subst e; simp
      · rw [if_neg e, if_neg (by rcases h with h | h; exact absurd h e; simpa using h), hx]
        simp only [Option.map_some, Option.some.injEq, decide_eq_true_eq]
        exact hz.mpr rfl
  · unfold localeLess
    rw [hx]
    simp only [Option.map_some, Option.some.injEq, decide_eq_true_eq]
    exact hlt

example : localeEq .utf16be (([0x61, 0x20AC] : List Nat).flatMap (encodeIn .utf16be)) .utf16le (([0x61, 0x20AC] : List Nat).flatMap (encodeIn .utf16le)) = some true := by decide +kernel

/-- C141 is violated: the same letter in Latin 1 and in UTF-8 is neither equal nor before nor after. -/
theorem locale_eq_violated : localeEq .latin1 [0xE9] .utf8 [0xC3, 0xA9] = some false ∧ localeLess .latin1 [0xE9] .utf8 [0xC3, 0xA9] = some false ∧
    localeLess .utf8 [0xC3, 0xA9] .latin1 [0xE9] = some false := by decide +kernel

/-- C141 is violated: `==` is not transitive.  Two different invalid texts are equal to a third one in another encoding. -/
theorem locale_eq_trans_violated : localeEq .utf16be [0xDC, 0x00] .utf16le [0x00, 0xDC] = some true ∧
    localeEq .utf16le [0x00, 0xDC] .utf16be [0xDD, 0x00] = some true ∧ localeEq .utf16be [0xDC, 0x00] .utf16be [0xDD, 0x00] = some false := by decide +kernel

end Verif.Text
