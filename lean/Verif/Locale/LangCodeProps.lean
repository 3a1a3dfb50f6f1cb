import Verif.Locale.LangCode

/-! C140: language codes are three letters regardless of case. -/

namespace Verif.Locale

/-- The bytes of a text. -/
def Bytes (s : List Nat) : Prop := ∀ b ∈ s, b < 256

/-- The letter in upper case; what is not a small letter of ASCII is itself. -/
def Upper (c u : Nat) : Prop := (97 ≤ c ∧ c ≤ 122 ∧ u + 32 = c) ∨ (¬ (97 ≤ c ∧ c ≤ 122) ∧ u = c)

theorem upper_spec (c : Nat) : Upper c (upper c) := by
  unfold Upper upper
  split <;> omega

theorem upper_fun {c u u' : Nat} (h : Upper c u) (h' : Upper c u') : u = u' := by
  unfold Upper at *; omega

theorem upper_idem (c : Nat) : upper (upper c) = upper c := by
  have h1 := upper_spec c
  have h2 := upper_spec (upper c)
  unfold Upper at *
  omega
theorem upper_lt {c : Nat} (h : c < 256) : upper c < 256 := by unfold upper; split <;> omega
theorem upper_pos {c : Nat} (h : c ≠ 0) : upper c ≠ 0 := by unfold upper; split <;> omega
theorem upper_lt128 {c : Nat} (h : c < 128) : upper c < 128 := by unfold upper; split <;> omega

theorem bytes_of {a b c : Nat} (ha : a < 256) (hb : b < 256) (hc : c < 256) :
    byteAt (a * 65536 + b * 256 + c) 2 = a ∧ byteAt (a * 65536 + b * 256 + c) 1 = b ∧ byteAt (a * 65536 + b * 256 + c) 0 = c := by
  unfold byteAt
  refine ⟨?_, ?_, ?_⟩ <;> simp only [Nat.reducePow, Nat.pow_one, Nat.pow_zero, Nat.div_one] <;> omega

/-- C140.  A code is made of exactly three characters, and written as these in upper case; two texts make the same code exactly if they
differ in case only. -/
theorem three_letters {s : List Nat} (hs : Bytes s) : (s.length ≠ 3 → ofText s = .threw) ∧
    (∀ a b c u v w, s = [a, b, c] → 0 ∉ s → Upper a u → Upper b v → Upper c w → ∃ x, ofText s = .ok x ∧ x ≠ 0 ∧ x < 16777216 ∧ toText x = [u, v, w]) := by
  constructor
  · intro h
    unfold ofText
    split
    · exact absurd rfl h
    · rfl
  · rintro a b c u v w rfl h0 ha hb hc
    have e1 := upper_fun ha (upper_spec a)
    have e2 := upper_fun hb (upper_spec b)
    have e3 := upper_fun hc (upper_spec c)
    subst e1 e2 e3
    simp only [List.mem_cons, List.not_mem_nil, or_false, not_or] at h0
    have p1 := upper_pos (Ne.symm h0.1)
    have p2 := upper_pos (Ne.symm h0.2.1)
    have p3 := upper_pos (Ne.symm h0.2.2)
    have l1 := upper_lt (hs a (by simp))
    have l2 := upper_lt (hs b (by simp))
    have l3 := upper_lt (hs c (by simp))
    refine ⟨_, rfl, by omega, by omega, ?_⟩
    obtain ⟨b1, b2, b3⟩ := bytes_of l1 l2 l3
    unfold toText
    rw [if_neg (by omega), b1, b2, b3]
    simp [cText, p1, p2, p3]

theorem same_code {a b c a' b' c' : Nat} (h : Bytes [a, b, c]) (h' : Bytes [a', b', c']) :
    ofText [a, b, c] = ofText [a', b', c'] ↔ [a, b, c].map upper = [a', b', c'].map upper := by
  have l1 := upper_lt (h a (by simp))
  have l2 := upper_lt (h b (by simp))
  have l3 := upper_lt (h c (by simp))
  have l1' := upper_lt (h' a' (by simp))
  have l2' := upper_lt (h' b' (by simp))
  have l3' := upper_lt (h' c' (by simp))
  simp only [ofText, List.map_cons, List.map_nil, Res.ok.injEq, List.cons.injEq, and_true]
  constructor
  · intro e; refine ⟨?_, ?_, ?_⟩ <;> omega
  · rintro ⟨e1, e2, e3⟩; rw [e1, e2, e3]

example : ofText [114, 117, 115] = .ok 5395795 ∧ toText 5395795 = [82, 85, 83] := by decide

/-- C140.  The order of codes is that of their texts in upper case, byte by byte. -/
theorem code_order {a b c a' b' c' x y : Nat} (h : Bytes [a, b, c]) (h' : Bytes [a', b', c']) (hx : ofText [a, b, c] = .ok x) (hy : ofText [a', b', c'] = .ok y)
    {u v w u' v' w' : Nat} (ha : Upper a u) (hb : Upper b v) (hc : Upper c w) (ha' : Upper a' u') (hb' : Upper b' v') (hc' : Upper c' w') :
    less x y = true ↔ u < u' ∨ (u = u' ∧ (v < v' ∨ (v = v' ∧ w < w'))) := by
  have e1 := upper_fun ha (upper_spec a)
  have e2 := upper_fun hb (upper_spec b)
  have e3 := upper_fun hc (upper_spec c)
  have e4 := upper_fun ha' (upper_spec a')
  have e5 := upper_fun hb' (upper_spec b')
  have e6 := upper_fun hc' (upper_spec c')
  have l1 := upper_lt (h a (by simp))
  have l2 := upper_lt (h b (by simp))
  have l3 := upper_lt (h c (by simp))
  have l1' := upper_lt (h' a' (by simp))
  have l2' := upper_lt (h' b' (by simp))
  have l3' := upper_lt (h' c' (by simp))
  subst e1 e2 e3 e4 e5 e6
  simp only [ofText, Res.ok.injEq] at hx hy
  subst hx hy
  simp only [less, decide_eq_true_eq]
  omega

/-- C140.  Reading the text of a code gives the code back, for every code made of characters but zero. -/
theorem code_roundtrip_partial {a b c x : Nat} (h : Bytes [a, b, c]) (h0 : 0 ∉ [a, b, c]) (hx : ofText [a, b, c] = .ok x) : fromText (toText x) = .ok x := by
  obtain ⟨y, h1, _, _, h4⟩ := (three_letters h).2 a b c _ _ _ rfl h0 (upper_spec a) (upper_spec b) (upper_spec c)
  rw [hx] at h1
  injection h1 with e
  subst e
  rw [h4]
  rw [fromText, if_neg (by simp)]
  simp only [ofText, upper_idem]
  exact hx

/-- C140.  The number whose bytes are three ASCII characters makes the same code as the text; numbers beyond 24 bits are refused, and 0
means any language. -/
theorem code_of_number_partial {a b c : Nat} (ha : a < 128) (hb : b < 128) (hc : c < 128) :
    ofCode (a * 65536 + b * 256 + c) = ofText [a, b, c] ∧ (∀ n, 16777216 ≤ n → ofCode n = .threw) ∧ ofCode 0 = .ok 0 := by
  refine ⟨?_, ?_, rfl⟩
  · obtain ⟨b1, b2, b3⟩ := bytes_of (a := a) (b := b) (c := c) (by omega) (by omega) (by omega)
    unfold ofCode
    rw [if_neg (by omega)]
    unfold upperCode
    rw [b1, b2, b3]
    have u1 := upper_lt128 ha
    have u2 := upper_lt128 hb
    have u3 := upper_lt128 hc
    simp only [ofText, schar, if_pos u1, if_pos u2, if_pos u3]
    by_cases h0 : a * 65536 + b * 256 + c = 0
    · have : a = 0 ∧ b = 0 ∧ c = 0 := by omega
      obtain ⟨rfl, rfl, rfl⟩ := this
      rfl
    · rw [if_neg h0]
      congr 1
      omega
  · intro n hn
    unfold ofCode
    rw [if_pos hn]

/-- C140.  The number and the text of the same three bytes make the same code exactly if the bytes are ASCII. -/
theorem code_of_number_exact {a b c : Nat} (ha : a < 256) (hb : b < 256) (hc : c < 256) :
    ofCode (a * 65536 + b * 256 + c) = ofText [a, b, c] ↔ a < 128 ∧ b < 128 ∧ c < 128 := by
  constructor
  · intro h
    obtain ⟨b1, b2, b3⟩ := bytes_of ha hb hc
    unfold ofCode upperCode at h
    rw [if_neg (by omega), b1, b2, b3] at h
    by_cases h0 : a * 65536 + b * 256 + c = 0
    · omega
    · rw [if_neg h0] at h
      simp only [ofText, Res.ok.injEq] at h
      have key : ∀ x : Nat, x < 256 → (x < 128 ∧ upper x < 128 ∧ schar (upper x) = upper x) ∨ (128 ≤ x ∧ x < 256 ∧ upper x = x ∧ schar (upper x) = (x : Int) - 256) := by
        intro x hx
        have := upper_spec x
        unfold Upper at this
        unfold schar
        split <;> omega
      have ka := key a ha
      have kb := key b hb
      have kc := key c hc
      omega
  · rintro ⟨h1, h2, h3⟩
    exact (code_of_number_partial h1 h2 h3).1

example : ofCode 0x414243 = ofText [0x41, 0x42, 0x43] ∧ ofCode 0x414280 ≠ ofText [0x41, 0x42, 0x80] := by decide

/-- The letter in lower case; what is not a capital letter of ASCII is itself. -/
def Lower (c l : Nat) : Prop := (65 ≤ c ∧ c ≤ 90 ∧ l = c + 32) ∨ (¬ (65 ≤ c ∧ c ≤ 90) ∧ l = c)

/-- C140.  `To2LetterString` is the first two characters in lower case; a text of less than two characters is refused. -/
theorem two_letter_text {a b c x l m : Nat} (h : Bytes [a, b, c]) (h0 : 0 ∉ [a, b, c]) (hx : ofText [a, b, c] = .ok x) (hl : Lower a l) (hm : Lower b m) :
    to2Letter x = [l, m] ∧ from2Letter [] = .threw ∧ from2Letter [a] = .threw := by
  refine ⟨?_, rfl, rfl⟩
  obtain ⟨b1, b2, b3⟩ := bytes_of (upper_lt (h a (by simp))) (upper_lt (h b (by simp))) (upper_lt (h c (by simp)))
  simp only [ofText, Res.ok.injEq] at hx
  subst hx
  simp only [List.mem_cons, List.not_mem_nil, or_false, not_or] at h0
  unfold to2Letter
  rw [b1, b2]
  have key : ∀ x l : Nat, 0 ≠ x → Lower x l → lower (upper x) = l ∧ l ≠ 0 := by
    intro x l hx hl
    have := upper_spec x
    unfold Upper at this
    unfold Lower at hl
    unfold lower
    split <;> omega
  obtain ⟨k1, k2⟩ := key a l h0.1 hl
  obtain ⟨k3, k4⟩ := key b m h0.2.1 hm
  rw [k1, k3]
  simp [cText, k2, k4]

example : ∃ x, ofText [65, 122, 66] = .ok x ∧ to2Letter x = [97, 122] := ⟨_, rfl, by decide⟩

/-- C140.  The two-letter codes of the languages known are the first two letters, in both directions and in any case; other two-letter
codes mean any language. -/
theorem two_letters {p q : Nat} (rest : List Nat) : from2Letter (p :: q :: rest) =
    (if [p, q].map upper = [82, 85] then ofText [114, 117, 115] else if [p, q].map upper = [69, 78] then ofText [101, 110, 103] else .ok 0) ∧
    (∀ x, x ∈ [[114, 117, 115], [101, 110, 103]] → ∃ y, ofText x = .ok y ∧ to2Letter y = x.take 2 ∧ fromText (to2Letter y) = .ok y) := by
  constructor
  · unfold from2Letter
    rw [if_neg (by simp)]
    rfl
  · intro x hx
    simp only [List.mem_cons, List.not_mem_nil, or_false] at hx
    rcases hx with rfl | rfl
    · exact ⟨5395795, by decide, by decide, by decide⟩
    · exact ⟨4542023, by decide, by decide, by decide⟩

/-- C140 is violated: the text of "any language" cannot be read, and the two letters of French mean any language. -/
theorem any_roundtrip_violated : toText 0 = [] ∧ fromText (toText 0) = .threw ∧
    ∃ x, ofText [102, 114, 97] = .ok x ∧ to2Letter x = [102, 114] ∧ fromText (to2Letter x) = .ok 0 ∧ x ≠ 0 := by
  refine ⟨by decide, by decide, 4608577, by decide, by decide, by decide, by decide⟩

/-- C140 is violated: a character from 128 on in a number is taken with its sign.  The code is not that of the text, and may not fit into
24 bits. -/
theorem code_of_number_violated : ofCode 0x4142C3 = .ok 0x4141C3 ∧ ofText [0x41, 0x42, 0xC3] = .ok 0x4142C3 ∧ ofCode 0xFF = .ok 0xFFFFFFFF := by decide

/-- C140 is violated: a zero character is accepted and cuts the text of the code off. -/
theorem zero_character_violated : ∃ x, ofText [65, 0, 66] = .ok x ∧ toText x = [65] := ⟨4259906, by decide, by decide⟩

end Verif.Locale
