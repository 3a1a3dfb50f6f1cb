import Verif.Time.IsoProps

/-! C92: the text of a time zone. -/

namespace Verif.Time

open Verif.Str

theorem format_colon : "%1%:%2%".toList = formatText [] [⟨some 0, [':']⟩, ⟨some 1, []⟩] ∧ GoodItems 2 [⟨some 0, [':']⟩, ⟨some 1, []⟩] := by
  refine ⟨by decide +kernel, goodItems_of (by decide) (by decide) (by decide)⟩

theorem s32_ok : s32.Ok := (int_types_ok s32 (by simp)).1

/-- The sign of an offset: `-` for the west; `+` or nothing for the east. -/
inductive ZoneSign : List Char → Int → Prop
  | none : ZoneSign [] 1
  | plus : ZoneSign ['+'] 1
  | minus : ZoneSign ['-'] (-1)

theorem mkZone_spec {v : Int} (h1 : -32768 ≤ v) (h2 : v ≤ 32767) : mkZone v = if -720 ≤ v ∧ v ≤ 840 then .ok v else .threw := by
  unfold mkZone
  rw [toS16_id h1 h2]

/-- C92, reading.  `±h:m`, `±hh` and `±hhmm` are the offset if it lies between -12:00 and +14:00, and are refused otherwise, as long as the offset fits 16 bits. -/
theorem zone_value_partial {sign a b : List Char} {s h m : Int} (hs : ZoneSign sign s) (ha : Numeral a h) (hb : Numeral b m) (hfit : h * 60 + m ≤ 32767) :
    zoneFromString (sign ++ (a ++ ':' :: b)) = (if -720 ≤ s * (h * 60 + m) ∧ s * (h * 60 + m) ≤ 840 then .ok (s * (h * 60 + m)) else .threw) ∧
    (a.length = 2 → b.length = 2 → zoneFromString (sign ++ (a ++ b)) =
      (if -720 ≤ s * (h * 60 + m) ∧ s * (h * 60 + m) ≤ 840 then .ok (s * (h * 60 + m)) else .threw)) ∧
    (a.length = 2 → zoneFromString (sign ++ a) = (if -720 ≤ s * (h * 60) ∧ s * (h * 60) ≤ 840 then .ok (s * (h * 60)) else .threw)) := by
  have h0 := ha.nonneg
  have h1 := hb.nonneg
  have key : ∀ (body : List Char) (x : Char) (v : Int), body.head? = some x → isDigit x = true → 0 ≤ v → v ≤ 32767 →
      zoneValue ((sign ++ body).contains ':') body = some v →
      zoneFromString (sign ++ body) = (if -720 ≤ s * v ∧ s * v ≤ 840 then .ok (s * v) else .threw) := by
    intro body x v hx hd hv0 hv hz
    have hfit' : fitsInt v = true := by unfold fitsInt; simp; omega
    have hxs : ¬ (x = '+' ∨ x = '-') := by
      rintro (rfl | rfl)
      · exact absurd hd (by decide)
      · exact absurd hd (by decide)
    cases body with
    | nil => cases hx
    | cons y rest =>
      cases hx
      cases hs with
      | none =>
        rw [List.nil_append] at hz ⊢
        simp only [zoneFromString]
        rw [if_neg hxs, hz]
        simp only []
        rw [if_neg (by rw [hfit']; simp), if_neg (fun e => hxs (Or.inr e)), mkZone_spec (by omega) (by omega), Int.one_mul]
      | plus =>
        rw [List.singleton_append] at hz ⊢
        simp only [zoneFromString]
        rw [if_pos (Or.inl trivial), hz]
        simp only []
        rw [if_neg (by rw [hfit']; simp), if_neg (by decide), mkZone_spec (by omega) (by omega), Int.one_mul]
      | minus =>
        rw [List.singleton_append] at hz ⊢
        simp only [zoneFromString]
        rw [if_pos (Or.inr trivial), hz]
        simp only []
        rw [if_neg (by rw [hfit']; simp), if_pos trivial, mkZone_spec (by omega) (by omega)]
        have : -1 * v = -v := by omega
        rw [this]
  obtain ⟨x, a', rfl⟩ : ∃ x a', a = x :: a' := by
    cases a with
    | nil => exact absurd rfl ha.ne
    | cons x a' => exact ⟨x, a', rfl⟩
  have hx : isDigit x = true := by have := ha.dig; rw [List.all_cons, Bool.and_eq_true] at this; exact this.1
  have hcolon : ∀ body : List Char, ':' ∉ body → (sign ++ body).contains ':' = false := by
    intro body hb
    rw [List.contains_eq_mem, decide_eq_false_iff_not, List.mem_append]
    rintro (h | h)
    · cases hs <;> simp at h
    · exact hb h
  refine ⟨key _ x _ rfl hx (by omega) hfit ?_, fun hla hlb => key _ x _ rfl hx (by omega) hfit ?_, fun hla => key _ x _ rfl hx (by omega) (by omega) ?_⟩
  · have hc : (sign ++ (x :: a' ++ ':' :: b)).contains ':' = true := by simp
    rw [hc]
    unfold zoneValue
    rw [if_pos rfl, stringParse_yes (args := 2) (by omega) format_colon.1 format_colon.2
      ((matches_step (ha.not_mem digit_colon)).mpr ⟨ha.ne, by omega, readsInt_numeral s32_ok ha (by show h ≤ 2147483647; omega), [(1, b)], rfl,
        matches_last.mpr ⟨hb.ne, by omega, readsInt_numeral s32_ok hb (by show m ≤ 2147483647; omega), rfl⟩⟩)]
    simp only []
    rw [intArg_of s32_ok ha (show h ≤ 2147483647 by omega) rfl, intArg_of s32_ok hb (show m ≤ 2147483647 by omega) rfl]
  · rw [hcolon _ (by rw [List.mem_append]; exact fun h => h.elim (ha.not_mem digit_colon) (hb.not_mem digit_colon))]
    unfold zoneValue
    rw [if_neg (by simp), if_pos (by right; rw [List.length_append]; omega)]
    have e1 : (x :: a' ++ b).take 2 = x :: a' := by rw [List.take_append_of_le_length (by omega), List.take_of_length_le (by omega)]
    have e2 : ((x :: a' ++ b).drop 2).take 2 = b := by rw [List.drop_append_of_le_length (by omega), List.drop_of_length_le (by omega), List.nil_append, List.take_of_length_le (by omega)]
    rw [e1, e2, ha.fromText s32_ok, if_pos (show h ≤ s32.hi from (by omega : h ≤ 2147483647))]
    simp only []
    rw [if_pos (by rw [List.length_append]; omega), hb.fromText s32_ok, if_pos (show m ≤ s32.hi from (by omega : m ≤ 2147483647))]
  · rw [hcolon _ (ha.not_mem digit_colon)]
    unfold zoneValue
    rw [if_neg (by simp), if_pos (Or.inl hla)]
    rw [List.take_of_length_le (by omega), ha.fromText s32_ok, if_pos (show h ≤ s32.hi from (by omega : h ≤ 2147483647))]
    simp only []
    rw [if_neg (by omega)]

example : zoneFromString "-05:30".toList = .ok (-330) ∧ zoneFromString "+0530".toList = .ok 330 ∧ zoneFromString "14".toList = .ok 840 ∧
    zoneFromString "14:01".toList = .threw := by decide +kernel

/-- C92.  Every time zone survives the way through text. -/
theorem zone_roundtrip {z : Int} (h1 : -720 ≤ z) (h2 : z ≤ 840) : zoneFromString (zoneToString z) = .ok z := by
  have ha0 : 0 ≤ absI z ∧ absI z ≤ 840 := by unfold absI; split <;> omega
  have e1 : (absI z).tdiv 60 = absI z / 60 := Int.tdiv_eq_ediv_of_nonneg ha0.1
  have e2 : (absI z).tmod 60 = absI z % 60 := Int.tmod_eq_emod_of_nonneg ha0.1
  have na := (numeral_digits s32_ok (by decide) (v := absI z / 60) (by omega) (show _ ≤ (2147483647 : Int) by omega)).1
  have nb := (numeral_digits s32_ok (by decide) (v := absI z % 60) (by omega) (show _ ≤ (2147483647 : Int) by omega)).1
  have hsum : absI z / 60 * 60 + absI z % 60 = absI z := by omega
  unfold zoneToString
  rw [e1, e2, List.append_assoc]
  rcases Int.lt_trichotomy z 0 with h | h | h
  · rw [if_neg (by omega), if_pos h, (zone_value_partial .minus na nb (by omega)).1, hsum]
    have : -1 * absI z = z := by unfold absI; rw [if_pos h]; omega
    rw [this, if_pos ⟨h1, h2⟩]
  · rw [if_neg (by omega), if_neg (by omega), (zone_value_partial .none na nb (by omega)).1, hsum]
    have : 1 * absI z = z := by unfold absI; rw [if_neg (by omega)]; omega
    rw [this, if_pos ⟨h1, h2⟩]
  · rw [if_pos h, (zone_value_partial .plus na nb (by omega)).1, hsum]
    have : 1 * absI z = z := by unfold absI; rw [if_neg (by omega)]; omega
    rw [this, if_pos ⟨h1, h2⟩]

example : zoneToString (-330) = "-5:30".toList ∧ zoneToString 0 = "0:0".toList ∧ zoneToString 840 = "+14:0".toList := by decide +kernel

/-- The constructor accepts the offsets from -12:00 to +14:00 only. -/
theorem zone_range {m z : Int} (h : mkZone m = .ok z) : -720 ≤ z ∧ z ≤ 840 := by
  unfold mkZone at h
  by_cases hc : toS16 m ≥ -720 ∧ toS16 m ≤ 840
  · rw [if_pos hc] at h; cases h; exact hc
  · rw [if_neg hc] at h; cases h

/-- C92.  Where `hours * 60 + minutes` leaves `int` the behaviour is undefined - exactly outside [-2^31, 2^31). -/
theorem zone_overflow_violated : zoneFromString "35791394:07".toList = .ok (-1) ∧ zoneFromString "35791394:08".toList = .undefined ∧
    zoneFromString "+-35791394:-8".toList = .ok 0 ∧ zoneFromString "+-35791394:-9".toList = .undefined := by decide +kernel

/-- C92 is violated by offsets that do not fit 16 bits: they are reduced before they are checked. -/
theorem zone_wraps_violated : zoneFromString "1092:16".toList = .ok 0 ∧ zoneFromString "-1092:17".toList = .ok (-1) := by decide +kernel

/-- C92 is violated by minutes beyond 59 and by a second sign: they are accepted. -/
theorem zone_unchecked_violated : zoneFromString "1:99".toList = .ok 159 ∧ zoneFromString "+-5:30".toList = .ok (-270) ∧ zoneFromString "1-5".toList = .threw := by
  decide +kernel

end Verif.Time
