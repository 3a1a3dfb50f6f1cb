import Verif.Time.TextLemmas
import Verif.Time.BreakDownProps
import Verif.Time.ConvertProps
import Verif.Str.AhoProps
import Verif.Math.Fraction

/-! C90: the ISO 8601 text of a time. -/

namespace Verif.Time

open Verif.Str

/-! ### Specification -/

/-- Rounding the last `k` digits away, one after the other. -/
def roundDigits : Nat → Nat → Nat
  | 0, f => f
  | k + 1, f => roundDigits k (f / 10 + if 5 ≤ f % 10 then 1 else 0)

/-- The text of seconds, `ss` or `ss.f`, and its value in microseconds; more than six digits are rounded one after the other. -/
inductive SecondsText : List Char → Int → Prop
  | whole {s : List Char} {v : Int} : Numeral s v → SecondsText s (v * 1000000)
  | fraction {s b : List Char} {v f : Int} : Numeral s v → Numeral b f → b.length ≤ 6 →
      SecondsText (s ++ '.' :: b) (v * 1000000 + f * 10 ^ (6 - b.length))
  | long {s b : List Char} {v f : Int} : Numeral s v → Numeral b f → 6 < b.length → f < 2 ^ 64 →
      SecondsText (s ++ '.' :: b) (v * 1000000 + roundDigits (b.length - 6) f.toNat)

/-- The text of the zone and its offset to UTC in minutes. -/
inductive ZoneText : List Char → Int → Prop
  | utc : ZoneText ['Z'] 0
  | none : ZoneText [] 0
  | east {a b : List Char} {h m : Int} : Numeral a h → Numeral b m → a.length = 2 → b.length = 2 → ZoneText ('+' :: (a ++ ':' :: b)) (h * 60 + m)
  | west {a b : List Char} {h m : Int} : Numeral a h → Numeral b m → a.length = 2 → b.length = 2 → ZoneText ('-' :: (a ++ ':' :: b)) (-(h * 60 + m))

/-- The date and the time of day. -/
def isoText (y mo d h mi s zone : List Char) : List Char :=
  y ++ '-' :: (mo ++ '-' :: (d ++ 'T' :: (h ++ ':' :: (mi ++ ':' :: (s ++ zone)))))

/-! ### The formats -/

/-- The places of the date. -/
def dateItems (rest : List Item) : List Item :=
  [⟨some 0, ['-']⟩, ⟨some 1, ['-']⟩, ⟨some 2, ['T']⟩, ⟨some 3, [':']⟩, ⟨some 4, [':']⟩] ++ rest

theorem format_utc : "%1%-%2%-%3%T%4%:%5%:%6%Z".toList = formatText [] (dateItems [⟨some 5, ['Z']⟩]) ∧ GoodItems 6 (dateItems [⟨some 5, ['Z']⟩]) := by
  refine ⟨by decide +kernel, goodItems_of (by decide) (by decide) (by decide)⟩
theorem format_plain : "%1%-%2%-%3%T%4%:%5%:%6%".toList = formatText [] (dateItems [⟨some 5, []⟩]) ∧ GoodItems 6 (dateItems [⟨some 5, []⟩]) := by
  refine ⟨by decide +kernel, goodItems_of (by decide) (by decide) (by decide)⟩
theorem format_offset (c : Char) (hc : c = '+' ∨ c = '-') :
    "%1%-%2%-%3%T%4%:%5%:%6%".toList ++ c :: "%7%:%8%".toList = formatText [] (dateItems [⟨some 5, [c]⟩, ⟨some 6, [':']⟩, ⟨some 7, []⟩]) ∧
    GoodItems 8 (dateItems [⟨some 5, [c]⟩, ⟨some 6, [':']⟩, ⟨some 7, []⟩]) := by
  rcases hc with rfl | rfl <;>
  refine ⟨by decide +kernel, goodItems_of (by decide) (by decide) (by decide)⟩
theorem format_date : "%1%-%2%-%3%".toList = formatText [] [⟨some 0, ['-']⟩, ⟨some 1, ['-']⟩, ⟨some 2, []⟩] ∧
    GoodItems 3 [⟨some 0, ['-']⟩, ⟨some 1, ['-']⟩, ⟨some 2, []⟩] := by
  refine ⟨by decide +kernel, goodItems_of (by decide) (by decide) (by decide)⟩
theorem format_fraction : "%1%.%2%".toList = formatText [] [⟨some 0, ['.']⟩, ⟨some 1, []⟩] ∧ GoodItems 2 [⟨some 0, ['.']⟩, ⟨some 1, []⟩] := by
  refine ⟨by decide +kernel, goodItems_of (by decide) (by decide) (by decide)⟩
theorem format_one : "%1%".toList = formatText [] [⟨some 0, []⟩] ∧ GoodItems 1 [⟨some 0, []⟩] := by
  refine ⟨by decide +kernel, goodItems_of (by decide) (by decide) (by decide)⟩

theorem u64_ok : u64.Ok := (int_types_ok u64 (by simp)).1
theorem s16_ok : s16.Ok := (int_types_ok s16 (by simp)).1

theorem readsInt_numeral {t : IntTy} (ht : t.Ok) {s : List Char} {v : Int} (h : Numeral s v) (hv : v ≤ t.hi) : readsInt t s = true := by
  unfold readsInt
  rw [h.fromText ht, if_pos hv]

theorem intArg_of {t : IntTy} (ht : t.Ok) {s : List Char} {v : Int} (h : Numeral s v) (hv : v ≤ t.hi) {asg : List (Nat × List Char)} {i : Nat}
    (ha : lastArg asg i = some s) : intArg t asg i = v := by
  unfold intArg
  rw [ha]
  simp only []
  rw [h.fromText ht, if_pos hv]

theorem digit_dot : isDigit '.' = false := by decide
theorem digit_dash : isDigit '-' = false := by decide
theorem digit_plus : isDigit '+' = false := by decide
theorem digit_colon : isDigit ':' = false := by decide
theorem digit_T : isDigit 'T' = false := by decide
theorem digit_Z : isDigit 'Z' = false := by decide

theorem roundDigits_eq (k f : Nat) : ∀ was, roundDigits k f = (Math.roundLoop 10 k f was).1 := by
  induction k generalizing f with
  | zero => intro _; rfl
  | succ k ih => intro was; exact ih _ _

/-- Rounding one digit after the other is off by less than one unit. -/
theorem roundDigits_close (k : Nat) : ∀ f : Nat, roundDigits k f * 10 ^ k < f + 10 ^ k ∧ f < roundDigits k f * 10 ^ k + 10 ^ k := by
  induction k with
  | zero => intro f; simp [roundDigits]
  | succ k ih =>
    intro f
    obtain ⟨h1, h2⟩ := ih (f / 10 + if 5 ≤ f % 10 then 1 else 0)
    rw [roundDigits, Nat.pow_succ]
    generalize roundDigits k _ = r at *
    have e : r * (10 ^ k * 10) = r * 10 ^ k * 10 := by rw [Nat.mul_assoc]
    rw [e]
    generalize r * 10 ^ k = q at *
    generalize 10 ^ k = p at *
    split at h1 <;> split at h2 <;> omega

theorem parseSeconds_spec {s : List Char} {us : Int} (h : SecondsText s us) (hus : us < 2147483648000000) : parseSeconds s = some us ∧ 0 ≤ us := by
  cases h with
  | @whole _ v hn =>
    have h0 := hn.nonneg
    obtain ⟨asg, ha⟩ := stringParse_no (args := 2) (reads := fun i s => i = 1 || readsInt u64 s) (by omega) format_fraction.1 format_fraction.2 (s := s)
      (fun asg hm => hn.not_mem digit_dot (matches_mem hm (a := some 0) (by simp)))
    have hb := stringParse_yes (args := 1) (reads := fun _ s => readsInt u64 s) (by omega) format_one.1 format_one.2
      (matches_last.mpr ⟨hn.ne, by omega, readsInt_numeral u64_ok hn (by show v ≤ 18446744073709551615; omega), rfl⟩)
    refine ⟨?_, by omega⟩
    unfold parseSeconds
    rw [ha]
    simp only []
    rw [hb]
    simp only []
    rw [intArg_of u64_ok hn (by show v ≤ 18446744073709551615; omega) rfl]
    have : toS32 v = v := by unfold toS32; omega
    rw [this]
  | @fraction a b v f hn hf hl =>
    have h0 := hn.nonneg
    have hf0 := hf.nonneg
    have hfl := numeral_length hf
    have hp : (0 : Int) ≤ f * 10 ^ (6 - b.length) := Int.mul_nonneg hf0 (Int.pow_nonneg (by omega))
    have hv : v ≤ 18446744073709551615 := by omega
    have hb := stringParse_yes (args := 2) (reads := fun i s => i = 1 || readsInt u64 s) (by omega) format_fraction.1 format_fraction.2
      ((matches_step (hn.not_mem digit_dot)).mpr ⟨hn.ne, by omega, by simp [readsInt_numeral u64_ok hn hv], [(1, b)], rfl, matches_last.mpr ⟨hf.ne, by omega, by simp, rfl⟩⟩)
    refine ⟨?_, by omega⟩
    unfold parseSeconds
    rw [hb]
    simp only []
    rw [intArg_of u64_ok hn hv rfl]
    have hlb : (10 : Int) ^ b.length ≤ 1000000 := by
      have h1 : 10 ^ b.length ≤ 10 ^ 6 := Nat.pow_le_pow_right (by omega) hl
      have h2 : ((10 ^ b.length : Nat) : Int) = 10 ^ b.length := by simp
      omega
    have h64 : f ≤ 18446744073709551615 := by omega
    have hfr : parseFractionText b = some (f * 10 ^ (6 - b.length)) := by
      unfold parseFractionText
      rw [hf.fromText u64_ok, if_pos (show f ≤ u64.hi from h64)]
      simp only []
      by_cases hz : f = 0
      · subst hz
        have : Math.parseFraction b.length (some (0 : Int).toNat) 6 = .ok ⟨0, 0, false⟩ := rfl
        rw [this]
        simp
      · have hc : ((f.toNat : Nat) : Int) = f := by omega
        have h3 : f.toNat < 10 ^ b.length := by
          have h2 : ((10 ^ b.length : Nat) : Int) = 10 ^ b.length := by simp
          omega
        obtain ⟨hle, _⟩ := Math.parse_fraction_partial (len := b.length) (f := f.toNat) (target := 6) (by omega) h3 (by omega)
        have hmul : f.toNat * 10 ^ (6 - b.length) < 10 ^ 6 := by
          have e : 10 ^ 6 = 10 ^ b.length * 10 ^ (6 - b.length) := by rw [← Nat.pow_add]; congr 1; omega
          rw [e]
          exact (Nat.mul_lt_mul_right (Nat.pow_pos (by omega))).mpr h3
        rcases hle hl with ⟨_, g2⟩ | ⟨g1, _⟩
        · rw [g2]
          simp only [Bool.false_eq_true, if_false, Int.add_zero]
          congr 1
          rw [Int.natCast_mul, hc]
          simp
        · omega
    have hl1 : (lastArg [(0, a), (1, b)] 1).getD [] = b := rfl
    rw [hl1, hfr]
    have : toS32 v = v := by unfold toS32; omega
    rw [this]
    rfl
  | @long a b v f hn hf hl h64 =>
    have h0 := hn.nonneg
    have hf0 := hf.nonneg
    have hfl := numeral_length hf
    have hv : v ≤ 18446744073709551615 := by omega
    have hb := stringParse_yes (args := 2) (reads := fun i s => i = 1 || readsInt u64 s) (by omega) format_fraction.1 format_fraction.2
      ((matches_step (hn.not_mem digit_dot)).mpr ⟨hn.ne, by omega, by simp [readsInt_numeral u64_ok hn hv], [(1, b)], rfl, matches_last.mpr ⟨hf.ne, by omega, by simp, rfl⟩⟩)
    refine ⟨?_, by omega⟩
    unfold parseSeconds
    rw [hb]
    simp only []
    rw [intArg_of u64_ok hn hv rfl]
    have hfr : parseFractionText b = some ((roundDigits (b.length - 6) f.toNat : Nat) : Int) := by
      unfold parseFractionText
      rw [hf.fromText u64_ok, if_pos (show f ≤ u64.hi from (by omega : f ≤ 18446744073709551615))]
      simp only []
      by_cases hz : f = 0
      · subst hz
        have : Math.parseFraction b.length (some (0 : Int).toNat) 6 = .ok ⟨0, 0, false⟩ := rfl
        rw [this]
        have z : ∀ k, roundDigits k (0 : Int).toNat = 0 := by
          intro k
          induction k with
          | zero => rfl
          | succ k ih => exact ih
        rw [z]
        simp
      · have h3 : f.toNat < 10 ^ b.length := by
          have h2 : ((10 ^ b.length : Nat) : Int) = 10 ^ b.length := by simp
          omega
        have hm : min b.length 6 = 6 := by omega
        obtain ⟨k1, _, _⟩ := Math.roundFraction_spec (r := 10) (by omega) (P := b.length) (target := 6) h3 (by rw [hm]; decide)
        rw [hm] at k1
        unfold Math.parseFraction
        simp only []
        rw [if_neg (by omega), show 6 - b.length = 0 by omega, show max b.length 6 = b.length by omega]
        simp only [Math.padLoop]
        congr 1
        rw [roundDigits_eq _ _ false, ← k1]
        unfold Math.Spec.units
        split
        · simp
        · simp
    have hl1 : (lastArg [(0, a), (1, b)] 1).getD [] = b := rfl
    rw [hl1, hfr]
    have : toS32 v = v := by unfold toS32; omega
    rw [this]
    rfl

/-- The numbers of the date and the time of day. -/
structure DateTexts (y mo d h mi : List Char) (vy vmo vd vh vmi : Int) : Prop where
  y : Numeral y vy
  mo : Numeral mo vmo
  d : Numeral d vd
  h : Numeral h vh
  mi : Numeral mi vmi
  yle : vy ≤ 32767
  mole : vmo ≤ 32767
  dle : vd ≤ 32767
  hle : vh ≤ 32767
  mile : vmi ≤ 32767

theorem isoReads_num {i : Nat} (hi : i ≠ 5) {s : List Char} {v : Int} (h : Numeral s v) (hv : v ≤ 32767) : isoReads i s = true := by
  unfold isoReads
  rw [if_neg hi]
  exact readsInt_numeral s16_ok h hv

theorem matches_date {y mo d h mi : List Char} {vy vmo vd vh vmi : Int} (hd : DateTexts y mo d h mi vy vmo vd vh vmi) {args : Nat} (ha : 6 ≤ args)
    (items : List Item) (rest : List Char) (asg : List (Nat × List Char)) :
    Matches args isoReads (dateItems items) (y ++ '-' :: (mo ++ '-' :: (d ++ 'T' :: (h ++ ':' :: (mi ++ ':' :: rest))))) asg ↔
      ∃ asg', asg = [(0, y), (1, mo), (2, d), (3, h), (4, mi)] ++ asg' ∧ Matches args isoReads items rest asg' := by
  unfold dateItems
  simp only [List.cons_append, List.nil_append]
  rw [matches_step (hd.y.not_mem digit_dash)]
  constructor
  · rintro ⟨_, _, _, a1, rfl, h1⟩
    rw [matches_step (hd.mo.not_mem digit_dash)] at h1
    obtain ⟨_, _, _, a2, rfl, h2⟩ := h1
    rw [matches_step (hd.d.not_mem digit_T)] at h2
    obtain ⟨_, _, _, a3, rfl, h3⟩ := h2
    rw [matches_step (hd.h.not_mem digit_colon)] at h3
    obtain ⟨_, _, _, a4, rfl, h4⟩ := h3
    rw [matches_step (hd.mi.not_mem digit_colon)] at h4
    obtain ⟨_, _, _, a5, rfl, h5⟩ := h4
    exact ⟨a5, rfl, h5⟩
  · rintro ⟨asg', rfl, h5⟩
    refine ⟨hd.y.ne, by omega, isoReads_num (by omega) hd.y hd.yle, _, rfl, ?_⟩
    rw [matches_step (hd.mo.not_mem digit_dash)]
    refine ⟨hd.mo.ne, by omega, isoReads_num (by omega) hd.mo hd.mole, _, rfl, ?_⟩
    rw [matches_step (hd.d.not_mem digit_T)]
    refine ⟨hd.d.ne, by omega, isoReads_num (by omega) hd.d hd.dle, _, rfl, ?_⟩
    rw [matches_step (hd.h.not_mem digit_colon)]
    refine ⟨hd.h.ne, by omega, isoReads_num (by omega) hd.h hd.hle, _, rfl, ?_⟩
    rw [matches_step (hd.mi.not_mem digit_colon)]
    exact ⟨hd.mi.ne, by omega, isoReads_num (by omega) hd.mi hd.mile, _, rfl, h5⟩

theorem lastArg_append {a b : List (Nat × List Char)} {i : Nat} {s : List Char} (h : lastArg b i = some s) : lastArg (a ++ b) i = some s := by
  unfold lastArg at *
  rw [List.filter_append, List.getLast?_append]
  cases hb : (b.filter (·.1 = i)).getLast? with
  | none => rw [hb] at h; cases h
  | some x => rw [hb] at h; simpa using h

theorem isoParts_of {y mo d h mi : List Char} {vy vmo vd vh vmi : Int} (hd : DateTexts y mo d h mi vy vmo vd vh vmi) {s : List Char} {us : Int}
    (hs : parseSeconds s = some us) (pre : List (Nat × List Char)) (rest : List (Nat × List Char)) (hr : ∀ x ∈ rest, 5 < x.1) (off : Int) :
    isoParts (pre ++ ([(0, y), (1, mo), (2, d), (3, h), (4, mi)] ++ ((5, s) :: rest))) off = ⟨vy, vmo, vd, vh, vmi, us, off⟩ := by
  have key : ∀ i, i ≤ 5 → rest.filter (fun x => decide (x.1 = i)) = [] := by
    intro i hi
    rw [List.filter_eq_nil_iff]
    intro x hx
    have := hr x hx
    simp; omega
  have k : ∀ i t, i ≤ 5 → lastArg [(0, y), (1, mo), (2, d), (3, h), (4, mi), (5, s)] i = some t →
      lastArg (pre ++ ([(0, y), (1, mo), (2, d), (3, h), (4, mi)] ++ ((5, s) :: rest))) i = some t := by
    intro i t hi ht
    apply lastArg_append
    have e : [(0, y), (1, mo), (2, d), (3, h), (4, mi)] ++ ((5, s) :: rest) = [(0, y), (1, mo), (2, d), (3, h), (4, mi), (5, s)] ++ rest := rfl
    rw [e]
    unfold lastArg at *
    rw [List.filter_append, key i hi, List.append_nil]
    exact ht
  unfold isoParts
  rw [intArg_of s16_ok hd.y hd.yle (k 0 y (by omega) rfl), intArg_of s16_ok hd.mo hd.mole (k 1 mo (by omega) rfl),
    intArg_of s16_ok hd.d hd.dle (k 2 d (by omega) rfl), intArg_of s16_ok hd.h hd.hle (k 3 h (by omega) rfl),
    intArg_of s16_ok hd.mi hd.mile (k 4 mi (by omega) rfl), k 5 s (by omega) rfl]
  simp only [Option.bind_some, hs, Option.getD_some]

theorem SecondsText.ne {s : List Char} {us : Int} (h : SecondsText s us) : s ≠ [] := by
  cases h with
  | whole h => exact h.ne
  | fraction h _ _ => simp
  | long h _ _ _ => simp

theorem SecondsText.not_mem {s : List Char} {us : Int} (h : SecondsText s us) {c : Char} (hc : isDigit c = false) (hd : c ≠ '.') : c ∉ s := by
  cases h with
  | whole h => exact h.not_mem hc
  | fraction h1 h2 _ =>
    intro hm
    rcases List.mem_append.mp hm with h | h
    · exact h1.not_mem hc h
    · rcases List.mem_cons.mp h with h | h
      · exact hd h
      · exact h2.not_mem hc h
  | long h1 h2 _ _ =>
    intro hm
    rcases List.mem_append.mp hm with h | h
    · exact h1.not_mem hc h
    · rcases List.mem_cons.mp h with h | h
      · exact hd h
      · exact h2.not_mem hc h

/-- A text that is not only digits is no number. -/
theorem fromText_not {t : IntTy} {x : Char} {s : List Char} {c : Char} (hc : c ∈ s) (hd : isDigit c = false) : fromText t (x :: s) = .formatError := by
  have h : s.all isDigit = false := by
    rw [List.all_eq_false]
    exact ⟨c, hc, by simp [hd]⟩
  exact (fromText_refused t).2 x s (fun _ => h) (fun _ _ => by rw [List.all_cons, h, Bool.and_false])

theorem fromText_append_not {t : IntTy} {s r : List Char} {c : Char} (hs : s ≠ []) (hd : isDigit c = false) : fromText t (s ++ c :: r) = .formatError := by
  cases s with
  | nil => exact absurd rfl hs
  | cons x s => exact fromText_not (c := c) (by simp) hd

/-- The zone does not belong to the seconds. -/
theorem parseSeconds_zone {s : List Char} {us : Int} (h : SecondsText s us) (hus : us < 2147483648000000) {c : Char} {r : List Char} (hd : isDigit c = false) (hc : '.' ∉ c :: r) :
    parseSeconds (s ++ c :: r) = none := by
  cases h with
  | @whole _ v hn =>
    have hne : '.' ∉ s ++ c :: r := by
      intro hm
      rcases List.mem_append.mp hm with h | h
      · exact hn.not_mem digit_dot h
      · exact hc h
    obtain ⟨asg, ha⟩ := stringParse_no (args := 2) (reads := fun i s => i = 1 || readsInt u64 s) (by omega) format_fraction.1 format_fraction.2 (s := s ++ c :: r)
      (fun asg hm => hne (matches_mem hm (a := some 0) (by simp)))
    obtain ⟨asg', hb⟩ := stringParse_no (args := 1) (reads := fun _ s => readsInt u64 s) (by omega) format_one.1 format_one.2 (s := s ++ c :: r)
      (fun asg hm => by
        obtain ⟨_, _, h3, _⟩ := matches_last.mp hm
        rw [readsInt, fromText_append_not hn.ne hd] at h3
        cases h3)
    unfold parseSeconds
    rw [ha]
    simp only []
    rw [hb]
  | @fraction a b v f hn hf hl =>
    have h0 := hf.nonneg
    have hp : (0 : Int) ≤ f * 10 ^ (6 - b.length) := Int.mul_nonneg h0 (Int.pow_nonneg (by omega))
    have hv : v ≤ 18446744073709551615 := by omega
    have hb := stringParse_yes (args := 2) (reads := fun i s => i = 1 || readsInt u64 s) (by omega) format_fraction.1 format_fraction.2
      ((matches_step (rest := b ++ c :: r) (hn.not_mem digit_dot)).mpr ⟨hn.ne, by omega, by simp [readsInt_numeral u64_ok hn hv], [(1, b ++ c :: r)], rfl,
        matches_last.mpr ⟨by simp, by omega, by simp, rfl⟩⟩)
    have e : a ++ '.' :: b ++ c :: r = a ++ '.' :: (b ++ c :: r) := by simp
    unfold parseSeconds
    rw [e, hb]
    simp only []
    have hl1 : (lastArg [(0, a), (1, b ++ c :: r)] 1).getD [] = b ++ c :: r := rfl
    rw [hl1]
    unfold parseFractionText
    rw [fromText_append_not hf.ne hd]
    rfl
  | @long a b v f hn hf hl h64 =>
    have h0 := hf.nonneg
    have hv : v ≤ 18446744073709551615 := by omega
    have hb := stringParse_yes (args := 2) (reads := fun i s => i = 1 || readsInt u64 s) (by omega) format_fraction.1 format_fraction.2
      ((matches_step (rest := b ++ c :: r) (hn.not_mem digit_dot)).mpr ⟨hn.ne, by omega, by simp [readsInt_numeral u64_ok hn hv], [(1, b ++ c :: r)], rfl,
        matches_last.mpr ⟨by simp, by omega, by simp, rfl⟩⟩)
    have e : a ++ '.' :: b ++ c :: r = a ++ '.' :: (b ++ c :: r) := by simp
    unfold parseSeconds
    rw [e, hb]
    simp only []
    have hl1 : (lastArg [(0, a), (1, b ++ c :: r)] 1).getD [] = b ++ c :: r := rfl
    rw [hl1]
    unfold parseFractionText
    rw [fromText_append_not hf.ne hd]
    rfl

theorem isoReads_seconds {s : List Char} {us : Int} (h : parseSeconds s = some us) : isoReads 5 s = true := by
  unfold isoReads
  rw [if_pos rfl, h]
  rfl

theorem date_no_char {y mo d h mi : List Char} {vy vmo vd vh vmi : Int} (hd : DateTexts y mo d h mi vy vmo vd vh vmi) {c : Char} (hc : isDigit c = false)
    (h1 : c ≠ '-') (h2 : c ≠ 'T') (h3 : c ≠ ':') {rest : List Char} (hr : c ∉ rest) :
    c ∉ y ++ '-' :: (mo ++ '-' :: (d ++ 'T' :: (h ++ ':' :: (mi ++ ':' :: rest)))) := by
  intro hm
  simp only [List.mem_append, List.mem_cons] at hm
  rcases hm with h | h | h | h | h | h | h | h | h | h | h
  · exact hd.y.not_mem hc h
  · exact h1 h
  · exact hd.mo.not_mem hc h
  · exact h1 h
  · exact hd.d.not_mem hc h
  · exact h2 h
  · exact hd.h.not_mem hc h
  · exact h3 h
  · exact hd.mi.not_mem hc h
  · exact h3 h
  · exact hr h

/-- What is recognised. -/
theorem iso_parts {y mo d h mi : List Char} {vy vmo vd vh vmi : Int} (hd : DateTexts y mo d h mi vy vmo vd vh vmi) {s zone : List Char} {us off : Int}
    (hs : SecondsText s us) (hus : us < 2147483648000000) (hz : ZoneText zone off) :
    (tryDateTime (isoText y mo d h mi s zone)).or ((tryDateTimeOffset (isoText y mo d h mi s zone)).or (tryDate (isoText y mo d h mi s zone))) =
      some ⟨vy, vmo, vd, vh, vmi, us, off * 60000000⟩ := by
  obtain ⟨hp, _⟩ := parseSeconds_spec hs hus
  have hsr := isoReads_seconds hp
  have hoffset : ∀ (c : Char) (a b : List Char) (vh' vm : Int), (c = '+' ∨ c = '-') → Numeral a vh' → Numeral b vm → a.length = 2 → b.length = 2 →
      (tryDateTime (isoText y mo d h mi s (c :: (a ++ ':' :: b)))).or ((tryDateTimeOffset (isoText y mo d h mi s (c :: (a ++ ':' :: b)))).or
        (tryDate (isoText y mo d h mi s (c :: (a ++ ':' :: b))))) =
      some ⟨vy, vmo, vd, vh, vmi, us, (vh' * 3600000000 + vm * 60000000) * (if c = '+' then 1 else if c = '-' then -1 else 0)⟩ := by
    intro c a b vh' vm hc ha hb hla hlb
    have hcd : isDigit c = false := by rcases hc with rfl | rfl <;> decide
    have hcp : c ≠ '.' := by rcases hc with rfl | rfl <;> decide
    have hcz : c ≠ 'Z' := by rcases hc with rfl | rfl <;> decide
    have hdot : '.' ∉ c :: (a ++ ':' :: b) := by
      simp only [List.mem_cons, List.mem_append]
      rintro (h | h | h | h)
      · exact hcp h.symm
      · exact ha.not_mem digit_dot h
      · exact absurd h (by decide)
      · exact hb.not_mem digit_dot h
    have hZ : 'Z' ∉ s ++ c :: (a ++ ':' :: b) := by
      simp only [List.mem_cons, List.mem_append]
      rintro (h | h | h | h | h)
      · exact hs.not_mem digit_Z (by decide) h
      · exact hcz h.symm
      · exact ha.not_mem digit_Z h
      · exact absurd h (by decide)
      · exact hb.not_mem digit_Z h
    have h1 : tryDateTime (isoText y mo d h mi s (c :: (a ++ ':' :: b))) = none := by
      obtain ⟨a1, e1⟩ := stringParse_no (args := 6) (reads := isoReads) (by omega) format_utc.1 format_utc.2 (s := isoText y mo d h mi s (c :: (a ++ ':' :: b)))
        (fun asg hm => date_no_char hd digit_Z (by decide) (by decide) (by decide) hZ (matches_mem hm (a := some 5) (by simp [dateItems])))
      obtain ⟨a2, e2⟩ := stringParse_no (args := 6) (reads := isoReads) (by omega) format_plain.1 format_plain.2 (s := isoText y mo d h mi s (c :: (a ++ ':' :: b)))
        (fun asg hm => by
          obtain ⟨asg', _, h5⟩ := (matches_date hd (by omega) _ _ _).mp hm
          obtain ⟨_, _, h6, _⟩ := matches_last.mp h5
          rw [isoReads, if_pos rfl, parseSeconds_zone hs hus hcd hdot] at h6
          cases h6)
      unfold tryDateTime
      rw [e1]
      simp only []
      rw [e2]
    rw [h1, Option.none_or]
    have hva : vh' ≤ 32767 := by have := numeral_length ha; rw [hla] at this; omega
    have hvb : vm ≤ 32767 := by have := numeral_length hb; rw [hlb] at this; omega
    have hm := (matches_date hd (args := 8) (by omega) [⟨some 5, [c]⟩, ⟨some 6, [':']⟩, ⟨some 7, []⟩] (s ++ c :: (a ++ ':' :: b)) _).mpr
      ⟨_, rfl, (matches_step (hs.not_mem hcd hcp)).mpr ⟨hs.ne, by omega, hsr, _, rfl,
        (matches_step (ha.not_mem digit_colon)).mpr ⟨ha.ne, by omega, isoReads_num (by omega) ha hva, _, rfl,
          matches_last.mpr ⟨hb.ne, by omega, isoReads_num (by omega) hb hvb, rfl⟩⟩⟩⟩
    have e3 := stringParse_yes (args := 8) (by omega) (format_offset c hc).1 (format_offset c hc).2 hm
    have hlen : (isoText y mo d h mi s (c :: (a ++ ':' :: b))).length =
        (y ++ '-' :: (mo ++ '-' :: (d ++ 'T' :: (h ++ ':' :: (mi ++ ':' :: s))))).length + 6 := by
      unfold isoText
      simp [hla, hlb]
      omega
    have hget : (isoText y mo d h mi s (c :: (a ++ ':' :: b)))[(isoText y mo d h mi s (c :: (a ++ ':' :: b))).length - 1 - 5]? = some c := by
      rw [hlen]
      have : isoText y mo d h mi s (c :: (a ++ ':' :: b)) = (y ++ '-' :: (mo ++ '-' :: (d ++ 'T' :: (h ++ ':' :: (mi ++ ':' :: s))))) ++ c :: (a ++ ':' :: b) := by
        unfold isoText; simp
      rw [this, List.getElem?_append_right (by omega)]
      have e : (y ++ '-' :: (mo ++ '-' :: (d ++ 'T' :: (h ++ ':' :: (mi ++ ':' :: s))))).length + 6 - 1 - 5 -
        (y ++ '-' :: (mo ++ '-' :: (d ++ 'T' :: (h ++ ':' :: (mi ++ ':' :: s))))).length = 0 := by omega
      rw [e]; rfl
    have hmul : ¬ ((if c = '+' then 1 else if c = '-' then -1 else 0) = (0 : Int)) := by rcases hc with rfl | rfl <;> decide
    have h2 : tryDateTimeOffset (isoText y mo d h mi s (c :: (a ++ ':' :: b))) =
        some ⟨vy, vmo, vd, vh, vmi, us, (vh' * 3600000000 + vm * 60000000) * (if c = '+' then 1 else if c = '-' then -1 else 0)⟩ := by
      unfold tryDateTimeOffset
      rw [if_neg (by rw [hlen]; omega), hget]
      simp only []
      rw [if_neg hmul]
      unfold isoText
      rw [e3]
      simp only []
      rw [intArg_of s16_ok ha hva rfl, intArg_of s16_ok hb hvb rfl]
      have := isoParts_of hd hp [] [(6, a), (7, b)] (by simp) ((vh' * 3600000000 + vm * 60000000) * (if c = '+' then 1 else if c = '-' then -1 else 0))
      rw [List.nil_append] at this
      exact congrArg some this
    rw [h2, Option.some_or]
  cases hz with
  | utc =>
    have hm := (matches_date hd (args := 6) (by omega) [⟨some 5, ['Z']⟩] (s ++ ['Z']) _).mpr
      ⟨_, rfl, (matches_step (rest := []) (hs.not_mem digit_Z (by decide))).mpr ⟨hs.ne, by omega, hsr, [], rfl, .nil⟩⟩
    have e1 := stringParse_yes (args := 6) (by omega) format_utc.1 format_utc.2 hm
    have : tryDateTime (isoText y mo d h mi s ['Z']) = some ⟨vy, vmo, vd, vh, vmi, us, 0⟩ := by
      unfold tryDateTime isoText
      rw [e1]
      exact congrArg some (isoParts_of hd hp [] [] (by simp) 0)
    rw [this, Option.some_or]
    rfl
  | none =>
    have hm := (matches_date hd (args := 6) (by omega) [⟨some 5, []⟩] (s ++ []) _).mpr
      ⟨_, rfl, (matches_last.mpr ⟨by simpa using hs.ne, by omega, by simpa using hsr, rfl⟩)⟩
    have e1 := stringParse_yes (args := 6) (by omega) format_plain.1 format_plain.2 hm
    obtain ⟨a1, e0⟩ := stringParse_no (args := 6) (reads := isoReads) (by omega) format_utc.1 format_utc.2 (s := isoText y mo d h mi s [])
        (fun asg hm => date_no_char hd digit_Z (by decide) (by decide) (by decide) (by rw [List.append_nil]; exact hs.not_mem digit_Z (by decide))
          (matches_mem hm (a := some 5) (by simp [dateItems])))
    have : tryDateTime (isoText y mo d h mi s []) = some ⟨vy, vmo, vd, vh, vmi, us, 0⟩ := by
      unfold tryDateTime
      rw [e0]
      simp only []
      unfold isoText
      rw [e1]
      simp only [List.append_nil]
      exact congrArg some (isoParts_of hd hp a1 [] (by simp) 0)
    rw [this, Option.some_or]
    rfl
  | @east a b h' m ha hb hla hlb =>
    rw [hoffset '+' a b h' m (Or.inl rfl) ha hb hla hlb]
    simp only [if_true]
    congr 2; omega
  | @west a b h' m ha hb hla hlb =>
    rw [hoffset '-' a b h' m (Or.inr rfl) ha hb hla hlb]
    congr 2
    rw [if_neg (by decide), if_pos rfl]
    omega

/-- The first day of the month of a date. -/
theorem day_of_month {f : Int → Spec.Date} (hf : Spec.IsCalendar f) {n y mo d : Int} (h : f n = ⟨y, mo, d⟩) : f (n - (d - 1)) = ⟨y, mo, 1⟩ := by
  have hv := hf.valid n
  rw [h] at hv
  obtain ⟨v1, v2, v3, v4⟩ := hv
  simp only [] at v1 v2 v3 v4
  have key : ∀ (k : Nat) (n d : Int), f n = ⟨y, mo, d⟩ → d = 1 + k → f (n - k) = ⟨y, mo, 1⟩ := by
    intro k
    induction k with
    | zero => intro n d h hd; simpa [hd] using h
    | succ k ih =>
      intro n d h hd
      have hval := hf.valid n
      have hs := hf.step (n - 1)
      rw [Int.sub_add_cancel, h] at hs
      have hp : f (n - 1) = ⟨y, mo, d - 1⟩ := by
        have hvp := hf.valid (n - 1)
        refine Spec.next_injective hvp ?_ ?_
        · rw [h] at hval
          obtain ⟨a1, a2, a3, a4⟩ := hval
          simp only [] at a1 a2 a3 a4
          exact ⟨a1, a2, by simp only []; omega, by simp only []; omega⟩
        · rw [← hs]
          rw [h] at hval
          obtain ⟨a1, a2, a3, a4⟩ := hval
          simp only [] at a4
          simp only [Spec.Date.next]
          rw [if_pos (by omega), Int.sub_add_cancel]
      have := ih (n - 1) (d - 1) hp (by omega)
      have e : n - 1 - (k : Int) = n - ((k + 1 : Nat) : Int) := by omega
      rw [← e]
      exact this
  have := key (d - 1).toNat n d h (by omega)
  have e : ((d - 1).toNat : Int) = d - 1 := by omega
  rw [e] at this
  exact this

theorem round_pos {us : Int} (h : 0 ≤ us) : roundToMs us = (us + 500) / 1000 * 1000 := by
  have := (tdiv_1000 us).1 h
  simp only [roundToMs, durMs, absI]
  rw [this.1, this.2]
  repeat' split <;> omega

/-- C90, reading.  The text of an existing date (a day `n` of the calendar), a time of day and a zone gives that instant; the case of letters does not matter.
The second before 1970 is not representable. -/
theorem fromIso_value_partial {f : Int → Spec.Date} (hf : Spec.IsCalendar f) {y mo d h mi s zone : List Char} {vy vmo vd vh vmi us off n : Int}
    (hy : Numeral y vy) (hmo : Numeral mo vmo) (hd : Numeral d vd) (hh : Numeral h vh) (hmi : Numeral mi vmi) (hs : SecondsText s us) (hz : ZoneText zone off)
    (hn : f n = ⟨vy, vmo, vd⟩) (ry : vy ≤ 32767) (rh : vh < 24) (rmi : vmi < 60) (rs : us < 61000000)
    (hne : n * 86400 + vh * 3600 + vmi * 60 + (us + 500) / 1000000 ≠ -1) {str : List Char} (hstr : str.map upper = isoText y mo d h mi s zone) :
    fromIso8601 str = .ok (n * 86400000 + vh * 3600000 + vmi * 60000 + (us + 500) / 1000 - off * 60000) := by
  have hv := hf.valid n
  rw [hn] at hv
  obtain ⟨v1, v2, v3, v4⟩ := hv
  simp only [] at v1 v2 v3 v4
  have v5 : Spec.monthLength vy vmo ≤ 31 := by unfold Spec.monthLength; repeat' split <;> omega
  have hdt : DateTexts y mo d h mi vy vmo vd vh vmi := ⟨hy, hmo, hd, hh, hmi, ry, by omega, by omega, by omega, by omega⟩
  have h0 := hh.nonneg
  have h1 := hmi.nonneg
  have hy0 := hy.nonneg
  obtain ⟨_, hus0⟩ := parseSeconds_spec hs (by omega)
  unfold fromIso8601
  rw [hstr, iso_parts hdt hs (by omega) hz]
  simp only [isoTime]
  rw [round_pos hus0]
  generalize hq : (us + 500) / 1000 = q at *
  have hq0 : 0 ≤ q ∧ q ≤ 61000 := by omega
  have e1 : durMs ((q * 1000).tmod 1000000) = q % 1000 := by
    rw [Int.tmod_eq_emod_of_nonneg (by omega), durMs, Int.tdiv_eq_ediv_of_nonneg (by omega)]
    omega
  have e2 : durSeconds (q * 1000) = q / 1000 := by
    have a := (tdiv_1000 (q * 1000)).1 (by omega)
    have b := (tdiv_1000 q).1 (by omega)
    have c : (q * 1000).tdiv 1000 = q := by omega
    rw [durSeconds, durMs, c, b.1]
  rw [e1, e2]
  have hbdt : mkBdt (q % 1000) (q / 1000) vmi vh 0 vd vmo 0 vy = ⟨q % 1000, q / 1000, vmi, vh, 0, vd, vmo, 0, vy⟩ := by
    unfold mkBdt
    rw [toS16_id (x := q % 1000) (by omega) (by omega), toS16_id (x := q / 1000) (by omega) (by omega), toS16_id (x := vmi) (by omega) (by omega),
      toS16_id (x := vh) (by omega) (by omega), toS16_id (x := vd) (by omega) (by omega), toS16_id (x := vmo) (by omega) (by omega), toS16_id (x := vy) (by omega) (by omega)]
    rfl
  rw [hbdt]
  have hfirst := day_of_month hf hn
  have hval := fromBrokenDown_value hf 0 ⟨q % 1000, q / 1000, vmi, vh, 0, vd, vmo, 0, vy⟩ v1 (n := n - (vd - 1)) (by
    rw [hfirst]
    simp only []
    have : (vmo - 1) / 12 = 0 := by omega
    have : (vmo - 1) % 12 = vmo - 1 := by omega
    congr 1 <;> omega)
  rw [hval]
  have he : (us + 500) / 1000000 = q / 1000 := by rw [← hq, Int.ediv_ediv_of_nonneg (by omega)]; rfl
  simp only []
  rw [if_neg (by omega)]
  simp only [Res.bind, timeSub, durMs]
  have hoff : (off * 60000000).tdiv 1000 = off * 60000 := by
    have := tdiv_1000 (off * 60000000)
    omega
  rw [hoff]
  congr 1
  omega

/-- 29 February 2024 in Moscow, in lower case. -/
example : fromIso8601 "2024-02-29t12:34:56.789+03:00".toList = .ok 1709199296789 := by decide +kernel
example : "2024-02-29t12:34:56.789+03:00".toList.map upper =
    isoText "2024".toList "02".toList "29".toList "12".toList "34".toList "56.789".toList "+03:00".toList ∧
    SecondsText "56.789".toList 56789000 ∧ ZoneText "+03:00".toList 180 :=
  ⟨by decide +kernel, .fraction (s := "56".toList) (b := "789".toList) (v := 56) (f := 789) ⟨by decide, by decide, by decide⟩ ⟨by decide, by decide, by decide⟩ (by decide),
    .east (a := "03".toList) (b := "00".toList) (h := 3) (m := 0) ⟨by decide, by decide, by decide⟩ ⟨by decide, by decide, by decide⟩ rfl rfl⟩

/-- C90, reading.  A date alone is its midnight in UTC. -/
theorem fromIso_date {f : Int → Spec.Date} (hf : Spec.IsCalendar f) {y mo d : List Char} {vy vmo vd n : Int}
    (hy : Numeral y vy) (hmo : Numeral mo vmo) (hd : Numeral d vd) (hn : f n = ⟨vy, vmo, vd⟩) (ry : vy ≤ 32767) :
    fromIso8601 (y ++ '-' :: (mo ++ '-' :: d)) = .ok (n * 86400000) := by
  have hv := hf.valid n
  rw [hn] at hv
  obtain ⟨v1, v2, v3, v4⟩ := hv
  simp only [] at v1 v2 v3 v4
  have v5 : Spec.monthLength vy vmo ≤ 31 := by unfold Spec.monthLength; repeat' split <;> omega
  have hy0 := hy.nonneg
  have hup : ∀ {s : List Char} {v : Int}, Numeral s v → s.map upper = s := by
    intro s v hn
    rw [List.map_congr_left (g := id) fun c hc => ?_, List.map_id]
    have := List.all_eq_true.mp hn.dig c hc
    unfold isDigit at this
    simp at this
    unfold upper
    rw [if_neg (by omega)]
    rfl
  have hstr : (y ++ '-' :: (mo ++ '-' :: d)).map upper = y ++ '-' :: (mo ++ '-' :: d) := by
    have hdash : upper '-' = '-' := by decide
    simp only [List.map_append, List.map_cons, hup hy, hup hmo, hup hd, hdash]
  have hT : 'T' ∉ y ++ '-' :: (mo ++ '-' :: d) := by
    simp only [List.mem_append, List.mem_cons]
    rintro (h | h | h | h | h)
    · exact hy.not_mem digit_T h
    · exact absurd h (by decide)
    · exact hmo.not_mem digit_T h
    · exact absurd h (by decide)
    · exact hd.not_mem digit_T h
  have h1 : tryDateTime (y ++ '-' :: (mo ++ '-' :: d)) = none := by
    obtain ⟨a1, e1⟩ := stringParse_no (args := 6) (reads := isoReads) (by omega) format_utc.1 format_utc.2 (s := y ++ '-' :: (mo ++ '-' :: d))
      (fun asg hm => hT (matches_mem hm (a := some 2) (by simp [dateItems])))
    obtain ⟨a2, e2⟩ := stringParse_no (args := 6) (reads := isoReads) (by omega) format_plain.1 format_plain.2 (s := y ++ '-' :: (mo ++ '-' :: d))
      (fun asg hm => hT (matches_mem hm (a := some 2) (by simp [dateItems])))
    unfold tryDateTime
    rw [e1]
    simp only []
    rw [e2]
  have h2 : tryDateTimeOffset (y ++ '-' :: (mo ++ '-' :: d)) = none := by
    unfold tryDateTimeOffset
    by_cases hlen : (y ++ '-' :: (mo ++ '-' :: d)).length ≤ 5
    · rw [if_pos hlen]
    · rw [if_neg hlen]
      cases hg : (y ++ '-' :: (mo ++ '-' :: d))[(y ++ '-' :: (mo ++ '-' :: d)).length - 1 - 5]? with
      | none => rfl
      | some c =>
        simp only []
        by_cases hc : c = '+' ∨ c = '-'
        · obtain ⟨a1, e1⟩ := stringParse_no (args := 8) (reads := isoReads) (by omega) (format_offset c hc).1 (format_offset c hc).2 (s := y ++ '-' :: (mo ++ '-' :: d))
            (fun asg hm => hT (matches_mem hm (a := some 2) (by simp [dateItems])))
          rw [e1]
          simp
        · rw [if_pos (by rw [if_neg (fun h => hc (Or.inl h)), if_neg (fun h => hc (Or.inr h))])]
  have h3 : tryDate (y ++ '-' :: (mo ++ '-' :: d)) = some ⟨vy, vmo, vd, 0, 0, 0, 0⟩ := by
    have hm : Matches 3 isoReads [⟨some 0, ['-']⟩, ⟨some 1, ['-']⟩, ⟨some 2, []⟩] (y ++ '-' :: (mo ++ '-' :: d)) [(0, y), (1, mo), (2, d)] :=
      (matches_step (hy.not_mem digit_dash)).mpr ⟨hy.ne, by omega, isoReads_num (by omega) hy ry, _, rfl,
        (matches_step (hmo.not_mem digit_dash)).mpr ⟨hmo.ne, by omega, isoReads_num (by omega) hmo (by omega), _, rfl,
          matches_last.mpr ⟨hd.ne, by omega, isoReads_num (by omega) hd (by omega), rfl⟩⟩⟩
    have e1 := stringParse_yes (args := 3) (by omega) format_date.1 format_date.2 hm
    unfold tryDate
    rw [e1]
    simp only [isoParts]
    rw [intArg_of s16_ok hy (by exact ry) rfl, intArg_of s16_ok hmo (show vmo ≤ 32767 by omega) rfl, intArg_of s16_ok hd (show vd ≤ 32767 by omega) rfl]
    rfl
  unfold fromIso8601
  rw [hstr, h1, h2, h3]
  simp only [Option.none_or, isoTime]
  have e0 : durMs ((roundToMs 0).tmod 1000000) = 0 ∧ durSeconds (roundToMs 0) = 0 := by decide
  rw [e0.1, e0.2]
  have hbdt : mkBdt 0 0 0 0 0 vd vmo 0 vy = ⟨0, 0, 0, 0, 0, vd, vmo, 0, vy⟩ := by
    unfold mkBdt
    rw [toS16_id (x := vd) (by omega) (by omega), toS16_id (x := vmo) (by omega) (by omega), toS16_id (x := vy) (by omega) (by omega)]
    rfl
  rw [hbdt]
  have hfirst := day_of_month hf hn
  have hval := fromBrokenDown_value hf 0 ⟨0, 0, 0, 0, 0, vd, vmo, 0, vy⟩ v1 (n := n - (vd - 1)) (by
    rw [hfirst]
    simp only []
    have : (vmo - 1) / 12 = 0 := by omega
    have : (vmo - 1) % 12 = vmo - 1 := by omega
    congr 1 <;> omega)
  rw [hval]
  simp only []
  rw [if_neg (by omega)]
  simp only [Res.bind, timeSub, durMs]
  congr 1
  simp
  omega

example : fromIso8601 "2024-02-29".toList = .ok 1709164800000 := by decide +kernel

/-! ### The round trip -/

/-- `matcher` is the automaton of the formats. -/
def IsMatcher (matcher : Trie Char) : Prop := ∃ alphabet : List Char, (∀ c, c ∈ alphabet) ∧ alphabet.Nodup ∧ formatMatcher alphabet = some matcher

/-- It finds all occurrences of the patterns. -/
theorem matcher_search {matcher : Trie Char} (h : IsMatcher matcher) (text : List Char) : matcher.search text = some (allReports bdtPatterns text) := by
  obtain ⟨alphabet, h1, h2, h3⟩ := h
  obtain ⟨t, h4, h5⟩ := search_spec h1 h2 bdtPatterns
  unfold formatMatcher at h3
  rw [h4] at h3
  cases h3
  exact h5 text

theorem char_alphabet : ∃ alphabet : List Char, (∀ c, c ∈ alphabet) ∧ alphabet.Nodup := by
  have key : ∀ n : Nat, ∃ l : List Char, (∀ c : Char, c.toNat < n → c ∈ l) ∧ (∀ c ∈ l, c.toNat < n) ∧ l.Nodup := by
    intro n
    induction n with
    | zero => exact ⟨[], fun c h => absurd h (by omega), fun c h => (nomatch h), List.nodup_nil⟩
    | succ n ih =>
      obtain ⟨l, h1, h2, h3⟩ := ih
      by_cases hv : (Char.ofNat n).toNat = n
      · refine ⟨Char.ofNat n :: l, fun c hc => ?_, fun c hc => ?_, ?_⟩
        · by_cases he : c.toNat = n
          · have : c = Char.ofNat n := by rw [← he]; exact (Char.ofNat_toNat c).symm
            rw [this]; exact List.mem_cons_self
          · exact List.mem_cons_of_mem _ (h1 c (by omega))
        · rcases List.mem_cons.mp hc with rfl | h
          · omega
          · have := h2 c h; omega
        · exact List.nodup_cons.mpr ⟨fun h => by have := h2 _ h; omega, h3⟩
      · refine ⟨l, fun c hc => ?_, fun c hc => by have := h2 c hc; omega, h3⟩
        by_cases he : c.toNat = n
        · exact absurd (by rw [← he, Char.ofNat_toNat]) hv
        · exact h1 c (by omega)
  obtain ⟨l, h1, _, h3⟩ := key 1114112
  refine ⟨l, fun c => h1 c ?_, h3⟩
  have := c.valid
  unfold UInt32.isValidChar Nat.isValidChar at this
  have e : c.toNat = c.val.toNat := rfl
  omega

/-- There is such an automaton. -/
theorem matcher_exists : ∃ matcher, IsMatcher matcher := by
  obtain ⟨l, h1, h2⟩ := char_alphabet
  obtain ⟨t, h4, _⟩ := search_spec h1 h2 bdtPatterns
  exact ⟨t, l, h1, h2, h4⟩

theorem iso_hits : allReports bdtPatterns "YYYY-MM-ddThh:mm:ss.lllZ".toList = [(2, 0), (1, 5), (0, 8), (4, 11), (5, 14), (6, 17), (7, 20)] := by decide +kernel

/-- The text of the fields. -/
theorem toIso_text {matcher : Trie Char} (hm : IsMatcher matcher) {t : Int} {b : Bdt} (hb : breakDown 0 t = .ok b) :
    toIso8601 matcher t = .ok (isoText (fieldText b 2) (fieldText b 1) (fieldText b 0) (fieldText b 4) (fieldText b 5) (fieldText b 6 ++ '.' :: fieldText b 7) ['Z']) := by
  unfold toIso8601
  rw [hb]
  simp only [Res.bind, bdtToString]
  rw [if_neg (by decide), matcher_search hm, iso_hits]
  simp only []
  simp only [replaceHits, bdtPatterns, isoText]
  simp

theorem bdt_range {t : Int} {b : Bdt} (h : breakDown 0 t = .ok b) : -32768 ≤ b.year ∧ b.year ≤ 32767 := by
  unfold breakDown brokenDownFromMilliseconds at h
  split at h
  · cases h
  · cases h
    simp only [mkBdt, toS16]
    omega

theorem numeral_field {v : Int} (h0 : 0 ≤ v) (h1 : v ≤ 32767) (w : Nat) : Numeral (padZero w (digits s16 v)) v :=
  ((numeral_digits s16_ok (by decide) h0 h1).1).pad w

theorem year_zero {f : Int → Spec.Date} (hf : Spec.IsCalendar f) : f (-719528) = ⟨0, 1, 1⟩ := by
  rw [hf.unique civil_isCalendar]
  decide +kernel

theorem upper_numeral {s : List Char} {v : Int} (hn : Numeral s v) : s.map upper = s := by
  rw [List.map_congr_left (g := id) fun c hc => ?_, List.map_id]
  have := List.all_eq_true.mp hn.dig c hc
  unfold isDigit at this
  simp at this
  unfold upper
  rw [if_neg (by omega)]
  rfl

/-- A numeral without leading zeros is not longer than needed. -/
theorem numeral_no_longer {s : List Char} {v : Int} (hn : Numeral s v) (hz : s.head? = some '0' → s = ['0']) {w : Nat} (hw : 1 ≤ w) (hv : v < 10 ^ w) : s.length ≤ w := by
  rcases Nat.lt_or_ge w s.length with h | h
  · cases hd : s with
    | nil => rw [hd] at h; simp at h
    | cons c cs =>
      rw [hd] at h hn hz
      have hc : c ≠ '0' := by
        intro hc
        have := hz (by rw [hc]; rfl)
        injection this with _ h2
        rw [h2] at h; simp at h; omega
      have hdig := hn.dig
      rw [List.all_cons, Bool.and_eq_true] at hdig
      have hr := digitVal_range hdig.1
      have hpos : 1 ≤ digitVal c := by
        rcases Int.lt_or_le (digitVal c) 1 with h | h
        · exfalso
          apply hc
          unfold digitVal at h hr
          have : c.toNat = 48 := by omega
          rw [← Char.ofNat_toNat c, this]
        · exact h
      have hge := fold_shift cs 0 (digitVal c)
      have hv' : decimal (c :: cs) = v := hn.val
      unfold decimal at hv'
      rw [List.foldl_cons] at hv'
      have e : (0 * 10 + digitVal c : Int) = 0 + digitVal c := by omega
      rw [e, hge] at hv'
      have h0' := (fold_ge cs hdig.2 0 (by omega))
      have hpow : (10 : Int) ^ w ≤ 10 ^ cs.length := by
        rw [List.length_cons] at h
        have h1 : 10 ^ w ≤ 10 ^ cs.length := Nat.pow_le_pow_right (by omega) (by omega)
        have h2 : ((10 ^ cs.length : Nat) : Int) = 10 ^ cs.length := by simp
        have h3 : ((10 ^ w : Nat) : Int) = 10 ^ w := by simp
        omega
      have : 1 * 10 ^ cs.length ≤ digitVal c * 10 ^ cs.length := Int.mul_le_mul_of_nonneg_right hpos (Int.pow_nonneg (by omega))
      omega
  · exact h

theorem ms_length {v : Int} (h0 : 0 ≤ v) (h1 : v < 1000) : (padZero 3 (digits s16 v)).length = 3 := by
  obtain ⟨hn, hz⟩ := numeral_digits s16_ok (by decide) h0 (show v ≤ s16.hi by show v ≤ 32767; omega)
  have := numeral_no_longer hn hz (w := 3) (by omega) (by omega)
  unfold padZero
  rw [List.length_append, List.length_replicate]
  omega

/-- C90.  Writing a time and reading the text gives the time back: for all times from 1970 on, and for whole seconds of the years 0 to 1969 but the last one. -/
theorem iso_roundtrip_partial {matcher : Trie Char} (hm : IsMatcher matcher) {t : Int} (h0 : 0 ≤ t ∨ t % 1000 = 0) (h1 : -62167219200000 ≤ t)
    (h2 : t < 971890963200000) (h3 : t ≠ -1000) : ∃ s, toIso8601 matcher t = .ok s ∧ fromIso8601 s = .ok t := by
  obtain ⟨f, hf⟩ := calendar_exists
  obtain ⟨b, hb, hdate, ms0, ms1, s0, s1, mi0, mi1, h0', h1', htime, _, _⟩ := breakDown_fields_partial hf (offset := 0) (t := t) (by omega) (by omega) (by omega)
  have et : t + 60000 * 0 = t := by omega
  rw [et] at hdate htime
  refine ⟨_, toIso_text hm hb, ?_⟩
  have hr := bdt_range hb
  have hv := hf.valid (t / 86400000)
  rw [← hdate] at hv
  obtain ⟨v1, v2, v3, v4⟩ := hv
  simp only [] at v1 v2 v3 v4
  have v5 : Spec.monthLength b.year b.month ≤ 31 := by unfold Spec.monthLength; repeat' split <;> omega
  have hy0 : 0 ≤ b.year := by
    rcases Int.lt_or_le (-719528) (t / 86400000) with h | h
    · have := calendar_increasing hf h
      rw [year_zero hf, ← hdate] at this
      simp only [Spec.Date.Before] at this
      omega
    · have e : t / 86400000 = -719528 := by omega
      rw [e, year_zero hf] at hdate
      injection hdate with e1
      omega
  have ny := numeral_field hy0 hr.2 4
  have nmo := numeral_field (v := b.month) (by omega) (by omega) 2
  have nd := numeral_field (v := b.mday) (by omega) (by omega) 2
  have nh := numeral_field (v := b.hour) (by omega) (by omega) 2
  have nmi := numeral_field (v := b.min) (by omega) (by omega) 2
  have ns := numeral_field (v := b.sec) (by omega) (by omega) 2
  have nms := numeral_field (v := b.ms) (by omega) (by omega) 3
  have hl := ms_length ms0 ms1
  have hsec := SecondsText.fraction ns nms (by omega)
  rw [hl] at hsec
  have hsec' : SecondsText (padZero 2 (digits s16 b.sec) ++ '.' :: padZero 3 (digits s16 b.ms)) (b.sec * 1000000 + b.ms * 1000) := hsec
  have hup : (isoText (fieldText b 2) (fieldText b 1) (fieldText b 0) (fieldText b 4) (fieldText b 5) (fieldText b 6 ++ '.' :: fieldText b 7) ['Z']).map upper =
      isoText (fieldText b 2) (fieldText b 1) (fieldText b 0) (fieldText b 4) (fieldText b 5) (fieldText b 6 ++ '.' :: fieldText b 7) ['Z'] := by
    have e1 : upper '-' = '-' := by decide
    have e2 : upper ':' = ':' := by decide
    have e3 : upper 'T' = 'T' := by decide
    have e4 : upper 'Z' = 'Z' := by decide
    have e5 : upper '.' = '.' := by decide
    simp only [isoText, fieldText, List.map_append, List.map_cons, List.map_nil, upper_numeral ny, upper_numeral nmo, upper_numeral nd, upper_numeral nh,
      upper_numeral nmi, upper_numeral ns, upper_numeral nms, e1, e2, e3, e4, e5]
  have hval := fromIso_value_partial hf ny nmo nd nh nmi hsec' .utc hdate.symm hr.2 h1' mi1 (by omega) (by omega) hup
  rw [hval]
  congr 1
  omega

example : ∃ matcher, IsMatcher matcher := matcher_exists
example : (0 ≤ (1709199296789 : Int) ∨ (1709199296789 : Int) % 1000 = 0) ∧ (-62167219200000 : Int) ≤ 1709199296789 ∧ (1709199296789 : Int) < 971890963200000 := by decide

/-- C90 is violated by long fractions: they are rounded twice.  0.4995 milliseconds are read as one. -/
theorem iso_double_rounding_violated : fromIso8601 "1970-01-01T00:00:00.0004995Z".toList = .ok 1 ∧ fromIso8601 "1970-01-01T00:00:00.000499Z".toList = .ok 0 := by decide +kernel

example : fromIso8601 "1970-01-01T00:00:59.9999999Z".toList = .ok 60000 := by decide +kernel

/-- C90 is violated by milliseconds before 1970: the text has a minus sign among the digits and cannot be read. -/
theorem iso_before_1970_violated {matcher : Trie Char} (hm : IsMatcher matcher) :
    toIso8601 matcher (-1500) = .ok "1969-12-31T23:59:59.-500Z".toList ∧ fromIso8601 "1969-12-31T23:59:59.-500Z".toList = .threw := by
  refine ⟨?_, by decide +kernel⟩
  rw [toIso_text hm (b := ⟨-500, 59, 59, 23, 3, 31, 12, 364, 1969⟩) (by decide +kernel)]
  rfl

/-- C90 is violated one second before 1970: the text is right but cannot be read. -/
theorem iso_second_violated {matcher : Trie Char} (hm : IsMatcher matcher) :
    toIso8601 matcher (-1000) = .ok "1969-12-31T23:59:59.000Z".toList ∧ fromIso8601 "1969-12-31T23:59:59.000Z".toList = .threw := by
  refine ⟨?_, by decide +kernel⟩
  rw [toIso_text hm (b := ⟨0, 59, 59, 23, 3, 31, 12, 364, 1969⟩) (by decide +kernel)]
  rfl

/-- C90 is violated for years before 0. -/
theorem iso_negative_year_violated {matcher : Trie Char} (hm : IsMatcher matcher) :
    toIso8601 matcher (-62167219201000) = .ok "00-1-12-31T23:59:59.000Z".toList ∧ fromIso8601 "00-1-12-31T23:59:59.000Z".toList = .threw := by
  refine ⟨?_, by decide +kernel⟩
  rw [toIso_text hm (b := ⟨0, 59, 59, 23, 5, 31, 12, 364, -1⟩) (by decide +kernel)]
  rfl

/-- C90: texts that denote no time are not refused: the fields are not checked, seconds are reduced to 16 bits, and a month 0 reads outside of a table. -/
theorem iso_unchecked_violated : fromIso8601 "2023-02-30".toList = fromIso8601 "2023-03-02".toList ∧
    fromIso8601 "2023-01-01T00:00:65536Z".toList = fromIso8601 "2023-01-01T00:00:00Z".toList ∧ fromIso8601 "2023-00-01".toList = .undefined := by decide +kernel

end Verif.Time
