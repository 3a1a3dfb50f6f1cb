import Verif.Time.Scan
import Verif.Time.IsoProps

/-! C139: what `Time::FromString` and `TimeDuration::FromString` read. -/

namespace Verif.Time

open Verif.Str

/-! ### Specification -/

/-- The text does not go on with a digit. -/
def NoDigit (s : List Char) : Prop := ∀ c r, s = c :: r → isDigit c = false

/-- The year meant by the number written: two-digit years (and 100) are those from 1931 to 2030. -/
def YearMeant (written year : Int) : Prop :=
  (written > 100 ∧ year = written) ∨ (30 < written ∧ written ≤ 100 ∧ year = 1900 + written) ∨ (written ≤ 30 ∧ year = 2000 + written)

/-- A time of day, as milliseconds: hours and minutes, or hours, minutes and seconds followed by anything but a digit.  The fields are
not confined to the clock. -/
inductive ClockText : List Char → Int → Prop
  | minutes {h mi : List Char} {vh vmi : Int} : Numeral h vh → Numeral mi vmi → vh ≤ 32767 → vmi ≤ 32767 →
      ClockText (h ++ ':' :: mi) (vh * 3600000 + vmi * 60000)
  | seconds {h mi s tail : List Char} {vh vmi vs : Int} : Numeral h vh → Numeral mi vmi → Numeral s vs → vh ≤ 32767 → vmi ≤ 32767 → vs ≤ 32767 →
      NoDigit tail → ClockText (h ++ ':' :: (mi ++ ':' :: (s ++ tail))) (vh * 3600000 + vmi * 60000 + vs * 1000)

/-- What may follow the date, as milliseconds: nothing, or a blank and a time of day. -/
inductive AfterDate : List Char → Int → Prop
  | nothing : AfterDate [] 0
  | clock {s : List Char} {ms : Int} : ClockText s ms → AfterDate (' ' :: s) ms

/-- The zone at the end, in minutes; `none` if none is given. -/
inductive Suffix : List Char → Option Int → Prop
  | none : Suffix [] none
  | utc : Suffix ['Z'] (some 0)
  | east {a b : List Char} {h m : Int} : Numeral a h → Numeral b m → h < 24 → m < 60 → Suffix ('+' :: (a ++ ':' :: b)) (some (h * 60 + m))
  | west {a b : List Char} {h m : Int} : Numeral a h → Numeral b m → h < 24 → m < 60 → Suffix ('-' :: (a ++ ':' :: b)) (some (-(h * 60 + m)))
  | eastHours {a : List Char} {h : Int} : Numeral a h → h < 24 → Suffix ('+' :: a) (some (h * 60))
  | westHours {a : List Char} {h : Int} : Numeral a h → h < 24 → Suffix ('-' :: a) (some (-(h * 60)))

/-! ### sscanf -/

theorem noDigit_take {s : List Char} (h : NoDigit s) : s.takeWhile isDigit = [] ∧ s.dropWhile isDigit = s := by
  cases s with
  | nil => exact ⟨rfl, rfl⟩
  | cons c r =>
    have := h c r rfl
    simp [this]

theorem numeral_split {a r : List Char} {v : Int} (h : Numeral a v) (hr : NoDigit r) :
    (a ++ r).takeWhile isDigit = a ∧ (a ++ r).dropWhile isDigit = r := by
  have hd := List.all_eq_true.mp h.dig
  rw [List.takeWhile_append_of_pos hd, List.dropWhile_append_of_pos hd, (noDigit_take hr).1, (noDigit_take hr).2, List.append_nil]
  exact ⟨rfl, rfl⟩

theorem scanDigits_numeral {a r : List Char} {v : Int} (h : Numeral a v) (hr : NoDigit r) (sign : Int) :
    scanDigits sign (a ++ r) = some (sign * v, r) := by
  unfold scanDigits
  obtain ⟨e1, e2⟩ := numeral_split h hr
  rw [e1, e2, if_neg h.ne]
  have := h.val
  unfold decimal at this
  rw [this]

theorem digit_plain {c : Char} (h : isDigit c = true) : isBlank c = false ∧ c ≠ '-' ∧ c ≠ '+' ∧ c ≠ Char.ofNat 0 ∧ c ≠ 'n' := by
  have hn : 48 ≤ c.toNat ∧ c.toNat ≤ 57 := by simpa [isDigit] using h
  have key : ∀ d : Char, d.toNat < 48 ∨ 57 < d.toNat → c ≠ d := by
    intro d hd e; subst e; omega
  refine ⟨?_, key _ (by decide), key _ (by decide), key _ (by decide), key _ (by decide)⟩
  have := key ' ' (by decide)
  simp [isBlank, this]
  omega

theorem numeral_head {a : List Char} {v : Int} (h : Numeral a v) : ∃ c b, a = c :: b ∧ isDigit c = true := by
  cases a with
  | nil => exact absurd rfl h.ne
  | cons c b => exact ⟨c, b, rfl, List.all_eq_true.mp h.dig c List.mem_cons_self⟩

theorem scanNum_numeral {a r : List Char} {v : Int} (h : Numeral a v) (hr : NoDigit r) : scanNum (a ++ r) = some (v, r) := by
  obtain ⟨c, b, rfl, hc⟩ := numeral_head h
  obtain ⟨h1, h2, h3, -, -⟩ := digit_plain hc
  have e : ((c :: b) ++ r).dropWhile isBlank = (c :: b) ++ r := by
    rw [List.cons_append, List.dropWhile_cons, h1]; rfl
  unfold scanNum
  rw [e]
  split
  · rename_i heq; rw [List.cons_append] at heq; injection heq with e1 _; exact absurd e1 h2
  · rename_i heq; rw [List.cons_append] at heq; injection heq with e1 _; exact absurd e1 h3
  · rw [scanDigits_numeral h hr, Int.one_mul]

theorem scan_num {a r : List Char} {v : Int} (h : Numeral a v) (hr : NoDigit r) {lo hi : Int} (hlo : lo ≤ 0) (hv : v ≤ hi) (ds : List Dir) :
    scan lo hi (.num :: ds) (a ++ r) = (scan lo hi ds r).bind fun vals => .ok (.num v :: vals) := by
  have := h.nonneg
  rw [scan, scanNum_numeral h hr]
  simp only []
  rw [if_neg (by omega)]

theorem scan_num_end {a : List Char} {v : Int} (h : Numeral a v) {lo hi : Int} (hlo : lo ≤ 0) (hv : v ≤ hi) (ds : List Dir) :
    scan lo hi (.num :: ds) a = (scan lo hi ds []).bind fun vals => .ok (.num v :: vals) := by
  have := scan_num h (r := []) (by intro c r e; cases e) hlo hv ds
  rwa [List.append_nil] at this

theorem scan_num_blank {a r : List Char} {v : Int} (h : Numeral a v) (hr : NoDigit r) {lo hi : Int} (hlo : lo ≤ 0) (hv : v ≤ hi) (ds : List Dir) :
    scan lo hi (.space :: .num :: ds) (' ' :: (a ++ r)) = (scan lo hi ds r).bind fun vals => .ok (.num v :: vals) := by
  obtain ⟨c, b, rfl, hc⟩ := numeral_head h
  obtain ⟨h1, -⟩ := digit_plain hc
  have hb : isBlank ' ' = true := by decide
  rw [scan, List.dropWhile_cons, hb, if_pos rfl, List.cons_append, List.dropWhile_cons, h1]
  have := scan_num h hr hlo hv ds
  rw [List.cons_append] at this
  exact this

theorem noDigit_cons {c : Char} {r : List Char} (h : isDigit c = false) : NoDigit (c :: r) := by
  intro d s e; injection e with e1 _; rw [← e1]; exact h

theorem noDigit_nil : NoDigit [] := by intro c r e; cases e

theorem scan_lit {lo hi : Int} {c : Char} {ds : List Dir} {r : List Char} : scan lo hi (.lit c :: ds) (c :: r) = scan lo hi ds r := by
  rw [scan]; simp

theorem scan_lit_ne {lo hi : Int} {c x : Char} {ds : List Dir} {r : List Char} (h : x ≠ c) : scan lo hi (.lit c :: ds) (x :: r) = .ok [] := by
  rw [scan]; simp [h]

theorem scan_lit_nil {lo hi : Int} {c : Char} {ds : List Dir} : scan lo hi (.lit c :: ds) [] = .ok [] := by rw [scan]

theorem scan_num_nil {lo hi : Int} {ds : List Dir} : scan lo hi (.num :: ds) [] = .ok [] := by
  rw [scan]; rfl

theorem scan_chr {lo hi : Int} {x : Char} {ds : List Dir} {r : List Char} :
    scan lo hi (.chr :: ds) (x :: r) = (scan lo hi ds r).bind fun vals => .ok (.chr x :: vals) := by rw [scan]

theorem scan_chr_nil {lo hi : Int} {ds : List Dir} : scan lo hi (.chr :: ds) [] = .ok [] := by rw [scan]

theorem scan_space_nil {lo hi : Int} {ds : List Dir} : scan lo hi (.space :: ds) [] = scan lo hi ds [] := by rw [scan]; rfl

theorem bind_ok {α β : Type} (a : α) (f : α → Res β) : (Res.ok a).bind f = f a := rfl

theorem digit_slash : isDigit '/' = false := by decide
theorem digit_blank : isDigit ' ' = false := by decide
theorem digit_minus : isDigit '-' = false := by decide

/-! ### The clock -/

/-- A clock text is hours, a colon, and the rest of it. -/
theorem clock_scan {s : List Char} {ms : Int} (h : ClockText s ms) : ∃ vh vmi vs : Int, ∃ secs : Option Int, ∃ a r : List Char,
    s = a ++ r ∧ Numeral a vh ∧ vh ≤ 32767 ∧ NoDigit r ∧ 0 ≤ vh ∧ 0 ≤ vmi ∧ 0 ≤ vs ∧ vmi ≤ 32767 ∧ vs ≤ 32767 ∧
    ms = vh * 3600000 + vmi * 60000 + vs * 1000 ∧ vs = secs.getD 0 ∧
    scan (-32768) 32767 [.lit ':', .num, .lit ':', .num] r = .ok (.num vmi :: (secs.map ScanVal.num).toList) := by
  cases h with
  | @minutes h mi vh vmi hh hmi rh rmi =>
    refine ⟨vh, vmi, 0, none, h, ':' :: mi, rfl, hh, rh, noDigit_cons digit_colon, hh.nonneg, hmi.nonneg, by omega, rmi, by omega, by omega, rfl, ?_⟩
    rw [scan_lit, scan_num_end hmi (by decide) rmi, scan_lit_nil]
    rfl
  | @seconds h mi s tail vh vmi vs hh hmi hs rh rmi rs ht =>
    refine ⟨vh, vmi, vs, some vs, h, _, rfl, hh, rh, noDigit_cons digit_colon, hh.nonneg, hmi.nonneg, hs.nonneg, rmi, rs, by omega, rfl, ?_⟩
    rw [scan_lit, scan_num hmi (noDigit_cons digit_colon) (by decide) rmi, scan_lit, scan_num hs ht (by decide) rs, scan]
    rfl

/-! ### Dates, day first -/

theorem scan_dayFirst {sep : Char} (hsep : isDigit sep = false) {d mo y r : List Char} {vd vmo vy ms : Int} (hd : Numeral d vd) (hmo : Numeral mo vmo)
    (hy : Numeral y vy) (rd : vd ≤ 32767) (rmo : vmo ≤ 32767) (ry : vy ≤ 32767) (hr : AfterDate r ms) :
    ∃ vh vmi vs : Int, ∃ t : Option (Int × Int), ∃ s : Option Int, 0 ≤ vh ∧ 0 ≤ vmi ∧ 0 ≤ vs ∧ ms = vh * 3600000 + vmi * 60000 + vs * 1000 ∧ t.getD (0, 0) = (vh, vmi) ∧
      s.getD 0 = vs ∧
      scanDayFirst sep (d ++ sep :: (mo ++ sep :: (y ++ r))) = .ok (some ⟨some (vy, vmo, vd), t, s, none, none, none⟩) := by
  have head : ∀ ds, scan (-32768) 32767 (.num :: .lit sep :: .num :: .lit sep :: .num :: ds) (d ++ sep :: (mo ++ sep :: (y ++ r))) =
      (scan (-32768) 32767 ds r).bind fun vals => .ok (.num vd :: .num vmo :: .num vy :: vals) := by
    intro ds
    have hnr : NoDigit r := by
      cases hr with
      | nothing => exact noDigit_nil
      | clock _ => exact noDigit_cons digit_blank
    rw [scan_num hd (noDigit_cons hsep) (by decide) rd, scan_lit, scan_num hmo (noDigit_cons hsep) (by decide) rmo, scan_lit, scan_num hy hnr (by decide) ry]
    cases scan (-32768) 32767 ds r <;> rfl
  unfold scanDayFirst dayFirstFormat
  rw [head]
  cases hr with
  | nothing =>
    refine ⟨0, 0, 0, none, none, by decide, by decide, by decide, by decide, rfl, rfl, ?_⟩
    rw [scan_space_nil, scan_num_nil]
    rfl
  | @clock s _ hc =>
    obtain ⟨vh, vmi, vs, secs, a, r, rfl, ha, ra, hr, p1, p2, p3, _, _, hms, hvs, hscan⟩ := clock_scan hc
    refine ⟨vh, vmi, vs, some (vh, vmi), secs, p1, p2, p3, hms, rfl, hvs.symm, ?_⟩
    rw [scan_num_blank ha hr (by decide) ra, hscan]
    cases secs <;> rfl

theorem scan_dayFirst_other {sep sep' : Char} (hsep : isDigit sep = false) (hne : sep ≠ sep') {d r : List Char} {vd : Int} (hd : Numeral d vd) (rd : vd ≤ 32767) :
    scanDayFirst sep' (d ++ sep :: r) = .ok none := by
  unfold scanDayFirst dayFirstFormat
  rw [scan_num hd (noDigit_cons hsep) (by decide) rd, scan_lit_ne hne]
  rfl

theorem scan_time_other {sep : Char} (hsep : isDigit sep = false) (hne : sep ≠ ':') {d r : List Char} {vd : Int} (hd : Numeral d vd) (rd : vd ≤ 32767) :
    scanTime (d ++ sep :: r) = .ok none := by
  unfold scanTime
  rw [scan_num hd (noDigit_cons hsep) (by decide) rd, scan_lit_ne hne]
  rfl

/-- A text that begins with a digit and has no zero byte is neither of the two special ones. -/
theorem timeFromString_digit {now local_ kind : Int} {a r : List Char} {v : Int} (h : Numeral a v) (h0 : Char.ofNat 0 ∉ r) :
    timeFromString now local_ kind (a ++ r) = (scanAll (a ++ r)).bind fun x =>
      match x with
      | none => .threw
      | some y => timeOfScan now local_ kind y := by
  have hc : cString (a ++ r) = a ++ r := by
    unfold cString
    have : ∀ c ∈ a ++ r, decide (c ≠ Char.ofNat 0) = true := by
      intro c hc
      rw [decide_eq_true_eq]
      intro e; subst e
      rcases List.mem_append.mp hc with h1 | h1
      · exact h.not_mem (by decide) h1
      · exact h0 h1
    have := List.takeWhile_append_of_pos (l₂ := []) this
    simpa using this
  obtain ⟨c, b, rfl, hd⟩ := numeral_head h
  have hn := (digit_plain hd).2.2.2.2
  unfold timeFromString
  rw [hc, if_neg, if_neg]
  · rfl
  · intro e
    rw [List.cons_append] at e
    have : ("now+".toList.isPrefixOf (c :: (b ++ r))) = ('n' == c && "ow+".toList.isPrefixOf (b ++ r)) := rfl
    rw [this, Bool.and_eq_true] at e
    exact hn (beq_iff_eq.mp e.1).symm
  · intro e
    rw [List.cons_append] at e
    injection e with e1 _
    exact hn e1

theorem yearMeant_full {w y : Int} (h : YearMeant w y) : fullYear w = y := by
  unfold fullYear
  rcases h with ⟨a, b⟩ | ⟨a, b, c⟩ | ⟨a, b⟩
  · rw [if_pos a, b]
  · rw [if_neg (by omega), if_pos a, c]
  · rw [if_neg (by omega), if_neg (by omega), b]

/-- Putting the parts together. -/
theorem timeOfScan_date {f : Int → Spec.Date} (hf : Spec.IsCalendar f) (now local_ kind : Int) {w y mo d n vh vmi vs : Int} {t : Option (Int × Int)} {s : Option Int}
    (hy : YearMeant w y) (ry : w ≤ 32767) (r0 : 0 ≤ w) (hn : f n = ⟨y, mo, d⟩) (ht : t.getD (0, 0) = (vh, vmi)) (hs : s.getD 0 = vs) {c : Option Char} {zh zm : Option Int} {off : Int}
    (hok : signOk ⟨some (w, mo, d), t, s, c, zh, zm⟩ = true)
    (hz : (withZone ⟨some (w, mo, d), t, s, c, zh, zm⟩ ⟨0, vs, vmi, vh, 0, d, mo, 1, y⟩) = ⟨0, vs, vmi - off, vh, 0, d, mo, 1, y⟩)
    :
    timeOfScan now local_ kind ⟨some (w, mo, d), t, s, c, zh, zm⟩ =
      if n * 86400 + vh * 3600 + vmi * 60 + vs - 60 * off = -1 then .threw else .ok (n * 86400000 + vh * 3600000 + vmi * 60000 + vs * 1000 - 60000 * off - 60000 * (if c.isSome then 0 else kind)) := by
  have hyr : toS16 (fullYear w) = y := by
    rw [yearMeant_full hy]
    apply toS16_id <;> (rcases hy with ⟨a, b⟩ | ⟨a, b, c⟩ | ⟨a, b⟩ <;> omega)
  have hv := hf.valid n
  rw [hn] at hv
  obtain ⟨v1, v2, v3, v4⟩ := hv
  simp only [] at v1 v2 v3 v4
  unfold timeOfScan
  rw [hok]
  have hb : withTime ⟨some (w, mo, d), t, s, c, zh, zm⟩ ⟨0, 0, 0, 0, 0, d, mo, 1, y⟩ = ⟨0, vs, vmi, vh, 0, d, mo, 1, y⟩ := by
    unfold withTime
    simp only [hs]
    cases t with
    | none => injection ht with e1 e2; subst e1 e2; rfl
    | some p => obtain ⟨p1, p2⟩ := p; injection ht with e1 e2; subst e1 e2; rfl
  simp only [Option.isNone_some, Bool.false_and, Bool.not_true, Bool.false_eq_true, if_false, dateBdt, bind_ok, hyr]
  rw [hb, hz]
  have hfirst := day_of_month hf hn
  have hval := fromBrokenDown_value hf (if c.isSome then 0 else kind) ⟨0, vs, vmi - off, vh, 0, d, mo, 1, y⟩ v1 (n := n - (d - 1)) (by
    rw [hfirst]
    simp only []
    have : (mo - 1) / 12 = 0 := by omega
    have : (mo - 1) % 12 = mo - 1 := by omega
    congr 1 <;> omega)
  rw [hval]
  simp only []
  have e : (n - (d - 1) + (d - 1)) * 86400 + vh * 3600 + (vmi - off) * 60 + vs = n * 86400 + vh * 3600 + vmi * 60 + vs - 60 * off := by omega
  rw [e]
  split
  · rfl
  · congr 1
    omega

theorem numeral_no_zero {a : List Char} {v : Int} (h : Numeral a v) : Char.ofNat 0 ∉ a := h.not_mem (by decide)

/-- C139.  A date `day.month.year` or `day/month/year`, alone or followed by a blank and a time of day, is read as that time of the kind
asked for (`kind` is the offset of its zone in minutes): the midnight of the day `n` of the calendar with that date, plus the clock. -/
theorem fromString_dayFirst {f : Int → Spec.Date} (hf : Spec.IsCalendar f) (now local_ kind : Int) {sep : Char} (hsep : sep = '.' ∨ sep = '/')
    {d mo y r : List Char} {vd vmo written year n ms : Int} (hd : Numeral d vd) (hmo : Numeral mo vmo) (hy : Numeral y written) (hw : written ≤ 32767)
    (hyear : YearMeant written year) (hn : f n = ⟨year, vmo, vd⟩) (hr : AfterDate r ms) (h0 : Char.ofNat 0 ∉ r) :
    timeFromString now local_ kind (d ++ sep :: (mo ++ sep :: (y ++ r))) =
      if n * 86400000 + ms = -1000 then .threw else .ok (n * 86400000 + ms - 60000 * kind) := by
  have hv := hf.valid n
  rw [hn] at hv
  obtain ⟨v1, v2, v3, v4⟩ := hv
  simp only [] at v1 v2 v3 v4
  have v5 : Spec.monthLength year vmo ≤ 31 := by unfold Spec.monthLength; repeat' split <;> omega
  have hsd : isDigit sep = false := by rcases hsep with rfl | rfl <;> decide
  have hs0 : sep ≠ Char.ofNat 0 := by rcases hsep with rfl | rfl <;> decide
  rw [timeFromString_digit hd (by simp [numeral_no_zero hmo, numeral_no_zero hy, h0, Ne.symm hs0])]
  obtain ⟨vh, vmi, vs, t, s, _, _, _, hms, ht, hs, hscan⟩ := scan_dayFirst hsd hd hmo hy (by omega) (by omega) hw hr
  have hall : scanAll (d ++ sep :: (mo ++ sep :: (y ++ r))) = .ok (some ⟨some (written, vmo, vd), t, s, none, none, none⟩) := by
    unfold scanAll
    rcases hsep with rfl | rfl
    · rw [hscan]; rfl
    · rw [scan_dayFirst_other hsd (by decide) hd (by omega), hscan]; rfl
  rw [hall, bind_ok]
  simp only []
  rw [timeOfScan_date hf now local_ kind hyear hw hy.nonneg hn ht hs (off := 0) rfl (by simp [withZone])]
  by_cases hc : n * 86400000 + ms = -1000
  · rw [if_pos hc, if_pos (by omega)]
  · rw [if_neg hc, if_neg (by omega)]
    congr 1
    simp only [Option.isSome_none, Bool.false_eq_true, if_false]
    omega

/-- C139.  An ISO 8601 text with a date, `T`, a time of day in whole seconds and an optional zone. -/
theorem fromString_iso {f : Int → Spec.Date} (hf : Spec.IsCalendar f) (now local_ kind : Int) {y mo d h mi s z : List Char}
    {written year vmo vd vh vmi vs n : Int} {zone : Option Int} (hy : Numeral y written) (hmo : Numeral mo vmo) (hd : Numeral d vd) (hh : Numeral h vh) (hmi : Numeral mi vmi)
    (hs : Numeral s vs) (hz : Suffix z zone) (hw : written ≤ 32767) (rh : vh < 24) (rmi : vmi < 60) (rs : vs ≤ 60)
    (hyear : YearMeant written year) (hn : f n = ⟨year, vmo, vd⟩) :
    timeFromString now local_ kind (y ++ '-' :: (mo ++ '-' :: (d ++ 'T' :: (h ++ ':' :: (mi ++ ':' :: (s ++ z)))))) =
      if n * 86400 + vh * 3600 + vmi * 60 + vs - 60 * zone.getD 0 = -1 then .threw
      else .ok (n * 86400000 + vh * 3600000 + vmi * 60000 + vs * 1000 - 60000 * zone.getD kind) := by
  have hv := hf.valid n
  rw [hn] at hv
  obtain ⟨v1, v2, v3, v4⟩ := hv
  simp only [] at v1 v2 v3 v4
  have v5 : Spec.monthLength year vmo ≤ 31 := by unfold Spec.monthLength; repeat' split <;> omega
  have hz0 : Char.ofNat 0 ∉ z := by
    cases hz with
    | none => simp
    | utc => decide
    | east a b _ _ => simp [numeral_no_zero a, numeral_no_zero b]
    | west a b _ _ => simp [numeral_no_zero a, numeral_no_zero b]
    | eastHours a _ => simp [numeral_no_zero a]
    | westHours a _ => simp [numeral_no_zero a]
  have hzd : NoDigit z := by
    cases hz with
    | none => exact noDigit_nil
    | utc => exact noDigit_cons digit_Z
    | east a b _ _ => exact noDigit_cons digit_plus
    | west a b _ _ => exact noDigit_cons digit_dash
    | eastHours a _ => exact noDigit_cons digit_plus
    | westHours a _ => exact noDigit_cons digit_dash
  rw [timeFromString_digit hy (by simp [numeral_no_zero hmo, numeral_no_zero hd, numeral_no_zero hh, numeral_no_zero hmi, numeral_no_zero hs, hz0])]
  have hhead : ∀ ds, scan (-32768) 32767 (.num :: .lit '-' :: .num :: .lit '-' :: .num :: .lit 'T' :: .num :: .lit ':' :: .num :: .lit ':' :: .num :: ds)
      (y ++ '-' :: (mo ++ '-' :: (d ++ 'T' :: (h ++ ':' :: (mi ++ ':' :: (s ++ z)))))) = (scan (-32768) 32767 ds z).bind fun vals =>
        .ok (.num written :: .num vmo :: .num vd :: .num vh :: .num vmi :: .num vs :: vals) := by
    intro ds
    rw [scan_num hy (noDigit_cons digit_dash) (by decide) hw, scan_lit, scan_num hmo (noDigit_cons digit_dash) (by decide) (by omega), scan_lit,
      scan_num hd (noDigit_cons digit_T) (by decide) (by omega), scan_lit, scan_num hh (noDigit_cons digit_colon) (by decide) (by omega), scan_lit,
      scan_num hmi (noDigit_cons digit_colon) (by decide) (by omega), scan_lit, scan_num hs hzd (by decide) (by omega)]
    cases scan (-32768) 32767 ds z <;> rfl
  have hall : ∀ x, scanIso (y ++ '-' :: (mo ++ '-' :: (d ++ 'T' :: (h ++ ':' :: (mi ++ ':' :: (s ++ z)))))) = .ok (some x) →
      scanAll (y ++ '-' :: (mo ++ '-' :: (d ++ 'T' :: (h ++ ':' :: (mi ++ ':' :: (s ++ z)))))) = .ok (some x) := by
    intro x hx
    unfold scanAll
    rw [scan_dayFirst_other digit_dash (by decide) hy hw, scan_dayFirst_other digit_dash (by decide) hy hw, scan_time_other digit_dash (by decide) hy hw, hx]
    rfl
  have hmi0 := hmi.nonneg
  have fin : ∀ (c : Option Char) (zh zm : Option Int) (off : Int), zone.getD 0 = off → (zone = none ↔ c = none) →
      scanIso (y ++ '-' :: (mo ++ '-' :: (d ++ 'T' :: (h ++ ':' :: (mi ++ ':' :: (s ++ z)))))) =
        .ok (some ⟨some (written, vmo, vd), some (vh, vmi), some vs, c, zh, zm⟩) →
      signOk ⟨some (written, vmo, vd), some (vh, vmi), some vs, c, zh, zm⟩ = true →
      withZone ⟨some (written, vmo, vd), some (vh, vmi), some vs, c, zh, zm⟩ ⟨0, vs, vmi, vh, 0, vd, vmo, 1, year⟩ = ⟨0, vs, vmi - off, vh, 0, vd, vmo, 1, year⟩ →
      ((scanAll (y ++ '-' :: (mo ++ '-' :: (d ++ 'T' :: (h ++ ':' :: (mi ++ ':' :: (s ++ z))))))).bind fun x =>
        match x with
        | none => .threw
        | some y => timeOfScan now local_ kind y) =
      if n * 86400 + vh * 3600 + vmi * 60 + vs - 60 * zone.getD 0 = -1 then .threw
      else .ok (n * 86400000 + vh * 3600000 + vmi * 60000 + vs * 1000 - 60000 * zone.getD kind) := by
    intro c zh zm off hoff hcn hx hok hwz
    rw [hall _ hx, bind_ok]
    simp only []
    rw [timeOfScan_date hf now local_ kind hyear hw hy.nonneg hn (t := some (vh, vmi)) (s := some vs) (vs := vs) rfl rfl hok hwz, hoff]
    split
    · rfl
    · congr 1
      cases c with
      | none =>
        have hzn := hcn.mpr rfl
        rw [hzn] at hoff ⊢
        simp only [Option.getD_none] at hoff ⊢
        simp only [Option.isSome_none, Bool.false_eq_true, if_false]
        omega
      | some c =>
        cases zone with
        | none => exact absurd (hcn.mp rfl) (by simp)
        | some v =>
          simp only [Option.getD_some] at hoff ⊢
          simp only [Option.isSome_some, if_true]
          omega
  have hiso : ∀ vals, scan (-32768) 32767 [.chr, .num, .lit ':', .num] z = .ok vals →
      scanIso (y ++ '-' :: (mo ++ '-' :: (d ++ 'T' :: (h ++ ':' :: (mi ++ ':' :: (s ++ z)))))) =
        .ok (some ⟨some (written, vmo, vd), some (vh, vmi), some vs, given vals 1 (chrAt vals 0), given vals 2 (numAt vals 1), given vals 3 (numAt vals 2)⟩) := by
    intro vals hvals
    unfold scanIso isoFormat
    rw [hhead, hvals, bind_ok, bind_ok]
    have e : ∀ (k : Nat) {α : Type} (x : α), given (ScanVal.num written :: .num vmo :: .num vd :: .num vh :: .num vmi :: .num vs :: vals) (k + 6) x = given vals k x := by
      intro k α x
      simp [given]
    have e0 : ∀ (k : Nat), k ≤ 6 → ∀ {α : Type} (x : α), given (ScanVal.num written :: .num vmo :: .num vd :: .num vh :: .num vmi :: .num vs :: vals) k x = some x := by
      intro k hk α x
      unfold given
      rw [if_pos (by simp only [List.length_cons]; omega)]
    rw [e 1, e 2, e 3, e0 3 (by omega), e0 5 (by omega), e0 6 (by omega)]
    rfl
  cases hz with
  | none => exact fin none none none 0 rfl (by simp) (hiso [] (by rw [scan_chr_nil])) rfl (by simp [withZone])
  | utc => exact fin (some 'Z') none none 0 rfl (by simp) (hiso [.chr 'Z'] (by rw [scan_chr, scan_num_nil]; rfl)) rfl (by simp [withZone])
  | @east a b zh zm ha hb hh' hm' =>
    have h1 := ha.nonneg
    have h2 := hb.nonneg
    refine fin (some '+') (some zh) (some zm) _ rfl (by simp) (hiso [.chr '+', .num zh, .num zm] ?_) rfl ?_
    · rw [scan_chr, scan_num ha (noDigit_cons digit_colon) (by decide) (by omega), scan_lit, scan_num_end hb (by decide) (by omega), scan]; rfl
    · simp only [withZone, Option.some.injEq, reduceCtorEq, if_false, Option.getD_some]
      rw [if_neg (by decide), if_pos trivial, toS16_id (x := zh * 60 + zm) (by omega) (by omega), toS16_id (by omega) (by omega)]
  | @west a b zh zm ha hb hh' hm' =>
    have h1 := ha.nonneg
    have h2 := hb.nonneg
    refine fin (some '-') (some zh) (some zm) _ rfl (by simp) (hiso [.chr '-', .num zh, .num zm] ?_) rfl ?_
    · rw [scan_chr, scan_num ha (noDigit_cons digit_colon) (by decide) (by omega), scan_lit, scan_num_end hb (by decide) (by omega), scan]; rfl
    · simp only [withZone, if_true, Option.getD_some]
      rw [toS16_id (x := zh * 60 + zm) (by omega) (by omega), toS16_id (by omega) (by omega)]
      congr 1
      omega
  | @eastHours a zh ha hh' =>
    have h1 := ha.nonneg
    refine fin (some '+') (some zh) none _ rfl (by simp) (hiso [.chr '+', .num zh] ?_) rfl ?_
    · rw [scan_chr, scan_num_end ha (by decide) (by omega), scan_lit_nil]; rfl
    · simp only [withZone, Option.some.injEq, reduceCtorEq, if_false, Option.getD_some, Option.getD_none]
      rw [if_neg (by decide), if_pos trivial, toS16_id (x := zh * 60 + 0) (by omega) (by omega), toS16_id (by omega) (by omega)]
      congr 1
      omega
  | @westHours a zh ha hh' =>
    have h1 := ha.nonneg
    refine fin (some '-') (some zh) none _ rfl (by simp) (hiso [.chr '-', .num zh] ?_) rfl ?_
    · rw [scan_chr, scan_num_end ha (by decide) (by omega), scan_lit_nil]; rfl
    · simp only [withZone, if_true, Option.getD_some, Option.getD_none]
      rw [toS16_id (x := zh * 60 + 0) (by omega) (by omega), toS16_id (by omega) (by omega)]
      congr 1
      omega

/-- 29 February 2024, a quarter past midday in India. -/
example : timeFromString 0 180 180 "2024-02-29T12:15:00+05:30".toList = .ok 1709189100000 ∧ Suffix "+05:30".toList (some 330) :=
  ⟨by decide +kernel, .east (a := "05".toList) (b := "30".toList) (h := 5) (m := 30) ⟨by decide, by decide, by decide⟩ ⟨by decide, by decide, by decide⟩ (by decide) (by decide)⟩
example : timeFromString 0 180 180 "29.2.24 12:34".toList = .ok 1709199240000 ∧ AfterDate " 12:34".toList (12 * 3600000 + 34 * 60000) ∧ YearMeant 24 2024 :=
  ⟨by decide +kernel, .clock (.minutes (h := "12".toList) (mi := "34".toList) ⟨by decide, by decide, by decide⟩ ⟨by decide, by decide, by decide⟩ (by decide) (by decide)),
    .inr (.inr (by decide))⟩

/-- C139.  A date `year-month-day`, alone or with `T`, hours and minutes, is a time of the kind asked for. -/
theorem fromString_isoShort {f : Int → Spec.Date} (hf : Spec.IsCalendar f) (now local_ kind : Int) {y mo d r : List Char}
    {written year vmo vd n ms : Int} (hy : Numeral y written) (hmo : Numeral mo vmo) (hd : Numeral d vd) (hw : written ≤ 32767)
    (hyear : YearMeant written year) (hn : f n = ⟨year, vmo, vd⟩)
    (hr : (r = [] ∧ ms = 0) ∨ ∃ h mi vh vmi, Numeral h vh ∧ Numeral mi vmi ∧ vh ≤ 32767 ∧ vmi ≤ 32767 ∧ r = 'T' :: (h ++ ':' :: mi) ∧ ms = vh * 3600000 + vmi * 60000) :
    timeFromString now local_ kind (y ++ '-' :: (mo ++ '-' :: (d ++ r))) =
      if n * 86400000 + ms = -1000 then .threw else .ok (n * 86400000 + ms - 60000 * kind) := by
  have hv := hf.valid n
  rw [hn] at hv
  obtain ⟨v1, v2, v3, v4⟩ := hv
  simp only [] at v1 v2 v3 v4
  have v5 : Spec.monthLength year vmo ≤ 31 := by unfold Spec.monthLength; repeat' split <;> omega
  have hr0 : Char.ofNat 0 ∉ r := by
    rcases hr with ⟨rfl, _⟩ | ⟨h, mi, vh, vmi, a, b, _, _, rfl, _⟩
    · simp
    · simp [numeral_no_zero a, numeral_no_zero b]
  have hrd : NoDigit r := by
    rcases hr with ⟨rfl, _⟩ | ⟨h, mi, vh, vmi, a, b, _, _, rfl, _⟩
    · exact noDigit_nil
    · exact noDigit_cons digit_T
  rw [timeFromString_digit hy (by simp [numeral_no_zero hmo, numeral_no_zero hd, hr0])]
  have hhead : ∀ ds, scan (-32768) 32767 (.num :: .lit '-' :: .num :: .lit '-' :: .num :: ds) (y ++ '-' :: (mo ++ '-' :: (d ++ r))) =
      (scan (-32768) 32767 ds r).bind fun vals => .ok (.num written :: .num vmo :: .num vd :: vals) := by
    intro ds
    rw [scan_num hy (noDigit_cons digit_dash) (by decide) hw, scan_lit, scan_num hmo (noDigit_cons digit_dash) (by decide) (by omega), scan_lit,
      scan_num hd hrd (by decide) (by omega)]
    cases scan (-32768) 32767 ds r <;> rfl
  have hall : ∀ x, scanIso (y ++ '-' :: (mo ++ '-' :: (d ++ r))) = .ok (some x) → scanAll (y ++ '-' :: (mo ++ '-' :: (d ++ r))) = .ok (some x) := by
    intro x hx
    unfold scanAll
    rw [scan_dayFirst_other digit_dash (by decide) hy hw, scan_dayFirst_other digit_dash (by decide) hy hw, scan_time_other digit_dash (by decide) hy hw, hx]
    rfl
  have fin : ∀ (t : Option (Int × Int)) (vh vmi : Int), t.getD (0, 0) = (vh, vmi) → ms = vh * 3600000 + vmi * 60000 →
      scanIso (y ++ '-' :: (mo ++ '-' :: (d ++ r))) = .ok (some ⟨some (written, vmo, vd), t, none, none, none, none⟩) →
      ((scanAll (y ++ '-' :: (mo ++ '-' :: (d ++ r)))).bind fun x =>
        match x with
        | none => .threw
        | some y => timeOfScan now local_ kind y) =
      if n * 86400000 + ms = -1000 then .threw else .ok (n * 86400000 + ms - 60000 * kind) := by
    intro t vh vmi ht hms hx
    rw [hall _ hx, bind_ok]
    simp only []
    rw [timeOfScan_date hf now local_ kind hyear hw hy.nonneg hn (vs := 0) ht rfl (off := 0) rfl (by simp [withZone])]
    by_cases hc : n * 86400000 + ms = -1000
    · rw [if_pos hc, if_pos (by omega)]
    · rw [if_neg hc, if_neg (by omega)]
      congr 1
      simp only [Option.isSome_none, Bool.false_eq_true, if_false]
      omega
  rcases hr with ⟨rfl, rfl⟩ | ⟨h, mi, vh, vmi, a, b, ra, rb, rfl, hms⟩
  · refine fin none 0 0 rfl (by omega) ?_
    unfold scanIso isoFormat
    rw [hhead, scan_lit_nil]
    rfl
  · refine fin (some (vh, vmi)) vh vmi rfl hms ?_
    unfold scanIso isoFormat
    rw [hhead, scan_lit, scan_num a (noDigit_cons digit_colon) (by decide) ra, scan_lit, scan_num_end b (by decide) rb, scan_lit_nil]
    rfl

example : timeFromString 0 180 180 "2024-02-29T12:34".toList = .ok 1709199240000 := by decide +kernel

/-- C139.  A time of day alone is taken on the day of the local clock now, as a time of the kind asked for. -/
theorem fromString_clock {now local_ : Int} (kind : Int) (h0 : 0 ≤ now + 60000 * local_) (h1 : now + 60000 * local_ < 971890963200000) {s : List Char} {ms : Int}
    (hs : ClockText s ms) (hz : Char.ofNat 0 ∉ s) :
    timeFromString now local_ kind s = .ok ((now + 60000 * local_) / 86400000 * 86400000 + ms - 60000 * kind) := by
  obtain ⟨f, hf⟩ := calendar_exists
  obtain ⟨b, hb, hdate, -, -, -, -, -, -, -, -, -, -, -⟩ := breakDown_fields_partial hf (offset := local_) (t := now) (.inl h0) (by omega) h1
  obtain ⟨vh, vmi, vs, secs, a, r, rfl, ha, ra, hr, p1, p2, p3, _, _, hms, hvs, hscan⟩ := clock_scan hs
  have hv := hf.valid ((now + 60000 * local_) / 86400000)
  rw [← hdate] at hv
  obtain ⟨v1, v2, v3, v4⟩ := hv
  simp only [] at v1 v2 v3 v4
  have hrc : ∃ r', r = ':' :: r' := by
    cases r with
    | nil => rw [scan] at hscan; cases hscan
    | cons x r =>
      by_cases hx : x = ':'
      · exact ⟨r, by rw [hx]⟩
      · rw [scan_lit_ne hx] at hscan; cases hscan
  obtain ⟨r', rfl⟩ := hrc
  rw [timeFromString_digit ha (by intro h; exact hz (List.mem_append_right _ h))]
  have hscan' : scanTime (a ++ ':' :: r') = .ok (some ⟨none, some (vh, vmi), secs, none, none, none⟩) := by
    unfold scanTime
    rw [scan_num ha hr (by decide) ra, hscan]
    cases secs <;> rfl
  have hall : scanAll (a ++ ':' :: r') = .ok (some ⟨none, some (vh, vmi), secs, none, none, none⟩) := by
    unfold scanAll
    rw [scan_dayFirst_other digit_colon (by decide) ha ra, scan_dayFirst_other digit_colon (by decide) ha ra, hscan']
    rfl
  rw [hall, bind_ok]
  simp only [timeOfScan, hb, dateBdt, bind_ok]
  have e : withZone ⟨none, some (vh, vmi), secs, none, none, none⟩ (withTime ⟨none, some (vh, vmi), secs, none, none, none⟩ { b with sec := 0, ms := 0 }) =
      ⟨0, vs, vmi, vh, b.wday, b.mday, b.month, b.yday, b.year⟩ := by
    rw [hvs]
    cases secs <;> rfl
  have e2 : signOk ⟨none, some (vh, vmi), secs, none, none, none⟩ = true := rfl
  rw [e, e2]
  simp only [Option.isNone_none, Option.isNone_some, Bool.and_false, Bool.false_eq_true, if_false, Bool.not_true, Option.isSome_none]
  have hfirst := day_of_month hf hdate.symm
  have hval := fromBrokenDown_value hf kind ⟨0, vs, vmi, vh, b.wday, b.mday, b.month, b.yday, b.year⟩ v1 (n := (now + 60000 * local_) / 86400000 - (b.mday - 1)) (by
    rw [hfirst]
    simp only []
    have : (b.month - 1) / 12 = 0 := by omega
    have : (b.month - 1) % 12 = b.month - 1 := by omega
    congr 1 <;> omega)
  rw [hval]
  simp only []
  rw [if_neg (by omega)]
  congr 1
  omega

example : timeFromString 1709199296789 180 180 "7:05".toList = .ok 1709179500000 := by decide +kernel

/-- C139.  The text written by default for a time of the year 101 or later, in any zone, is read back as the same time, but for the
milliseconds. -/
theorem fromString_roundtrip_partial (now local_ : Int) {kind t : Int} (h0 : -58979923200000 ≤ t + 60000 * kind) (h1 : t + 60000 * kind < 971890963200000)
    (h2 : 0 ≤ t + 60000 * kind ∨ (t + 60000 * kind) % 1000 = 0) (h3 : t + 60000 * kind ≠ -1000) :
    ∃ b, breakDown kind t = .ok b ∧ timeFromString now local_ kind (bdtDefaultText b) = .ok (t / 1000 * 1000) := by
  obtain ⟨f, hf⟩ := calendar_exists
  obtain ⟨b, hb, hdate, ms0, ms1, s0, s1, mi0, mi1, h0', h1', htime, _, _⟩ := breakDown_fields_partial hf (offset := kind) (t := t) h2 (by omega) h1
  refine ⟨b, hb, ?_⟩
  have hr : -32768 ≤ b.year ∧ b.year ≤ 32767 := by
    unfold breakDown brokenDownFromMilliseconds at hb
    split at hb
    · cases hb
    · cases hb
      simp only [mkBdt, toS16]
      omega
  have hv := hf.valid ((t + 60000 * kind) / 86400000)
  rw [← hdate] at hv
  obtain ⟨v1, v2, v3, v4⟩ := hv
  simp only [] at v1 v2 v3 v4
  have v5 : Spec.monthLength b.year b.month ≤ 31 := by unfold Spec.monthLength; repeat' split <;> omega
  have hy101 : f (-682638) = ⟨101, 1, 1⟩ := by
    rw [hf.unique civil_isCalendar]
    decide +kernel
  have hy0 : 100 < b.year := by
    rcases Int.lt_or_le (-682638) ((t + 60000 * kind) / 86400000) with h | h
    · have := calendar_increasing hf h
      rw [hy101, ← hdate] at this
      simp only [Spec.Date.Before] at this
      omega
    · have e : (t + 60000 * kind) / 86400000 = -682638 := by omega
      rw [e, hy101] at hdate
      injection hdate with e1
      omega
  have ny := numeral_field (v := b.year) (by omega) hr.2 4
  have nmo := numeral_field (v := b.month) (by omega) (by omega) 2
  have nd := numeral_field (v := b.mday) (by omega) (by omega) 2
  have nh := numeral_field (v := b.hour) (by omega) (by omega) 2
  have nmi := numeral_field (v := b.min) (by omega) (by omega) 2
  have ns := numeral_field (v := b.sec) (by omega) (by omega) 2
  have nms := numeral_field (v := b.ms) (by omega) (by omega) 3
  have hc := ClockText.seconds nh nmi ns (by omega) (by omega) (by omega) (noDigit_cons (r := padZero 3 (digits s16 b.ms)) digit_dot)
  have := fromString_dayFirst hf now local_ kind (.inr rfl) nd nmo ny (by omega) (.inl ⟨hy0, rfl⟩) hdate.symm (.clock hc)
    (by simp [numeral_no_zero nh, numeral_no_zero nmi, numeral_no_zero ns, numeral_no_zero nms])
  unfold bdtDefaultText
  rw [this]
  rw [if_neg (by omega)]
  congr 1
  omega

example : (-58979923200000 : Int) ≤ 1709199296789 + 60000 * 180 ∧ timeFromString 0 180 180 (bdtDefaultText ⟨789, 56, 34, 12, 4, 29, 2, 59, 2024⟩) = .ok 1709199296000 := by decide +kernel

/-- C139.  "now" is the current time and "now+" adds the duration read from the rest of the text. -/
theorem fromString_now (now local_ kind : Int) : timeFromString now local_ kind "now".toList = .ok now ∧
    ∀ s d, durFromString s = .ok d → timeFromString now local_ kind ("now+".toList ++ s) = .ok (now + d.tdiv 1000) := by
  refine ⟨rfl, ?_⟩
  intro s d hd
  unfold timeFromString
  have e : "now+".toList ++ s = 'n' :: 'o' :: 'w' :: '+' :: s := rfl
  rw [e, if_neg (by intro h; have h2 := congrArg (·[3]?) h; exact absurd h2 (by simp)), if_pos (by rfl)]
  have e2 : ('n' :: 'o' :: 'w' :: '+' :: s).drop 4 = s := rfl
  rw [e2, hd]
  rfl

/-- The number of microseconds of a unit. -/
def unitMicroseconds (c : Char) : Option Int :=
  if c ∈ ['H', 'h'] then some 3600000000 else if c ∈ ['M', 'm'] then some 60000000 else if c ∈ ['S', 's'] then some 1000000 else none

/-- C139.  A duration is a number of milliseconds, or a number followed by the letter of a unit and anything else; other letters are
refused.  A sign may come first.  In microseconds. -/
theorem durFromString_value {sign a : List Char} {v sg : Int} (hs : (sign = [] ∧ sg = 1) ∨ (sign = ['+'] ∧ sg = 1) ∨ (sign = ['-'] ∧ sg = -1)) (h : Numeral a v) (hv : v ≤ 2147483647) :
    durFromString (sign ++ a) = .ok (sg * v * 1000) ∧
    ∀ c tail, isDigit c = false → c ≠ Char.ofNat 0 → durFromString (sign ++ a ++ c :: tail) =
      match unitMicroseconds c with
      | some k => .ok (sg * v * k)
      | none => .threw := by
  have h0 := h.nonneg
  have hsc : ∀ r, NoDigit r → scanNum (sign ++ (a ++ r)) = some (sg * v, r) := by
    intro r hr
    rcases hs with ⟨rfl, rfl⟩ | ⟨rfl, rfl⟩ | ⟨rfl, rfl⟩
    · rw [List.nil_append, scanNum_numeral h hr, Int.one_mul]
    · exact scanDigits_numeral h hr 1
    · exact scanDigits_numeral h hr (-1)
  have hs0 : ∀ c ∈ sign ++ a, decide (c ≠ Char.ofNat 0) = true := by
    intro c hc
    rw [decide_eq_true_eq]
    intro e; subst e
    rcases List.mem_append.mp hc with h1 | h1
    · rcases hs with ⟨rfl, _⟩ | ⟨rfl, _⟩ | ⟨rfl, _⟩
      · cases h1
      · exact absurd h1 (by decide)
      · exact absurd h1 (by decide)
    · exact numeral_no_zero h h1
  have hrange : ¬ (sg * v < -2147483648 ∨ 2147483647 < sg * v) := by
    rcases hs with ⟨_, rfl⟩ | ⟨_, rfl⟩ | ⟨_, rfl⟩ <;> omega
  constructor
  · have hc : cString (sign ++ a) = sign ++ (a ++ []) := by
      unfold cString
      have := List.takeWhile_append_of_pos (l₂ := []) hs0
      simpa using this
    unfold durFromString
    rw [hc, scan, hsc [] noDigit_nil]
    simp only []
    rw [if_neg hrange, scan_chr_nil]
    rfl
  · intro c tail hd hne
    have hc : cString (sign ++ a ++ c :: tail) = sign ++ (a ++ c :: cString tail) := by
      unfold cString
      rw [List.takeWhile_append_of_pos hs0, List.takeWhile_cons, if_pos (by simp [hne]), List.append_assoc]
    unfold durFromString
    rw [hc, scan, hsc _ (noDigit_cons hd)]
    simp only []
    rw [if_neg hrange, scan_chr, scan]
    show durOfUnit (sg * v) c = _
    unfold durOfUnit unitMicroseconds
    simp only [List.mem_cons, List.not_mem_nil, or_false]
    by_cases c1 : c = 'H' ∨ c = 'h'
    · rw [if_pos c1, if_pos c1]
    · rw [if_neg c1, if_neg c1]
      by_cases c2 : c = 'M' ∨ c = 'm'
      · rw [if_pos c2, if_pos c2]
      · rw [if_neg c2, if_neg c2]
        by_cases c3 : c = 'S' ∨ c = 's'
        · rw [if_pos c3, if_pos c3]
        · rw [if_neg c3, if_neg c3]

example : durFromString "-90m".toList = .ok (-5400000000) ∧ durFromString "250".toList = .ok 250000 := by decide +kernel

/-- The text begins with a number: blanks, a sign or none, a digit. -/
def StartsNumber (s : List Char) : Prop :=
  ∃ blanks sign c r, s = blanks ++ sign ++ c :: r ∧ (∀ x ∈ blanks, x = ' ' ∨ (9 ≤ x.toNat ∧ x.toNat ≤ 13)) ∧ (sign = [] ∨ sign = ['+'] ∨ sign = ['-']) ∧ isDigit c = true

theorem scanDigits_starts {sg : Int} {s : List Char} (h : scanDigits sg s ≠ none) : ∃ c r, s = c :: r ∧ isDigit c = true := by
  unfold scanDigits at h
  cases s with
  | nil => exact absurd rfl h
  | cons c r =>
    refine ⟨c, r, rfl, ?_⟩
    cases hc : isDigit c with
    | true => rfl
    | false => rw [if_pos (by simp [hc])] at h; exact absurd rfl h

theorem scanNum_starts {s : List Char} (h : scanNum s ≠ none) : StartsNumber s := by
  have hsplit := List.takeWhile_append_dropWhile (p := isBlank) (l := s)
  have hbl : ∀ x ∈ s.takeWhile isBlank, x = ' ' ∨ (9 ≤ x.toNat ∧ x.toNat ≤ 13) := by
    intro x hx
    have := List.all_eq_true.mp (List.all_takeWhile (p := isBlank) (l := s)) x hx
    simpa [isBlank] using this
  unfold scanNum at h
  split at h
  · rename_i r hr
    obtain ⟨c, r', rfl, hc⟩ := scanDigits_starts h
    rw [hr] at hsplit
    exact ⟨_, ['-'], c, r', by rw [List.append_assoc]; exact hsplit.symm, hbl, .inr (.inr rfl), hc⟩
  · rename_i r hr
    obtain ⟨c, r', rfl, hc⟩ := scanDigits_starts h
    rw [hr] at hsplit
    exact ⟨_, ['+'], c, r', by rw [List.append_assoc]; exact hsplit.symm, hbl, .inr (.inl rfl), hc⟩
  · obtain ⟨c, r', e, hc⟩ := scanDigits_starts h
    rw [e] at hsplit
    exact ⟨_, [], c, r', by rw [List.append_nil]; exact hsplit.symm, hbl, .inl rfl, hc⟩

theorem scanNum_none {s : List Char} (h : ¬ StartsNumber s) : scanNum (cString s) = none := by
  apply Classical.byContradiction
  intro hn
  obtain ⟨bl, sg, c, r, e, h1, h2, h3⟩ := scanNum_starts hn
  refine h ⟨bl, sg, c, r ++ s.dropWhile (· ≠ Char.ofNat 0), ?_, h1, h2, h3⟩
  have := List.takeWhile_append_dropWhile (p := (· ≠ Char.ofNat 0)) (l := s)
  unfold cString at e
  rw [e] at this
  simpa [List.append_assoc] using this.symm

/-- C139.  A text that neither is "now", nor begins with "now+", nor begins with a number is refused. -/
theorem fromString_refuses (now local_ kind : Int) {s : List Char} (h1 : s ≠ "now".toList) (h2 : ¬ "now+".toList <+: s) (h3 : ¬ StartsNumber s) :
    timeFromString now local_ kind s = .threw ∧ durFromString s = .threw := by
  have hn := scanNum_none h3
  have hscan : ∀ lo hi ds, scan lo hi (.num :: ds) (cString s) = .ok [] := by
    intro lo hi ds
    rw [scan, hn]
  constructor
  · unfold timeFromString
    rw [if_neg h1, if_neg (by rw [List.isPrefixOf_iff_prefix]; exact h2)]
    have : scanAll (cString s) = .ok none := by
      unfold scanAll scanDayFirst scanTime scanIso dayFirstFormat isoFormat
      rw [hscan, hscan, hscan, hscan]
      rfl
    rw [this]
    rfl
  · unfold durFromString
    rw [hscan]
    rfl

example : timeFromString 0 0 0 "tomorrow".toList = .threw := by decide +kernel

/-! ### What goes wrong -/

/-- C139 is violated: hours without minutes are dropped, and so is a zone after a time without seconds — the text is then local time. -/
theorem fromString_dropped_violated : timeFromString 0 180 180 "29.2.2024 12".toList = timeFromString 0 180 180 "29.2.2024".toList ∧
    timeFromString 0 180 180 "2024-02-29T12:34Z".toList = timeFromString 0 180 180 "2024-02-29T12:34".toList ∧
    timeFromString 0 180 180 "2024-02-29T12:34Z".toList ≠ timeFromString 0 180 180 "2024-02-29T12:34:00Z".toList := by decide +kernel

/-- C139 is violated: an offset without a colon is read as that many hours, here 300. -/
theorem fromString_offset_violated : timeFromString 0 180 180 "2024-02-29T12:34:56+0300".toList = .ok (1709210096000 - 300 * 3600000) ∧
    timeFromString 0 180 180 "2024-02-29T12:34:56+03:00".toList = .ok (1709210096000 - 3 * 3600000) := by decide +kernel

/-- C139 is violated: the text `ToIso8601` writes is refused, because of the fraction. -/
theorem fromString_fraction_violated : timeFromString 0 180 180 "2024-02-29T12:34:56.789Z".toList = .threw ∧ fromIso8601 "2024-02-29T12:34:56.789Z".toList = .ok 1709210096789 := by
  decide +kernel

/-- C139 is violated: the fields are not checked, and a time of day alone in UTC is put on the day of the local clock. -/
theorem fromString_unchecked_violated : timeFromString 0 0 0 "30.2.2023 25:61:61".toList = timeFromString 0 0 0 "3.3.2023 2:2:1".toList ∧
    timeFromString 82800000 180 0 "12:00".toList = .ok (86400000 + 43200000) := by decide +kernel

/-- C139 is violated: years below 101 do not come back. -/
theorem fromString_year_violated : breakDown 0 (-60589296000000) = .ok ⟨0, 0, 0, 0, 6, 1, 1, 0, 50⟩ ∧
    timeFromString 0 0 0 (bdtDefaultText ⟨0, 0, 0, 0, 6, 1, 1, 0, 50⟩) = .ok (-631152000000) := by decide +kernel

end Verif.Time
