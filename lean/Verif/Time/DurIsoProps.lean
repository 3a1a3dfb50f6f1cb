import Verif.Time.IsoProps
import Verif.Time.ConvertProps

/-! C93: durations in ISO 8601. -/

namespace Verif.Time

open Verif.Str

/-! ### Specification -/

/-- A number and its letter, if the number is there. -/
def unitPart (o : Option (List Char)) (c : Char) : List Char :=
  match o with
  | none => []
  | some s => s ++ [c]

/-- The number that is there, within the range of a component. -/
inductive PartValue : Option (List Char) → Option Int → Prop
  | none : PartValue none none
  | some {s : List Char} {v : Int} : Numeral s v → v ≤ 32767 → PartValue (some s) (some v)

/-- Three numbers with their letters. -/
def unitParts (a b c : Option (List Char)) (c1 c2 c3 : Char) : List Char := unitPart a c1 ++ (unitPart b c2 ++ unitPart c c3)

/-- A duration in ISO 8601. -/
def isoDurationText (y mo d h mi s : Option (List Char)) : List Char :=
  'P' :: (unitParts y mo d 'Y' 'M' 'D' ++ (if h = none ∧ mi = none ∧ s = none then [] else 'T' :: unitParts h mi s 'H' 'M' 'S'))

/-! ### Reading -/

theorem format_unit {c : Char} (hc : c ≠ '%') : "%1%".toList ++ [c] = formatText [] [⟨some 0, [c]⟩] ∧ GoodItems 1 [⟨some 0, [c]⟩] := by
  refine ⟨rfl, goodItems_of ?_ (by simp) (by simp)⟩
  intro i hi
  rw [List.mem_singleton] at hi
  subst hi
  simp
  exact fun h => hc h.symm

theorem format_unit_rest {c : Char} (hc : c ≠ '%') : "%1%".toList ++ c :: "%2%".toList = formatText [] [⟨some 0, [c]⟩, ⟨some 1, []⟩] ∧
    GoodItems 2 [⟨some 0, [c]⟩, ⟨some 1, []⟩] := by
  refine ⟨rfl, goodItems_of ?_ (by simp) (by simp)⟩
  intro i hi
  rw [List.mem_cons, List.mem_singleton] at hi
  rcases hi with rfl | rfl
  · simp
    exact fun h => hc h.symm
  · simp

theorem parseUnit_spec {s : List Char} {v : Int} {c : Char} (hn : Numeral s v) (hv : v ≤ 32767) (hc : isDigit c = false) (hp : c ≠ '%') :
    parseUnit (s ++ [c]) c = (true, some v) := by
  unfold parseUnit
  rw [stringParse_yes (args := 1) (by omega) (format_unit hp).1 (format_unit hp).2
    ((matches_step (hn.not_mem hc)).mpr ⟨hn.ne, by omega, readsInt_numeral s16_ok hn hv, [], rfl, matches_nil.mpr ⟨rfl, rfl⟩⟩)]
  simp only []
  rw [intArg_of s16_ok hn hv rfl]

theorem parseUnitRest_spec {s rest : List Char} {v : Int} {c : Char} (hn : Numeral s v) (hv : v ≤ 32767) (hc : isDigit c = false) (hp : c ≠ '%') (hr : rest ≠ []) :
    parseUnitRest (s ++ c :: rest) c = (true, some v, rest) := by
  unfold parseUnitRest
  rw [stringParse_yes (args := 2) (by omega) (format_unit_rest hp).1 (format_unit_rest hp).2
    ((matches_step (hn.not_mem hc)).mpr ⟨hn.ne, by omega, by simp [readsInt_numeral s16_ok hn hv], [(1, rest)], rfl, matches_last.mpr ⟨hr, by omega, by simp, rfl⟩⟩)]
  simp only []
  rw [intArg_of s16_ok hn hv rfl]
  rfl

theorem unitPart_not_mem {o : Option (List Char)} {v : Option Int} {c x : Char} (h : PartValue o v) (hx : isDigit x = false) (hc : x ≠ c) : x ∉ unitPart o c := by
  cases h with
  | none => simp [unitPart]
  | some hn hv =>
    unfold unitPart
    rw [List.mem_append, List.mem_singleton]
    exact fun h => h.elim (hn.not_mem hx) hc

theorem unitPart_some {s : List Char} {c : Char} : unitPart (some s) c = s ++ [c] := rfl

theorem parseUnits_spec {a b c : Option (List Char)} {va vb vc : Option Int} {c1 c2 c3 : Char} (ha : PartValue a va) (hb : PartValue b vb) (hc : PartValue c vc)
    (d1 : isDigit c1 = false) (d2 : isDigit c2 = false) (d3 : isDigit c3 = false) (p1 : c1 ≠ '%') (p2 : c2 ≠ '%') (p3 : c3 ≠ '%')
    (h12 : c1 ≠ c2) (h13 : c1 ≠ c3) (h23 : c2 ≠ c3) (hne : ¬ (a = none ∧ b = none ∧ c = none)) :
    parseUnits (unitParts a b c c1 c2 c3) c1 c2 c3 = (true, va, vb, vc) := by
  have third : ∀ x y : Option Int, c ≠ none → parseThird (unitPart c c3) x y c3 = (true, x, y, vc) := by
    intro x y h
    cases hc with
    | none => exact absurd rfl h
    | some hn hv =>
      unfold parseThird
      rw [unitPart_some, parseUnit_spec hn hv d3 p3]
  have second : ∀ x : Option Int, ¬ (b = none ∧ c = none) → parseSecond (unitPart b c2 ++ unitPart c c3) x c2 c3 = (true, x, vb, vc) := by
    intro x h
    cases hb with
    | none =>
      have hcn : c ≠ none := fun e => h ⟨rfl, e⟩
      unfold parseSecond
      rw [show unitPart none c2 ++ unitPart c c3 = unitPart c c3 from rfl, if_neg (by
        rw [List.contains_eq_mem, decide_eq_true_iff]; exact unitPart_not_mem hc d2 h23)]
      exact third x none hcn
    | @some s v hn hv =>
      unfold parseSecond
      rw [if_pos (by rw [List.contains_eq_mem, decide_eq_true_iff, unitPart_some]; simp)]
      cases hc with
      | none =>
        rw [show unitPart (some s) c2 ++ unitPart none c3 = s ++ [c2] by simp [unitPart], if_pos (by simp), parseUnit_spec hn hv d2 p2]
      | @some s' v' hn' hv' =>
        have e : unitPart (some s) c2 ++ unitPart (some s') c3 = s ++ c2 :: unitPart (some s') c3 := by simp [unitPart]
        rw [e, if_neg (by rw [unitPart_some, show s ++ c2 :: (s' ++ [c3]) = (s ++ c2 :: s') ++ [c3] by simp, List.getLast?_concat]; exact fun e => h23 (Option.some.inj e).symm), parseUnitRest_spec hn hv d2 p2 (by simp [unitPart]), if_pos rfl]
        exact third x (some v) (by simp)
  unfold unitParts
  have hnm2 : c1 ∉ unitPart b c2 ++ unitPart c c3 := by
    rw [List.mem_append]; exact fun h => h.elim (unitPart_not_mem hb d1 h12) (unitPart_not_mem hc d1 h13)
  cases ha with
  | none =>
    unfold parseUnits
    rw [show unitPart none c1 ++ (unitPart b c2 ++ unitPart c c3) = unitPart b c2 ++ unitPart c c3 from rfl, if_neg (by
      rw [List.contains_eq_mem, decide_eq_true_iff]; exact hnm2)]
    exact second none (fun h => hne ⟨rfl, h⟩)
  | @some s v hn hv =>
    unfold parseUnits
    rw [if_pos (by rw [List.contains_eq_mem, decide_eq_true_iff, unitPart_some]; simp)]
    by_cases h0 : b = none ∧ c = none
    · obtain ⟨rfl, rfl⟩ := h0
      cases hb; cases hc
      rw [show unitPart (some s) c1 ++ (unitPart none c2 ++ unitPart none c3) = s ++ [c1] by simp [unitPart], if_pos (by simp), parseUnit_spec hn hv d1 p1]
    · have hrne : unitPart b c2 ++ unitPart c c3 ≠ [] := by
        intro e
        apply h0
        rw [List.append_eq_nil_iff] at e
        constructor
        · cases b with
          | none => rfl
          | some x => simp [unitPart] at e
        · cases c with
          | none => rfl
          | some x => simp [unitPart] at e
      have e : unitPart (some s) c1 ++ (unitPart b c2 ++ unitPart c c3) = s ++ c1 :: (unitPart b c2 ++ unitPart c c3) := by simp [unitPart]
      rw [e, if_neg (by
        intro hl
        apply hnm2
        rw [List.getLast?_append, List.getLast?_cons] at hl
        cases hg : (unitPart b c2 ++ unitPart c c3).getLast? with
        | none => rw [List.getLast?_eq_none_iff] at hg; exact absurd hg hrne
        | some x =>
          rw [hg] at hl
          simp at hl
          subst hl
          exact List.mem_of_getLast? hg), parseUnitRest_spec hn hv d1 p1 hrne, if_pos rfl]
      exact second (some v) h0

theorem unitParts_all {a b c : Option (List Char)} {va vb vc : Option Int} {c1 c2 c3 : Char} (ha : PartValue a va) (hb : PartValue b vb) (hc : PartValue c vc)
    {P : Char → Bool} (hd : ∀ x, isDigit x = true → P x = true) (h1 : P c1 = true) (h2 : P c2 = true) (h3 : P c3 = true) :
    (unitParts a b c c1 c2 c3).all P = true := by
  have part : ∀ {o : Option (List Char)} {v : Option Int} {x : Char}, PartValue o v → P x = true → (unitPart o x).all P = true := by
    intro o v x ho hx
    cases ho with
    | none => rfl
    | some hn hv =>
      rw [unitPart_some, List.all_append, Bool.and_eq_true]
      refine ⟨?_, by simp [hx]⟩
      rw [List.all_eq_true]
      exact fun y hy => hd y (List.all_eq_true.mp hn.dig y hy)
  unfold unitParts
  rw [List.all_append, List.all_append, part ha h1, part hb h2, part hc h3]
  rfl

theorem unitParts_length {a b c : Option (List Char)} {va vb vc : Option Int} {c1 c2 c3 : Char} (ha : PartValue a va) (hb : PartValue b vb) (hc : PartValue c vc)
    (hne : ¬ (a = none ∧ b = none ∧ c = none)) : 2 ≤ (unitParts a b c c1 c2 c3).length := by
  have part : ∀ {o : Option (List Char)} {v : Option Int} {x : Char}, PartValue o v → o ≠ none → 2 ≤ (unitPart o x).length := by
    intro o v x ho hx
    cases ho with
    | none => exact absurd rfl hx
    | some hn hv =>
      rw [unitPart_some, List.length_append, List.length_singleton]
      have := List.length_pos_iff.mpr hn.ne
      omega
  unfold unitParts
  rw [List.length_append, List.length_append]
  by_cases h1 : a = none
  · by_cases h2 : b = none
    · have := part (x := c3) hc (fun h3 => hne ⟨h1, h2, h3⟩); omega
    · have := part (x := c2) hb h2; omega
  · have := part (x := c1) ha h1; omega

/-- C93, reading.  The components that stand in the text are those that are read; the others are 0.  The case of the letters does not matter. -/
theorem isoDurParse_spec {y mo d h mi s : Option (List Char)} {vy vmo vd vh vmi vs : Option Int} (hy : PartValue y vy) (hmo : PartValue mo vmo)
    (hd : PartValue d vd) (hh : PartValue h vh) (hmi : PartValue mi vmi) (hs : PartValue s vs)
    (hne : ¬ (y = none ∧ mo = none ∧ d = none ∧ h = none ∧ mi = none ∧ s = none)) {str : List Char} (hstr : str.map upper = isoDurationText y mo d h mi s) :
    isoDurParse str = some ⟨vy.getD 0, vmo.getD 0, 0, vd.getD 0, vh.getD 0, vmi.getD 0, vs.getD 0⟩ := by
  unfold isoDurParse
  rw [hstr]
  have hP : ∀ x, isDigit x = true → ("WYMDTHS".toList.contains x || isDigit x) = true := fun x hx => by rw [hx, Bool.or_true]
  have hall1 := unitParts_all (c1 := 'Y') (c2 := 'M') (c3 := 'D') hy hmo hd hP (by decide) (by decide) (by decide)
  have hall2 := unitParts_all (c1 := 'H') (c2 := 'M') (c3 := 'S') hh hmi hs hP (by decide) (by decide) (by decide)
  have hnot1 := unitParts_all (P := fun c => c ≠ 'T') (c1 := 'Y') (c2 := 'M') (c3 := 'D') hy hmo hd (fun x hx => by
    simp; rintro rfl; exact absurd hx (by decide)) (by decide) (by decide) (by decide)
  have hnot2 := unitParts_all (P := fun c => c ≠ 'T') (c1 := 'H') (c2 := 'M') (c3 := 'S') hh hmi hs (fun x hx => by
    simp; rintro rfl; exact absurd hx (by decide)) (by decide) (by decide) (by decide)
  have date : ∀ r : IsoDur, ¬ (y = none ∧ mo = none ∧ d = none) → tryDurDate (unitParts y mo d 'Y' 'M' 'D') r =
      (true, { r with years := vy.getD r.years, months := vmo.getD r.months, days := vd.getD r.days }) := by
    intro r hn
    unfold tryDurDate
    rw [parseUnits_spec hy hmo hd (by decide) (by decide) (by decide) (by decide) (by decide) (by decide) (by decide) (by decide) (by decide) hn]
  have time : ∀ r : IsoDur, ¬ (h = none ∧ mi = none ∧ s = none) → tryTime (unitParts h mi s 'H' 'M' 'S') r =
      (true, { r with hours := vh.getD r.hours, minutes := vmi.getD r.minutes, seconds := vs.getD r.seconds }) := by
    intro r hn
    unfold tryTime
    rw [parseUnits_spec hh hmi hs (by decide) (by decide) (by decide) (by decide) (by decide) (by decide) (by decide) (by decide) (by decide) hn]
  generalize hD : unitParts y mo d 'Y' 'M' 'D' = D at *
  generalize hT : unitParts h mi s 'H' 'M' 'S' = T at *
  unfold isoDurationText
  rw [hD, hT]
  by_cases ht : h = none ∧ mi = none ∧ s = none
  · have hdn : ¬ (y = none ∧ mo = none ∧ d = none) := fun e => hne ⟨e.1, e.2.1, e.2.2, ht⟩
    have hlen : 2 ≤ D.length := by rw [← hD]; exact unitParts_length hy hmo hd hdn
    rw [if_pos ht, List.append_nil]
    have e1 : formatRegex ('P' :: D) = some D := if_pos ⟨hlen, hall1⟩
    have e2 : splitLastT D = none := by
      unfold splitLastT
      rw [if_neg]
      rw [List.contains_eq_mem, decide_eq_true_iff]
      intro hm
      have := List.all_eq_true.mp hnot1 'T' hm
      simp at this
    have e3 : ∀ r, tryDurDateTime D r = (true, { r with years := vy.getD r.years, months := vmo.getD r.months, days := vd.getD r.days }) := by
      intro r
      unfold tryDurDateTime
      rw [e2]
      exact date r hdn
    rw [e1]
    simp only [e3]
    rw [if_pos trivial]
    obtain ⟨rfl, rfl, rfl⟩ := ht
    cases hh; cases hmi; cases hs
    rfl
  · have hlen : 2 ≤ T.length := by rw [← hT]; exact unitParts_length hh hmi hs ht
    rw [if_neg ht]
    have e1 : formatRegex ('P' :: (D ++ 'T' :: T)) = some (D ++ 'T' :: T) := by
      refine if_pos ?_
      refine ⟨by rw [List.length_append, List.length_cons]; omega, ?_⟩
      rw [List.all_append, List.all_cons, hall1, hall2]
      rfl
    have hTn : ∀ x ∈ T.reverse, decide (x ≠ 'T') = true := by
      intro x hx
      have := List.all_eq_true.mp hnot2 x (List.mem_reverse.mp hx)
      exact this
    have e2 : splitLastT (D ++ 'T' :: T) = some (D, T) := by
      unfold splitLastT
      rw [if_pos (by rw [List.contains_eq_mem, decide_eq_true_iff]; simp)]
      have er : (D ++ 'T' :: T).reverse = T.reverse ++ 'T' :: D.reverse := by simp
      rw [er, List.dropWhile_append_of_pos hTn, List.takeWhile_append_of_pos hTn, List.dropWhile_cons_of_neg (by simp), List.takeWhile_cons_of_neg (by simp)]
      simp
    have hTne : T ≠ [] := by rintro rfl; simp at hlen
    have e3 : (tryDurDateTime (D ++ 'T' :: T) ⟨0, 0, 0, 0, 0, 0, 0⟩) = (true, ⟨vy.getD 0, vmo.getD 0, 0, vd.getD 0, vh.getD 0, vmi.getD 0, vs.getD 0⟩) := by
      unfold tryDurDateTime
      rw [e2]
      simp only []
      rw [if_neg hTne, time _ ht]
      simp only []
      rw [if_neg (by simp)]
      by_cases hdn : y = none ∧ mo = none ∧ d = none
      · obtain ⟨rfl, rfl, rfl⟩ := hdn
        cases hy; cases hmo; cases hd
        rw [if_pos (by rw [← hD]; rfl)]
        rfl
      · rw [if_neg (by
          intro e
          have := unitParts_length (c1 := 'Y') (c2 := 'M') (c3 := 'D') hy hmo hd hdn
          rw [hD, e] at this
          simp at this), date _ hdn]
    rw [e1]
    simp only [e3]
    rw [if_pos trivial]

example : isoDurParse "p1y2M10DT2h30M".toList = some ⟨1, 2, 0, 10, 2, 30, 0⟩ := by decide +kernel

/-- C93, reading.  A number of weeks. -/
theorem isoDurParse_weeks {w : List Char} {v : Int} (hn : Numeral w v) (hv : v ≤ 32767) {str : List Char} (hstr : str.map upper = 'P' :: (w ++ ['W'])) :
    isoDurParse str = some ⟨0, 0, v, 0, 0, 0, 0⟩ := by
  have hlen : 2 ≤ (w ++ ['W']).length := by
    have := List.length_pos_iff.mpr hn.ne
    rw [List.length_append, List.length_singleton]; omega
  have hnm : ∀ c : Char, isDigit c = false → c ≠ 'W' → c ∉ w ++ ['W'] := by
    intro c h1 h2
    rw [List.mem_append, List.mem_singleton]
    exact fun h => h.elim (hn.not_mem h1) h2
  have e1 : formatRegex ('P' :: (w ++ ['W'])) = some (w ++ ['W']) := by
    refine if_pos ⟨hlen, ?_⟩
    rw [List.all_append, Bool.and_eq_true]
    refine ⟨?_, by decide⟩
    rw [List.all_eq_true]
    exact fun x hx => by rw [List.all_eq_true.mp hn.dig x hx, Bool.or_true]
  have hcont : ∀ c : Char, isDigit c = false → c ≠ 'W' → ¬ (w ++ ['W']).contains c = true := by
    intro c h1 h2
    rw [List.contains_eq_mem, decide_eq_true_iff]
    exact hnm c h1 h2
  have e2 : parseUnit (w ++ ['W']) 'D' = (false, none) := by
    unfold parseUnit
    have ht : tokenize (("%1%".toList ++ ['D']).length + 1) [] ("%1%".toList ++ ['D']) = some [.idx 1, .lit ['D']] := by decide +kernel
    have hf : find (w ++ ['W']) ['D'] 0 = none := by
      cases hf : find (w ++ ['W']) ['D'] 0 with
      | none => rfl
      | some p =>
        have := (find_cuts hf).1.1
        exact absurd (by rw [this]; simp) (hnm 'D' (by decide) (by decide))
    have hne : ¬ (w ++ ['W'] = []) := by simp
    have : stringParse 1 (fun _ s => readsInt Str.s16 s) (w ++ ['W']) ("%1%".toList ++ ['D']) = .no [] := by
      unfold stringParse
      rw [ht]
      simp only [parseLoop, hf]
      rw [if_neg hne, if_neg hne]
    rw [this]
    rfl
  have e3 : tryDurDateTime (w ++ ['W']) ⟨0, 0, 0, 0, 0, 0, 0⟩ = (false, ⟨0, 0, 0, 0, 0, 0, 0⟩) := by
    unfold tryDurDateTime splitLastT
    rw [if_neg (hcont 'T' (by decide) (by decide))]
    simp only []
    unfold tryDurDate parseUnits
    rw [if_neg (hcont 'Y' (by decide) (by decide))]
    unfold parseSecond
    rw [if_neg (hcont 'M' (by decide) (by decide))]
    unfold parseThird
    rw [e2]
    rfl
  unfold isoDurParse
  rw [hstr, e1]
  simp only [e3]
  rw [if_neg (by simp), parseUnit_spec hn hv (by decide) (by decide)]
  simp

example : isoDurParse "P12w".toList = some ⟨0, 0, 12, 0, 0, 0, 0⟩ := by decide +kernel

/-! ### Writing and reading -/

theorem unitText_part {v : Int} (h0 : 0 ≤ v) (h1 : v ≤ 32767) : PartValue (some (digits s16 v)) (some v) :=
  .some (numeral_digits s16_ok (by decide) h0 h1).1 h1

/-- The part of a number that is written only in some cases. -/
theorem part_if {v : Int} (h0 : 0 ≤ v) (h1 : v ≤ 32767) (p : Prop) [Decidable p] (hp : ¬ p → v = 0) (c : Char) :
    ∃ o w, PartValue o w ∧ (if p then unitText v c else []) = unitPart o c ∧ w.getD 0 = v ∧ (o = none ↔ ¬ p) := by
  by_cases h : p
  · exact ⟨some (digits s16 v), some v, unitText_part h0 h1, by rw [if_pos h]; rfl, rfl, by simp [h]⟩
  · exact ⟨none, none, .none, by rw [if_neg h]; rfl, (hp h).symm, by simp [h]⟩

/-- The components come back. -/
theorem isoDurText_parse {d : IsoDur} (hw : d.weeks = 0) (r1 : 0 ≤ d.years ∧ d.years ≤ 32767) (r2 : 0 ≤ d.months ∧ d.months ≤ 32767)
    (r3 : 0 ≤ d.days ∧ d.days ≤ 32767) (r4 : 0 ≤ d.hours ∧ d.hours ≤ 32767) (r5 : 0 ≤ d.minutes ∧ d.minutes ≤ 32767) (r6 : 0 ≤ d.seconds ∧ d.seconds ≤ 32767) :
    isoDurParse (isoDurText d) = some d := by
  by_cases hz : ¬ (d.years ≠ 0 ∨ d.months ≠ 0 ∨ d.days ≠ 0) ∧ ¬ (d.hours ≠ 0 ∨ d.minutes ≠ 0 ∨ d.seconds ≠ 0)
  · have : d = ⟨0, 0, 0, 0, 0, 0, 0⟩ := by
      obtain ⟨a, b, c, e, f, g, h⟩ := d
      simp only [] at *
      congr <;> omega
    subst this
    decide +kernel
  · obtain ⟨oy, vy, a1, a2, a3, a4⟩ := part_if r1.1 r1.2 (d.years ≠ 0) (by omega) 'Y'
    obtain ⟨om, vm, b1, b2, b3, b4⟩ := part_if r2.1 r2.2 (d.months ≠ 0 ∨ (d.years ≠ 0 ∧ d.days ≠ 0)) (by omega) 'M'
    obtain ⟨od, vd, c1, c2, c3, c4⟩ := part_if r3.1 r3.2 (d.days ≠ 0) (by omega) 'D'
    obtain ⟨oh, vh, d1, d2, d3, d4⟩ := part_if r4.1 r4.2 (d.hours ≠ 0) (by omega) 'H'
    obtain ⟨oi, vi, e1, e2, e3, e4⟩ := part_if r5.1 r5.2 (d.minutes ≠ 0 ∨ (d.hours ≠ 0 ∧ d.seconds ≠ 0)) (by omega) 'M'
    obtain ⟨os, vs, f1, f2, f3, f4⟩ := part_if r6.1 r6.2 (d.seconds ≠ 0) (by omega) 'S'
    have hdn : (oy = none ∧ om = none ∧ od = none) ↔ ¬ (d.years ≠ 0 ∨ d.months ≠ 0 ∨ d.days ≠ 0) := by rw [a4, b4, c4]; omega
    have htn : (oh = none ∧ oi = none ∧ os = none) ↔ ¬ (d.hours ≠ 0 ∨ d.minutes ≠ 0 ∨ d.seconds ≠ 0) := by rw [d4, e4, f4]; omega
    have htext : isoDurText d = isoDurationText oy om od oh oi os := by
      unfold isoDurText isoDurationText
      rw [if_neg hz]
      congr 1
      congr 1
      · by_cases h : d.years ≠ 0 ∨ d.months ≠ 0 ∨ d.days ≠ 0
        · rw [if_pos h]
          unfold isoDateText unitParts
          rw [a2, b2, c2, List.append_assoc]
        · rw [if_neg h]
          obtain ⟨rfl, rfl, rfl⟩ := hdn.mpr h
          rfl
      · by_cases h : d.hours ≠ 0 ∨ d.minutes ≠ 0 ∨ d.seconds ≠ 0
        · rw [if_pos h, if_neg (fun e => (htn.mp e) h)]
          unfold isoTimeText unitParts
          rw [d2, e2, f2, List.append_assoc]
        · rw [if_neg h, if_pos (htn.mpr h)]
    have hup : (isoDurText d).map upper = isoDurationText oy om od oh oi os := by
      rw [htext]
      have : ∀ x ∈ isoDurationText oy om od oh oi os, upper x = x := by
        intro x hx
        have hP : ∀ y, isDigit y = true → (decide (upper y = y)) = true := by
          intro y hy
          have := upper_numeral (s := [y]) (v := decimal [y]) ⟨by simp, by simp [hy], rfl⟩
          simpa using this
        have g1 := unitParts_all (P := fun y => decide (upper y = y)) (c1 := 'Y') (c2 := 'M') (c3 := 'D') a1 b1 c1 hP (by decide) (by decide) (by decide)
        have g2 := unitParts_all (P := fun y => decide (upper y = y)) (c1 := 'H') (c2 := 'M') (c3 := 'S') d1 e1 f1 hP (by decide) (by decide) (by decide)
        unfold isoDurationText at hx
        rcases List.mem_cons.mp hx with rfl | hx
        · decide
        rcases List.mem_append.mp hx with hx | hx
        · simpa using List.all_eq_true.mp g1 x hx
        · split at hx
          · cases hx
          · rcases List.mem_cons.mp hx with rfl | hx
            · decide
            · simpa using List.all_eq_true.mp g2 x hx
      rw [List.map_congr_left (g := id) this, List.map_id]
    rw [isoDurParse_spec a1 b1 c1 d1 e1 f1 (fun h => hz ⟨hdn.mp ⟨h.1, h.2.1, h.2.2.1⟩, htn.mp h.2.2.2⟩) hup, a3, b3, c3, d3, e3, f3, ← hw]

/-- C93, as far as it holds, without a base: a duration of less than 32768 hours comes back without its fraction of a second. -/
theorem durIso_roundtrip_partial {us : Int} (h0 : 0 ≤ us) (h1 : us < 32768 * 3600000000) (base : Int) :
    ∃ text, durToIso us none = .ok text ∧ durFromIso text base = .ok (us / 1000000 * 1000000) := by
  refine ⟨isoDurText (isoSplitPlain us), ?_, ?_⟩
  · unfold durToIso
    rw [if_neg (by omega)]
  · have hs : durSeconds us = us / 1000000 := by
      unfold durSeconds durMs
      rw [Int.tdiv_eq_ediv_of_nonneg h0, Int.tdiv_eq_ediv_of_nonneg (by omega), Int.ediv_ediv_of_nonneg (by omega)]
      rfl
    have hm : durMinutes us = us / 1000000 / 60 := by unfold durMinutes; rw [hs, Int.tdiv_eq_ediv_of_nonneg (by omega)]
    have hh : durHours us = us / 1000000 / 60 / 60 := by unfold durHours; rw [hm, Int.tdiv_eq_ediv_of_nonneg (by omega)]
    have hd : isoSplitPlain us = ⟨0, 0, 0, 0, us / 1000000 / 60 / 60, us / 1000000 / 60 % 60, us / 1000000 % 60⟩ := by
      unfold isoSplitPlain
      rw [hs, hm, hh, Int.tmod_eq_emod_of_nonneg (by omega), Int.tmod_eq_emod_of_nonneg (by omega), toS16_id (by omega) (by omega), toS16_id (by omega) (by omega),
        toS16_id (by omega) (by omega)]
    unfold durFromIso
    rw [hd, isoDurText_parse rfl (by simp) (by simp) (by simp) (by simp only []; omega) (by simp only []; omega) (by simp only []; omega)]
    simp only [isoDurValue]
    rw [if_pos (by decide)]
    congr 1
    omega

example : durToIso 3661999999 none = .ok "PT1H1M1S".toList ∧ durFromIso "PT1H1M1S".toList 0 = .ok 3661000000 := by decide +kernel

/-- C93 is violated by 65536 hours without a base: the text denotes no time at all; 32768 hours have a negative number in their text. -/
theorem durIso_hours_violated : durToIso (65536 * 3600000000) none = .ok "PT0S".toList ∧ durToIso (32768 * 3600000000) none = .ok "PT-32768H".toList ∧
    durFromIso "PT-32768H".toList 0 = .threw := by decide +kernel

/-! ### With a base -/

/-- Day `n` is the first of the month with the index `j`, counted from January of the year 0. -/
def FirstOf (f : Int → Spec.Date) (n j : Int) : Prop := f n = ⟨j / 12, j % 12 + 1, 1⟩

def lengthOf (j : Int) : Int := Spec.monthLength (j / 12) (j % 12 + 1)

theorem firstOf_next {f : Int → Spec.Date} (hf : Spec.IsCalendar f) {n j : Int} (h : FirstOf f n j) : FirstOf f (n + lengthOf j) (j + 1) := by
  unfold FirstOf at *
  have hlen : 1 ≤ lengthOf j := by unfold lengthOf Spec.monthLength; repeat' split <;> omega
  have key : ∀ k : Nat, (k : Int) < lengthOf j → f (n + k) = ⟨j / 12, j % 12 + 1, 1 + k⟩ := by
    intro k
    induction k with
    | zero => intro _; simpa using h
    | succ k ih =>
      intro hk
      have e : n + ((k + 1 : Nat) : Int) = n + k + 1 := by omega
      rw [e, hf.step, ih (by omega)]
      unfold Spec.Date.next
      simp only []
      rw [if_pos (by unfold lengthOf at hk; omega)]
      congr 1
  have hl := key (lengthOf j - 1).toNat (by omega)
  have e : n + lengthOf j = n + ((lengthOf j - 1).toNat : Int) + 1 := by omega
  rw [e, hf.step, hl]
  unfold Spec.Date.next
  simp only []
  rw [if_neg (by unfold lengthOf at hlen ⊢; omega)]
  by_cases h12 : j % 12 + 1 < 12
  · rw [if_pos h12]; congr 1 <;> omega
  · rw [if_neg h12]; congr 1 <;> omega

theorem lengthOf_at {y m : Int} (h0 : 0 ≤ m) (h1 : m < 12) : lengthOf (12 * y + m) = Spec.monthLength y (m + 1) := by
  unfold lengthOf
  have e1 : (12 * y + m) / 12 = y := by omega
  have e2 : (12 * y + m) % 12 = m := by omega
  rw [e1, e2]

/-- The days of twelve months. -/
def yearFrom (j : Int) : Int :=
  lengthOf j + lengthOf (j + 1) + lengthOf (j + 2) + lengthOf (j + 3) + lengthOf (j + 4) + lengthOf (j + 5) + lengthOf (j + 6) + lengthOf (j + 7) +
    lengthOf (j + 8) + lengthOf (j + 9) + lengthOf (j + 10) + lengthOf (j + 11)

theorem yearFrom_step (j : Int) : yearFrom (j + 1) = yearFrom j + lengthOf (j + 12) - lengthOf j := by
  unfold yearFrom
  have e : ∀ i : Int, j + 1 + i = j + (1 + i) := fun i => by omega
  simp only [e]
  have e2 : j + (1 + 1) = j + 2 ∧ j + (1 + 2) = j + 3 ∧ j + (1 + 3) = j + 4 ∧ j + (1 + 4) = j + 5 ∧ j + (1 + 5) = j + 6 ∧ j + (1 + 6) = j + 7 ∧ j + (1 + 7) = j + 8 ∧
    j + (1 + 8) = j + 9 ∧ j + (1 + 9) = j + 10 ∧ j + (1 + 10) = j + 11 ∧ j + (1 + 11) = j + 12 := by omega
  obtain ⟨a1, a2, a3, a4, a5, a6, a7, a8, a9, a10, a11⟩ := e2
  rw [a1, a2, a3, a4, a5, a6, a7, a8, a9, a10, a11]
  omega

theorem yearFrom_january (y : Int) : yearFrom (12 * y) = if Spec.isLeap y then 366 else 365 := by
  have e0 : (12 * y : Int) = 12 * y + 0 := by omega
  unfold yearFrom
  rw [show lengthOf (12 * y) = lengthOf (12 * y + 0) by rw [← e0]]
  simp only [lengthOf_at (y := y) (m := 0) (by decide) (by decide), lengthOf_at (y := y) (m := 1) (by decide) (by decide), lengthOf_at (y := y) (m := 2) (by decide) (by decide),
    lengthOf_at (y := y) (m := 3) (by decide) (by decide), lengthOf_at (y := y) (m := 4) (by decide) (by decide), lengthOf_at (y := y) (m := 5) (by decide) (by decide),
    lengthOf_at (y := y) (m := 6) (by decide) (by decide), lengthOf_at (y := y) (m := 7) (by decide) (by decide), lengthOf_at (y := y) (m := 8) (by decide) (by decide),
    lengthOf_at (y := y) (m := 9) (by decide) (by decide), lengthOf_at (y := y) (m := 10) (by decide) (by decide), lengthOf_at (y := y) (m := 11) (by decide) (by decide)]
  unfold Spec.monthLength
  by_cases h : Spec.isLeap y
  · simp [h]
  · simp [h]

theorem yearFrom_eq (y : Int) (k : Nat) : k < 12 → yearFrom (12 * y + k) = if Spec.isLeap (if (k : Int) + 1 > 2 then y + 1 else y) then 366 else 365 := by
  induction k with
  | zero =>
    intro _
    have := yearFrom_january y
    simpa using this
  | succ k ih =>
    intro hk
    have e : 12 * y + ((k + 1 : Nat) : Int) = 12 * y + k + 1 := by omega
    have e2 : 12 * y + (k : Int) + 12 = 12 * (y + 1) + k := by omega
    rw [e, yearFrom_step, ih (by omega), e2, lengthOf_at (by omega) (by omega), lengthOf_at (by omega) (by omega)]
    rcases Nat.lt_trichotomy k 1 with h | h | h
    · have : k = 0 := by omega
      subst this
      simp [Spec.monthLength]
    · subst h
      simp [Spec.monthLength]
      by_cases h1 : Spec.isLeap y <;> by_cases h2 : Spec.isLeap (y + 1) <;> simp [h1, h2]
    · rw [if_pos (show (k : Int) + 1 > 2 by omega), if_pos (show ((k + 1 : Nat) : Int) + 1 > 2 by omega)]
      unfold Spec.monthLength
      rw [if_neg (show ¬ (k : Int) + 1 = 2 by omega), if_neg (show ¬ (k : Int) + 1 = 2 by omega)]
      omega

/-- The days from the first of a month to the first of the same month one year later. -/
theorem firstOf_year {f : Int → Spec.Date} (hf : Spec.IsCalendar f) {n j : Int} (h : FirstOf f n j) :
    FirstOf f (n + (if Spec.isLeap (if j % 12 + 1 > 2 then j / 12 + 1 else j / 12) then 366 else 365)) (j + 12) := by
  have s := firstOf_next hf (firstOf_next hf (firstOf_next hf (firstOf_next hf (firstOf_next hf (firstOf_next hf (firstOf_next hf
    (firstOf_next hf (firstOf_next hf (firstOf_next hf (firstOf_next hf (firstOf_next hf h)))))))))))
  simp only [Int.add_assoc] at s
  have hj : j = 12 * (j / 12) + ((j % 12).toNat : Int) := by omega
  have := yearFrom_eq (j / 12) (j % 12).toNat (by omega)
  rw [← hj, show (((j % 12).toNat : Nat) : Int) = j % 12 by omega] at this
  rw [← this]
  unfold yearFrom
  simp only [Int.add_assoc]
  exact s

theorem maxDaysInYear_eq {y : Int} (h : 0 ≤ y) : maxDaysInYear y = if Spec.isLeap y then 366 else 365 := by
  unfold maxDaysInYear
  rw [Int.tmod_eq_emod_of_nonneg h, Int.tmod_eq_emod_of_nonneg h, Int.tmod_eq_emod_of_nonneg h]
  by_cases h1 : Spec.isLeap y
  · rw [if_pos h1, if_pos (by unfold Spec.isLeap at h1; omega)]
  · rw [if_neg h1, if_neg (by unfold Spec.isLeap at h1; omega)]

theorem maxDaysInMonth_eq {y m : Int} (h : 0 ≤ y) (h1 : 1 ≤ m) (h2 : m ≤ 12) : maxDaysInMonth y m = some (Spec.monthLength y m) := by
  unfold maxDaysInMonth
  rw [Int.tmod_eq_emod_of_nonneg h, Int.tmod_eq_emod_of_nonneg h, Int.tmod_eq_emod_of_nonneg h]
  have hm : m = 1 ∨ m = 2 ∨ m = 3 ∨ m = 4 ∨ m = 5 ∨ m = 6 ∨ m = 7 ∨ m = 8 ∨ m = 9 ∨ m = 10 ∨ m = 11 ∨ m = 12 := by omega
  by_cases h4 : m = 2
  · subst h4
    unfold Spec.monthLength
    rw [if_pos rfl]
    by_cases h5 : Spec.isLeap y
    · rw [if_pos h5, if_pos ⟨rfl, by unfold Spec.isLeap at h5; omega⟩]
    · rw [if_neg h5, if_neg (fun e => h5 (by unfold Spec.isLeap; omega))]
      rfl
  · rw [if_neg (fun e => h4 e.1)]
    rcases hm with rfl | rfl | rfl | rfl | rfl | rfl | rfl | rfl | rfl | rfl | rfl | rfl <;> first | rfl | exact absurd rfl h4

theorem yearLoop_spec {f : Int → Spec.Date} (hf : Spec.IsCalendar f) (fuel : Nat) : ∀ (n j years r : Int), FirstOf f n j → 0 ≤ j → 0 ≤ years → 0 ≤ r → r < fuel →
    365 * (j / 12) + r ≤ 365 * 32700 → 365 * years + r ≤ 365 * 32700 → r ≤ 32767 →
    ∃ k r' n', yearLoop fuel (if j % 12 + 1 > 2 then j / 12 + 1 else j / 12) years r = (years + k, r') ∧ 0 ≤ k ∧ 365 * k + r' ≤ r ∧ 0 ≤ r' ∧
      FirstOf f n' (j + 12 * k) ∧ n' + r' = n + r ∧ r' < 366 := by
  induction fuel with
  | zero => intro n j years r _ _ _ h1 h2; omega
  | succ fuel ih =>
    intro n j years r hn hj hy hr hfu hb1 hb2 hb3
    have hstep := firstOf_year hf hn
    have hY : 0 ≤ (if j % 12 + 1 > 2 then j / 12 + 1 else j / 12) ∧ (if j % 12 + 1 > 2 then j / 12 + 1 else j / 12) ≤ 32701 := by split <;> omega
    generalize hYe : (if j % 12 + 1 > 2 then j / 12 + 1 else j / 12) = Y at *
    rw [yearLoop, maxDaysInYear_eq hY.1]
    have hlen : 365 ≤ (if Spec.isLeap Y then (366 : Int) else 365) ∧ (if Spec.isLeap Y then (366 : Int) else 365) ≤ 366 := by split <;> omega
    generalize hle : (if Spec.isLeap Y then (366 : Int) else 365) = L at *
    by_cases hc : L ≤ r
    · rw [if_pos hc, toS16_id (x := Y + 1) (by omega) (by omega), toS16_id (x := years + 1) (by omega) (by omega), toS16_id (x := r - L) (by omega) (by omega)]
      obtain ⟨k, r', n', e1, e2, e3, e4, e5, e6, e7⟩ := ih (n + L) (j + 12) (years + 1) (r - L) hstep (by omega) (by omega) (by omega) (by omega) (by omega) (by omega) (by omega)
      have eY : (if (j + 12) % 12 + 1 > 2 then (j + 12) / 12 + 1 else (j + 12) / 12) = Y + 1 := by
        rw [← hYe]
        by_cases hq : j % 12 + 1 > 2
        · rw [if_pos hq, if_pos (by omega)]; omega
        · rw [if_neg hq, if_neg (by omega)]; omega
      rw [eY] at e1
      refine ⟨k + 1, r', n', ?_, by omega, by omega, e4, ?_, by omega, e7⟩
      · rw [e1]; congr 1; omega
      · rw [show j + 12 * (k + 1) = j + 12 + 12 * k by omega]; exact e5
    · rw [if_neg hc]
      exact ⟨0, r, n, by rw [Int.add_zero], by omega, by omega, hr, by rw [Int.mul_zero, Int.add_zero]; exact hn, rfl, by omega⟩

theorem monthLoop_spec {f : Int → Spec.Date} (hf : Spec.IsCalendar f) (fuel : Nat) : ∀ (n j months r : Int), FirstOf f n j → 0 ≤ j → 0 ≤ months → 0 ≤ r → r < fuel →
    j / 12 + r ≤ 65000 → j / 12 + r / 28 ≤ 32700 → months + r / 28 ≤ 32700 → r ≤ 32767 →
    ∃ k r' n', monthLoop fuel (j / 12) (j % 12 + 1) months r = some (months + k, r') ∧ 0 ≤ k ∧ 28 * k + r' ≤ r ∧ 0 ≤ r' ∧
      FirstOf f n' (j + k) ∧ n' + r' = n + r := by
  induction fuel with
  | zero => intro n j months r _ _ _ h1 h2; omega
  | succ fuel ih =>
    intro n j months r hn hj hmo hr hfu hb0 hb1 hb2 hb3
    have hstep := firstOf_next hf hn
    rw [monthLoop, maxDaysInMonth_eq (by omega) (by omega) (by omega)]
    simp only []
    have hlen : 28 ≤ lengthOf j ∧ lengthOf j ≤ 31 := by unfold lengthOf Spec.monthLength; repeat' split <;> omega
    have hL : Spec.monthLength (j / 12) (j % 12 + 1) = lengthOf j := rfl
    rw [hL]
    generalize lengthOf j = L at *
    by_cases hc : L ≤ r
    · rw [if_pos hc, toS16_id (x := months + 1) (by omega) (by omega), toS16_id (x := r - L) (by omega) (by omega)]
      obtain ⟨k, r', n', e1, e2, e3, e4, e5, e6⟩ := ih (n + L) (j + 1) (months + 1) (r - L) hstep (by omega) (by omega) (by omega) (by omega) (by omega) (by omega) (by omega) (by omega)
      refine ⟨k + 1, r', n', ?_, by omega, by omega, e4, ?_, by omega⟩
      · by_cases hq : j % 12 + 1 + 1 > 12
        · rw [if_pos hq, toS16_id (x := j / 12 + 1) (by omega) (by omega)]
          rw [show (j + 1) / 12 = j / 12 + 1 by omega, show (j + 1) % 12 + 1 = 1 by omega] at e1
          rw [e1]; congr 2; omega
        · rw [if_neg hq]
          rw [show (j + 1) / 12 = j / 12 by omega, show (j + 1) % 12 + 1 = j % 12 + 1 + 1 by omega] at e1
          rw [e1]; congr 2; omega
      · rw [show j + (k + 1) = j + 1 + k by omega]; exact e5
    · rw [if_neg hc]
      exact ⟨0, r, n, by rw [Int.add_zero], by omega, by omega, hr, by rw [Int.add_zero]; exact hn, rfl⟩

theorem dur_split {us : Int} (h0 : 0 ≤ us) : durSeconds us = us / 1000000 ∧ durMinutes us = us / 1000000 / 60 ∧ durHours us = us / 1000000 / 60 / 60 ∧
    durDays us = us / 1000000 / 60 / 60 / 24 := by
  have hs : durSeconds us = us / 1000000 := by
    unfold durSeconds durMs
    rw [Int.tdiv_eq_ediv_of_nonneg h0, Int.tdiv_eq_ediv_of_nonneg (by omega), Int.ediv_ediv_of_nonneg (by omega)]
    rfl
  have hm : durMinutes us = us / 1000000 / 60 := by unfold durMinutes; rw [hs, Int.tdiv_eq_ediv_of_nonneg (by omega)]
  have hh : durHours us = us / 1000000 / 60 / 60 := by unfold durHours; rw [hm, Int.tdiv_eq_ediv_of_nonneg (by omega)]
  exact ⟨hs, hm, hh, by unfold durDays; rw [hh, Int.tdiv_eq_ediv_of_nonneg (by omega)]⟩

theorem year_end {f : Int → Spec.Date} (hf : Spec.IsCalendar f) : f 11248738 = ⟨32768, 1, 1⟩ := by
  rw [hf.unique civil_isCalendar]
  decide +kernel

theorem firstOf_unique {f : Int → Spec.Date} (hf : Spec.IsCalendar f) {a b j : Int} (ha : FirstOf f a j) (hb : FirstOf f b j) : a = b := by
  unfold FirstOf at *
  rcases Int.lt_trichotomy a b with h | h | h
  · have := calendar_increasing hf h
    rw [ha, hb] at this
    simp only [Spec.Date.Before] at this
    omega
  · exact h
  · have := calendar_increasing hf h
    rw [ha, hb] at this
    simp only [Spec.Date.Before] at this
    omega

/-- What the split with a base gives. -/
theorem isoSplitBased_spec {f : Int → Spec.Date} (hf : Spec.IsCalendar f) {us : Int} (h0 : 0 ≤ us) (h1 : us < 32768 * 86400000000) {b : Bdt} {n : Int}
    (hn : f n = ⟨b.year, b.month, b.mday⟩) (hy0 : 0 ≤ b.year) (hy1 : b.year ≤ 32000) (h29 : ¬ (b.month = 2 ∧ b.mday = 29) ∨ us < 365 * 86400000000) :
    ∃ y mo d n', isoSplitBased us b = some ⟨y, mo, 0, d, us / 1000000 / 60 / 60 % 24, us / 1000000 / 60 % 60, us / 1000000 % 60⟩ ∧
      0 ≤ y ∧ y ≤ 100 ∧ 0 ≤ mo ∧ mo ≤ 100 ∧ 0 ≤ d ∧ d ≤ 366 ∧ FirstOf f n' (12 * (b.year + y) + (b.month + mo - 1)) ∧
      n' + (b.mday - 1) + d = n + us / 1000000 / 60 / 60 / 24 ∧ (y = 0 → mo = 0 → d = us / 1000000 / 60 / 60 / 24) := by
  have hv := hf.valid n
  rw [hn] at hv
  obtain ⟨v1, v2, v3, v4⟩ := hv
  simp only [] at v1 v2 v3 v4
  obtain ⟨hs, hm, hh, hd⟩ := dur_split h0
  have hfirst := day_of_month hf hn
  have hF : FirstOf f (n - (b.mday - 1)) (12 * b.year + (b.month - 1)) := by
    unfold FirstOf
    rw [hfirst]
    congr 1 <;> omega
  have hdays : toS16 (durDays us) = us / 1000000 / 60 / 60 / 24 := by rw [hd]; exact toS16_id (by omega) (by omega)
  have hdr : 0 ≤ us / 1000000 / 60 / 60 / 24 ∧ us / 1000000 / 60 / 60 / 24 ≤ 32767 := by omega
  have h29' : ¬ (b.month = 2 ∧ b.mday = 29) ∨ us / 1000000 / 60 / 60 / 24 < 365 := by omega
  have hyl : ∃ y r n1, yearLoop 32768 (if afterLeapDay b then toS16 (b.year + 1) else b.year) 0 (us / 1000000 / 60 / 60 / 24) = (y, r) ∧ 0 ≤ y ∧
      365 * y + r ≤ us / 1000000 / 60 / 60 / 24 ∧ 0 ≤ r ∧ FirstOf f n1 (12 * b.year + (b.month - 1) + 12 * y) ∧
      n1 + r = n - (b.mday - 1) + us / 1000000 / 60 / 60 / 24 ∧ r < 366 := by
    generalize us / 1000000 / 60 / 60 / 24 = D at *
    rw [toS16_id (x := b.year + 1) (by omega) (by omega)]
    by_cases hl : b.month = 2 ∧ b.mday = 29
    · have hal : afterLeapDay b = true := by unfold afterLeapDay; simp [hl.1, hl.2]
      rw [hal, if_pos rfl, show (32768 : Nat) = 32767 + 1 from rfl, yearLoop, maxDaysInYear_eq (by omega)]
      rw [if_neg (by
        have : 365 ≤ (if Spec.isLeap (b.year + 1) then (366 : Int) else 365) := by split <;> omega
        omega)]
      exact ⟨0, D, n - (b.mday - 1), rfl, by omega, by omega, hdr.1, by rw [Int.mul_zero, Int.add_zero]; exact hF, rfl, by omega⟩
    · have hal : (if afterLeapDay b then b.year + 1 else b.year) =
          (if (12 * b.year + (b.month - 1)) % 12 + 1 > 2 then (12 * b.year + (b.month - 1)) / 12 + 1 else (12 * b.year + (b.month - 1)) / 12) := by
        have e1 : (12 * b.year + (b.month - 1)) % 12 + 1 = b.month := by omega
        have e2 : (12 * b.year + (b.month - 1)) / 12 = b.year := by omega
        rw [e1, e2]
        have : afterLeapDay b = decide (b.month > 2) := by
          unfold afterLeapDay
          by_cases h2 : b.month = 2
          · have : b.mday ≠ 29 := fun e => hl ⟨h2, e⟩
            simp [h2, this]
          · simp [h2]
        rw [this]
        by_cases h2 : b.month > 2
        · rw [if_pos h2, if_pos (by simpa using h2)]
        · rw [if_neg h2, if_neg (by simpa using h2)]
      rw [hal]
      obtain ⟨k, r, n1, e1, e2, e3, e4, e5, e6, e7⟩ := yearLoop_spec hf 32768 _ _ 0 D hF (by omega) (by omega) hdr.1 (by omega) (by omega) (by omega) hdr.2
      exact ⟨k, r, n1, by rw [e1, Int.zero_add], e2, e3, e4, e5, e6, e7⟩
  obtain ⟨y, r, n1, a1, a2, a3, a4, a5, a6, a7⟩ := hyl
  have hiy : isoYear b y = b.year + y := by
    unfold isoYear
    rw [toS16_id (x := b.year + 1) (by omega) (by omega), toS16_id (x := b.year + 1 + y) (by omega) (by omega), toS16_id (x := b.year + 1 + y - 1) (by omega) (by omega),
      toS16_id (x := b.year + y) (by omega) (by omega)]
    split <;> omega
  obtain ⟨k, r', n2, c1, c2, c3, c4, c5, c6⟩ := monthLoop_spec hf 32768 n1 _ 0 r a5 (by omega) (by omega) a4 (by omega) (by omega) (by omega) (by omega) (by omega)
  rw [show (12 * b.year + (b.month - 1) + 12 * y) / 12 = b.year + y by omega, show (12 * b.year + (b.month - 1) + 12 * y) % 12 + 1 = b.month by omega, Int.zero_add] at c1
  refine ⟨y, k, r', n2, ?_, a2, by omega, c2, by omega, c4, by omega, ?_, by omega, ?_⟩
  rotate_right
  · intro e1 e2
    subst e1 e2
    have := firstOf_unique hf c5 (by rw [Int.mul_zero, Int.add_zero, Int.add_zero]; exact hF)
    omega
  · unfold isoSplitBased
    rw [hdays, a1]
    simp only []
    rw [hiy, c1, hs, hm, hh, Int.tmod_eq_emod_of_nonneg (by omega), Int.tmod_eq_emod_of_nonneg (by omega), Int.tmod_eq_emod_of_nonneg (by omega),
      toS16_id (by omega) (by omega), toS16_id (by omega) (by omega), toS16_id (by omega) (by omega)]
    rfl
  · rw [show 12 * (b.year + y) + (b.month + k - 1) = 12 * b.year + (b.month - 1) + 12 * y + k by omega]
    exact c5

/-- C93, as far as it holds, with a base: a duration of less than 32768 days comes back without its fraction of a second, if the base is not before 1970
nor beyond the year 32000, and if it is no 29 February or the duration is shorter than a year. -/
theorem durIso_based_partial {f : Int → Spec.Date} (hf : Spec.IsCalendar f) {us base : Int} (h0 : 0 ≤ us) (h1 : us < 32768 * 86400000000) (hb : 0 ≤ base)
    (hy : (f (base / 86400000)).year ≤ 32000)
    (h29 : ¬ ((f (base / 86400000)).month = 2 ∧ (f (base / 86400000)).day = 29) ∨ us < 365 * 86400000000) :
    ∃ text, durToIso us (some base) = .ok text ∧ durFromIso text base = .ok (us / 1000000 * 1000000) := by
  have hup : base < 971890963200000 := by
    rcases Int.lt_or_le base 971890963200000 with h | h
    · exact h
    · exfalso
      rcases Int.lt_or_le 11248738 (base / 86400000) with h2 | h2
      · have := calendar_increasing hf h2
        rw [year_end hf] at this
        simp only [Spec.Date.Before] at this
        omega
      · have e : base / 86400000 = 11248738 := by omega
        rw [e, year_end hf] at hy
        simp at hy
  have hlo : 1970 ≤ (f (base / 86400000)).year := by
    rcases Int.lt_or_le 0 (base / 86400000) with h2 | h2
    · have := calendar_increasing hf h2
      rw [hf.epoch] at this
      simp only [Spec.Date.Before] at this
      omega
    · have e : base / 86400000 = 0 := by omega
      rw [e, hf.epoch]
      decide
  obtain ⟨b, hbd, hdate, m0, m1, s0, s1, i0, i1, o0, o1, htime, _, _⟩ := breakDown_fields_partial hf (offset := 0) (t := base) (Or.inl (by omega)) (by omega) (by omega)
  rw [Int.mul_zero, Int.add_zero] at hdate htime
  have hyr : (f (base / 86400000)).year = b.year ∧ (f (base / 86400000)).month = b.month ∧ (f (base / 86400000)).day = b.mday := by rw [← hdate]; exact ⟨rfl, rfl, rfl⟩
  rw [hyr.1] at hy hlo
  rw [hyr.2.1, hyr.2.2] at h29
  obtain ⟨y, mo, d, n', hsp, y0, y1, mo0, mo1, d0, d1, hF, hn', hz⟩ := isoSplitBased_spec hf h0 h1 hdate.symm (by omega) hy h29
  refine ⟨isoDurText ⟨y, mo, 0, d, us / 1000000 / 60 / 60 % 24, us / 1000000 / 60 % 60, us / 1000000 % 60⟩, ?_, ?_⟩
  · unfold durToIso
    rw [if_neg (by omega)]
    simp only []
    rw [hbd]
    simp only [Res.bind]
    rw [hsp]
  · unfold durFromIso
    rw [isoDurText_parse rfl (by simp only []; omega) (by simp only []; omega) (by simp only []; omega) (by simp only []; omega) (by simp only []; omega) (by simp only []; omega)]
    simp only [isoDurValue]
    by_cases hzz : y = 0 ∧ mo = 0
    · rw [if_pos hzz, hz hzz.1 hzz.2]
      congr 1
      omega
    · rw [if_neg hzz, hbd]
      simp only [Res.bind]
      have hv := hf.valid (base / 86400000)
      rw [← hdate] at hv
      obtain ⟨v1, v2, v3, v4⟩ := hv
      simp only [] at v1 v2 v3 v4
      have v5 : Spec.monthLength b.year b.month ≤ 31 := by unfold Spec.monthLength; repeat' split <;> omega
      unfold FirstOf at hF
      have e1 : (12 * (b.year + y) + (b.month + mo - 1)) / 12 = b.year + y + (b.month + mo - 1) / 12 := by omega
      have e2 : (12 * (b.year + y) + (b.month + mo - 1)) % 12 = (b.month + mo - 1) % 12 := by omega
      rw [e1, e2] at hF
      generalize hS : us / 1000000 = S at *
      rw [show mkBdt b.ms (b.sec + S % 60) (b.min + S / 60 % 60) (b.hour + S / 60 / 60 % 24) b.wday (b.mday + 0 * 7 + d) (b.month + mo) b.yday (b.year + y) =
        ⟨b.ms, b.sec + S % 60, b.min + S / 60 % 60, b.hour + S / 60 / 60 % 24, toS16 b.wday, b.mday + d, b.month + mo, toS16 b.yday, b.year + y⟩ by
          unfold mkBdt
          rw [Int.zero_mul, Int.add_zero, toS16_id (x := b.ms) (by omega) (by omega), toS16_id (x := b.sec + _) (by omega) (by omega), toS16_id (x := b.min + _) (by omega) (by omega),
            toS16_id (x := b.hour + _) (by omega) (by omega), toS16_id (x := b.mday + d) (by omega) (by omega), toS16_id (x := b.month + mo) (by omega) (by omega),
            toS16_id (x := b.year + y) (by omega) (by omega)]]
      rw [fromBrokenDown_value hf 0 _ (by simp only []; omega) (n := n') hF]
      simp only []
      have hval : (n' + (b.mday + d - 1)) * 86400 + (b.hour + S / 60 / 60 % 24) * 3600 + (b.min + S / 60 % 60) * 60 + (b.sec + S % 60) = base / 1000 + S := by omega
      rw [hval, if_neg (by omega)]
      simp only [timeDiff]
      congr 1
      omega

example : durToIso 34218061999999 (some 1583020800000) = .ok "P1Y1MT1H1M1S".toList := by decide +kernel

/-- C93, the value with a base.  Years and months are counted in the calendar from the base; weeks, days, hours, minutes and seconds are counted on from the day and the time of
the base in the month that is reached, whether or not that month has such a day. -/
theorem isoDurValue_calendar {f : Int → Spec.Date} (hf : Spec.IsCalendar f) {base : Int} (hb : 0 ≤ base) (hb2 : base < 971890963200000) {d : IsoDur}
    (hym : ¬ (d.years = 0 ∧ d.months = 0)) (h0 : 0 ≤ d.years ∧ 0 ≤ d.months ∧ 0 ≤ d.weeks ∧ 0 ≤ d.days ∧ 0 ≤ d.hours ∧ 0 ≤ d.minutes ∧ 0 ≤ d.seconds)
    (hfit : (f (base / 86400000)).year + d.years ≤ 32767 ∧ d.months ≤ 32700 ∧ d.weeks * 7 + d.days ≤ 32700 ∧ d.hours ≤ 32700 ∧ d.minutes ≤ 32700 ∧ d.seconds ≤ 32700)
    {n : Int} (hn : f n = ⟨(f (base / 86400000)).year + d.years + ((f (base / 86400000)).month + d.months - 1) / 12, ((f (base / 86400000)).month + d.months - 1) % 12 + 1, 1⟩)
    (hn0 : 0 ≤ n) :
    isoDurValue d base = .ok (1000 * ((n + ((f (base / 86400000)).day - 1) + d.weeks * 7 + d.days) * 86400000 + base % 86400000 + d.hours * 3600000 + d.minutes * 60000 +
      d.seconds * 1000 - base)) := by
  obtain ⟨b, hbd, hdate, m0, m1, s0, s1, i0, i1, o0, o1, htime, _, _⟩ := breakDown_fields_partial hf (offset := 0) (t := base) (Or.inl (by omega)) (by omega) (by omega)
  rw [Int.mul_zero, Int.add_zero] at hdate htime
  have hv := hf.valid (base / 86400000)
  have hr := bdt_range hbd
  rw [← hdate] at hv hn hfit ⊢
  obtain ⟨v1, v2, v3, v4⟩ := hv
  simp only [] at v1 v2 v3 v4 hn hfit ⊢
  have v5 : Spec.monthLength b.year b.month ≤ 31 := by unfold Spec.monthLength; repeat' split <;> omega
  obtain ⟨y, mo, w, dd, h, mi, s⟩ := d
  simp only [] at *
  unfold isoDurValue
  simp only []
  rw [if_neg hym, hbd]
  simp only [Res.bind]
  rw [show mkBdt b.ms (b.sec + s) (b.min + mi) (b.hour + h) b.wday (b.mday + w * 7 + dd) (b.month + mo) b.yday (b.year + y) =
    ⟨b.ms, b.sec + s, b.min + mi, b.hour + h, toS16 b.wday, b.mday + w * 7 + dd, b.month + mo, toS16 b.yday, b.year + y⟩ by
      unfold mkBdt
      rw [toS16_id (x := b.ms) (by omega) (by omega), toS16_id (x := b.sec + _) (by omega) (by omega), toS16_id (x := b.min + _) (by omega) (by omega),
        toS16_id (x := b.hour + _) (by omega) (by omega), toS16_id (x := b.mday + w * 7 + dd) (by omega) (by omega), toS16_id (x := b.month + mo) (by omega) (by omega),
        toS16_id (x := b.year + y) (by omega) (by omega)]]
  rw [fromBrokenDown_value hf 0 _ (by simp only []; omega) (n := n) hn]
  simp only []
  rw [if_neg (by omega)]
  simp only [timeDiff]
  congr 1
  omega

/-- A month from 31 January 2023 leads to "31 February", 3 March. -/
example : durFromIso "P1M".toList 1675123200000 = .ok (31 * 86400000000) := by decide +kernel

/-- C93 is violated by a base on 29 February: one year comes back with a day more. -/
theorem durIso_leap_violated : durToIso (365 * 86400000000) (some 1582934400000) = .ok "P1Y".toList ∧
    durFromIso "P1Y".toList 1582934400000 = .ok (366 * 86400000000) := by decide +kernel

/-- C93 is violated by 65536 days. -/
theorem durIso_days_violated : durToIso (65536 * 86400000000) (some 0) = .ok "PT0S".toList := by decide +kernel

end Verif.Time
