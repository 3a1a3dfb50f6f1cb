import Verif.Time.IsoProps

/-! C94: the text of a duration in a format. -/

namespace Verif.Time

open Verif.Str

/-! ### Specification -/

/-- A piece of a format: a plain character, an escaped one, hours, minutes or seconds (with two letters: at least two digits), or the fraction of the
second to `n + 1` digits. -/
inductive Piece where
  | plain (c : Char)
  | escaped (c : Char)
  | hours (two : Bool)
  | minutes (two : Bool)
  | seconds (two : Bool)
  | fraction (n : Nat)
deriving DecidableEq, Repr

/-- How it is written. -/
def Piece.text : Piece → List Char
  | .plain c => [c]
  | .escaped c => ['\\', c]
  | .hours two => if two then ['h', 'h'] else ['h']
  | .minutes two => if two then ['m', 'm'] else ['m']
  | .seconds two => if two then ['s', 's'] else ['s']
  | .fraction n => List.replicate (n + 1) 'l'

/-- The format of pieces. -/
def formatOf (ps : List Piece) : List Char := ps.flatMap Piece.text

/-- The letter that must not follow a piece. -/
def Piece.open? : Piece → Option Char
  | .hours false => some 'h'
  | .minutes false => some 'm'
  | .seconds false => some 's'
  | .fraction _ => some 'l'
  | _ => none

/-- Plain characters are not special, the letters of units are not escaped, and no piece runs into the next. -/
def Unambiguous : List Piece → Prop
  | [] => True
  | p :: ps => (∀ c, p = .plain c → c ∉ ['\\', 'h', 'm', 's', 'l']) ∧ (∀ c, p = .escaped c → c ∉ ['h', 'm', 's', 'l']) ∧
      (∀ c, p.open? = some c → (formatOf ps).head? ≠ some c) ∧ Unambiguous ps

/-- The format has hours; minutes; seconds. -/
def hasHours (ps : List Piece) : Bool := ps.any fun p => match p with | .hours _ => true | _ => false
def hasMinutes (ps : List Piece) : Bool := ps.any fun p => match p with | .minutes _ => true | _ => false
def hasSeconds (ps : List Piece) : Bool := ps.any fun p => match p with | .seconds _ => true | _ => false

/-- The digits of the longest fraction. -/
def precision (ps : List Piece) : Nat := ps.foldl (fun a p => match p with | .fraction n => max a (n + 1) | _ => a) 0

/-- A number, with at least `w` digits. -/
def number (w : Nat) (v : Int) : List Char := padZero w (digits s64 v)

/-- The sign is written if what is visible of the duration is not zero. -/
def showsMinus (us : Int) (ps : List Piece) : Bool := us < 0 ∧ 10 ^ (6 - min (precision ps) 6) ≤ (us.natAbs : Int)

/-- What a piece prints: the largest unit takes all, smaller units the rest; the sign stands before the largest unit. -/
def Piece.print (us : Int) (ps : List Piece) : Piece → List Char
  | .plain c => [c]
  | .escaped c => [c]
  | .hours two => (if showsMinus us ps then ['-'] else []) ++ number (if two then 2 else 0) (us.natAbs / 3600000000)
  | .minutes two => (if ¬ hasHours ps ∧ showsMinus us ps then ['-'] else []) ++
      number (if two then 2 else 0) (if hasHours ps then us.natAbs / 60000000 % 60 else us.natAbs / 60000000)
  | .seconds two => (if ¬ hasHours ps ∧ ¬ hasMinutes ps ∧ showsMinus us ps then ['-'] else []) ++
      number (if two then 2 else 0) (us.natAbs / 1000000 % 60)
  | .fraction n => (if ¬ hasHours ps ∧ ¬ hasMinutes ps ∧ ¬ hasSeconds ps ∧ showsMinus us ps then ['-'] else []) ++
      number (min (n + 1) 6) (us.natAbs % 1000000 / 10 ^ (6 - min (n + 1) 6))

/-! ### The first loop -/

/-- The scan of pieces. -/
def scanPieces : List Piece → FormatScan → FormatScan
  | [], s => s
  | .hours _ :: ps, s => scanPieces ps { s with hasHours := true }
  | .minutes _ :: ps, s => scanPieces ps { s with hasMinutes := true }
  | .seconds _ :: ps, s => scanPieces ps { s with hasSeconds := true }
  | .fraction n :: ps, s => scanPieces ps { s with maxPrecision := max s.maxPrecision (n + 1) }
  | _ :: ps, s => scanPieces ps s

theorem replicate_l (n : Nat) {rest : List Char} (h : rest.head? ≠ some 'l') :
    (List.replicate n 'l' ++ rest).dropWhile (· = 'l') = rest ∧ ((List.replicate n 'l' ++ rest).takeWhile (· = 'l')).length = n := by
  induction n with
  | zero =>
    cases rest with
    | nil => exact ⟨rfl, rfl⟩
    | cons c r =>
      have hc : ¬ c = 'l' := fun e => h (by rw [e]; rfl)
      simp [hc]
  | succ n ih =>
    rw [List.replicate_succ, List.cons_append, List.dropWhile_cons, List.takeWhile_cons]
    simp only [decide_true, if_true, List.length_cons]
    exact ⟨ih.1, by rw [ih.2]⟩

theorem scan_skip {fuel : Nat} {c : Char} {rest : List Char} {s : FormatScan} (h : c ∉ ['h', 'm', 's', 'l']) :
    scanFormat (fuel + 1) (c :: rest) s = scanFormat fuel rest s := by
  simp only [List.mem_cons, List.not_mem_nil, or_false, not_or] at h
  simp only [scanFormat, h.1, h.2.1, h.2.2.1, h.2.2.2, if_false]

theorem scan_pieces (ps : List Piece) : ∀ (s : FormatScan) (fuel : Nat), Unambiguous ps → (formatOf ps).length ≤ fuel →
    scanFormat fuel (formatOf ps) s = scanPieces ps s := by
  induction ps with
  | nil => intro s fuel _ _; cases fuel <;> rfl
  | cons p ps ih =>
    intro s fuel hg hf
    obtain ⟨g1, g2, g3, g4⟩ := hg
    have e : formatOf (p :: ps) = p.text ++ formatOf ps := rfl
    rw [e] at hf ⊢
    rw [List.length_append] at hf
    cases p with
    | plain c =>
      have hc := g1 c rfl
      simp only [Piece.text, List.length_cons, List.length_nil] at hf
      obtain ⟨fuel, rfl⟩ : ∃ k, fuel = k + 1 := ⟨fuel - 1, by omega⟩
      simp only [Piece.text, List.singleton_append]
      rw [scan_skip (fun h => hc (List.mem_cons_of_mem _ h)), ih s fuel g4 (by omega)]
      rfl
    | escaped c =>
      have hc := g2 c rfl
      simp only [Piece.text, List.length_cons, List.length_nil] at hf
      obtain ⟨fuel, rfl⟩ : ∃ k, fuel = k + 1 + 1 := ⟨fuel - 2, by omega⟩
      simp only [Piece.text, List.cons_append, List.nil_append]
      rw [scan_skip (by decide), scan_skip hc, ih s fuel g4 (by omega)]
      rfl
    | hours two =>
      cases two with
      | false =>
        simp only [Piece.text, Bool.false_eq_true, if_false, List.length_cons, List.length_nil] at hf
        obtain ⟨fuel, rfl⟩ : ∃ k, fuel = k + 1 := ⟨fuel - 1, by omega⟩
        simp only [Piece.text, Bool.false_eq_true, if_false, List.singleton_append, scanFormat, if_true]
        rw [ih _ fuel g4 (by omega)]
        rfl
      | true =>
        simp only [Piece.text, if_true, List.length_cons, List.length_nil] at hf
        obtain ⟨fuel, rfl⟩ : ∃ k, fuel = k + 1 + 1 := ⟨fuel - 2, by omega⟩
        simp only [Piece.text, List.cons_append, List.nil_append, scanFormat, if_true]
        rw [ih _ fuel g4 (by omega)]
        rfl
    | minutes two =>
      have h1 : ¬ ('m' = 'h') := by decide
      cases two with
      | false =>
        simp only [Piece.text, Bool.false_eq_true, if_false, List.length_cons, List.length_nil] at hf
        obtain ⟨fuel, rfl⟩ : ∃ k, fuel = k + 1 := ⟨fuel - 1, by omega⟩
        simp only [Piece.text, Bool.false_eq_true, if_false, List.singleton_append, scanFormat, if_true, h1]
        rw [ih _ fuel g4 (by omega)]
        rfl
      | true =>
        simp only [Piece.text, if_true, List.length_cons, List.length_nil] at hf
        obtain ⟨fuel, rfl⟩ : ∃ k, fuel = k + 1 + 1 := ⟨fuel - 2, by omega⟩
        simp only [Piece.text, List.cons_append, List.nil_append, scanFormat, if_true, h1, if_false]
        rw [ih _ fuel g4 (by omega)]
        rfl
    | seconds two =>
      have h1 : ¬ ('s' = 'h') := by decide
      have h2 : ¬ ('s' = 'm') := by decide
      cases two with
      | false =>
        simp only [Piece.text, Bool.false_eq_true, if_false, List.length_cons, List.length_nil] at hf
        obtain ⟨fuel, rfl⟩ : ∃ k, fuel = k + 1 := ⟨fuel - 1, by omega⟩
        simp only [Piece.text, Bool.false_eq_true, if_false, List.singleton_append, scanFormat, if_true, h1, h2]
        rw [ih _ fuel g4 (by omega)]
        rfl
      | true =>
        simp only [Piece.text, if_true, List.length_cons, List.length_nil] at hf
        obtain ⟨fuel, rfl⟩ : ∃ k, fuel = k + 1 + 1 := ⟨fuel - 2, by omega⟩
        simp only [Piece.text, List.cons_append, List.nil_append, scanFormat, if_true, h1, h2, if_false]
        rw [ih _ fuel g4 (by omega)]
        rfl
    | fraction n =>
      have h1 : ¬ ('l' = 'h') := by decide
      have h2 : ¬ ('l' = 'm') := by decide
      have h3 : ¬ ('l' = 's') := by decide
      have hn := g3 'l' rfl
      obtain ⟨r1, r2⟩ := replicate_l n hn
      simp only [Piece.text, List.length_replicate] at hf
      obtain ⟨fuel, rfl⟩ : ∃ k, fuel = k + 1 := ⟨fuel - 1, by omega⟩
      simp only [Piece.text, List.replicate_succ, List.cons_append, scanFormat, h1, h2, h3, if_false, if_true]
      rw [r1, r2, ih _ fuel g4 (by omega), Nat.add_comm 1 n]
      rfl

theorem scanPieces_spec (ps : List Piece) : ∀ s : FormatScan, scanPieces ps s =
    ⟨s.hasHours || hasHours ps, s.hasMinutes || hasMinutes ps, s.hasSeconds || hasSeconds ps,
      ps.foldl (fun a p => match p with | .fraction n => max a (n + 1) | _ => a) s.maxPrecision⟩ := by
  induction ps with
  | nil => intro s; simp [scanPieces, hasHours, hasMinutes, hasSeconds]
  | cons p ps ih =>
    intro s
    cases p <;> simp [scanPieces, ih, hasHours, hasMinutes, hasSeconds]

/-! ### The numbers -/

theorem absI_natAbs (x : Int) : absI x = x.natAbs := by unfold absI; split <;> omega

theorem natAbs_tdiv (x d : Int) (hd : 0 ≤ d) : absI (x.tdiv d) = x.natAbs / d := by
  rw [absI_natAbs, Int.natAbs_tdiv]
  show ((x.natAbs / d.natAbs : Nat) : Int) = _
  have : ((d.natAbs : Nat) : Int) = d := by omega
  rw [Int.natCast_ediv, this]

theorem natAbs_tmod (x d : Int) (hd : 0 ≤ d) : absI (x.tmod d) = x.natAbs % d := by
  rw [absI_natAbs, Int.natAbs_tmod]
  have : ((d.natAbs : Nat) : Int) = d := by omega
  rw [Int.natCast_emod, this]

theorem usDivisor_eq {i : Nat} (h : i ≤ 6) : usDivisor i = 10 ^ (6 - i) := by
  match i, h with
  | 0, _ => rfl
  | 1, _ => rfl
  | 2, _ => rfl
  | 3, _ => rfl
  | 4, _ => rfl
  | 5, _ => rfl
  | 6, _ => rfl

theorem negative_iff (us d : Int) (hd : 0 < d) : us.tdiv d < 0 ↔ us < 0 ∧ d ≤ us.natAbs := by
  rcases Int.lt_or_le us 0 with h | h
  · obtain ⟨x, hx⟩ : ∃ x : Int, us = -x := ⟨-us, by omega⟩
    subst hx
    rw [Int.neg_tdiv, Int.tdiv_eq_ediv_of_nonneg (by omega)]
    have e : (((-x).natAbs : Nat) : Int) = x := by omega
    rw [e]
    constructor
    · intro hq
      refine ⟨h, ?_⟩
      rcases Int.lt_or_le x d with h1 | h1
      · rw [Int.ediv_eq_zero_of_lt (by omega) h1] at hq
        omega
      · exact h1
    · rintro ⟨_, h1⟩
      have := Int.le_ediv_of_mul_le hd (show 1 * d ≤ x by omega)
      omega
  · rw [Int.tdiv_eq_ediv_of_nonneg h]
    have := Int.ediv_nonneg h (show 0 ≤ d by omega)
    omega

/-- The numbers that are printed. -/
theorem durParts_spec (us : Int) (ps : List Piece) (s : FormatScan) (h1 : s.hasHours = hasHours ps) (h2 : s.maxPrecision = precision ps) :
    durParts us s = ⟨showsMinus us ps, if hasHours ps then us.natAbs / 3600000000 else 0,
      if hasHours ps then us.natAbs / 60000000 % 60 else us.natAbs / 60000000, us.natAbs / 1000000 % 60, us.natAbs % 1000000⟩ := by
  unfold durParts
  rw [h1, h2, usDivisor_eq (by omega), natAbs_tdiv us 3600000000 (by omega), natAbs_tmod us 60000000 (by omega), natAbs_tmod us 1000000 (by omega)]
  have hneg : decide (us.tdiv (10 ^ (6 - min (precision ps) 6)) < 0) = showsMinus us ps := by
    unfold showsMinus
    exact decide_eq_decide.mpr (negative_iff us _ (Int.pow_pos (by omega)))
  rw [hneg]
  have hm : ∀ x : Int, 0 ≤ x → x.tdiv 60000000 = x / 60000000 := fun x hx => Int.tdiv_eq_ediv_of_nonneg hx
  congr 1
  · by_cases hh : hasHours ps = true
    · simp only [hh, if_true]
      have e : absI (if us < 0 then us + us.natAbs / 3600000000 * 3600000000 else us - us.natAbs / 3600000000 * 3600000000) = us.natAbs % 3600000000 := by
        unfold absI
        by_cases hu : us < 0
        · simp only [hu, if_true]
          split <;> omega
        · simp only [hu, if_false]
          split <;> omega
      rw [e, hm _ (by omega)]
      omega
    · simp only [hh, if_false]
      have e : absI (if us < 0 then us + 0 * 3600000000 else us - 0 * 3600000000) = us.natAbs := by
        rw [Int.zero_mul, Int.add_zero, Int.sub_zero, ite_self, absI_natAbs]
      simp only [Bool.false_eq_true, if_false]
      rw [e, hm _ (by omega)]
  · rw [Int.tdiv_eq_ediv_of_nonneg (by omega)]
    omega

/-! ### The second loop -/

theorem print_pieces (us : Int) (all : List Piece) (s : FormatScan) (hs1 : s.hasHours = hasHours all) (hs2 : s.hasMinutes = hasMinutes all)
    (hs3 : s.hasSeconds = hasSeconds all) (p : DurParts)
    (hp : p = ⟨showsMinus us all, if hasHours all then us.natAbs / 3600000000 else 0,
      if hasHours all then us.natAbs / 60000000 % 60 else us.natAbs / 60000000, us.natAbs / 1000000 % 60, us.natAbs % 1000000⟩)
    (ps : List Piece) : ∀ (fuel : Nat) (out : List Char), (∀ q ∈ ps, q ∈ all) → Unambiguous ps → (formatOf ps).length ≤ fuel →
    printFormat s p fuel (formatOf ps) out = some (out ++ ps.flatMap (Piece.print us all)) := by
  induction ps with
  | nil => intro fuel out _ _ _; cases fuel <;> simp [formatOf, printFormat]
  | cons q ps ih =>
    intro fuel out hin hg hf
    obtain ⟨g1, g2, g3, g4⟩ := hg
    have e : formatOf (q :: ps) = q.text ++ formatOf ps := rfl
    rw [e] at hf ⊢
    rw [List.length_append] at hf
    have ih' := fun fuel out hf => ih fuel out (fun x hx => hin x (List.mem_cons_of_mem _ hx)) g4 hf
    have hq := hin q List.mem_cons_self
    rw [List.flatMap_cons, ← List.append_assoc]
    have pad0 : ∀ v, number 0 v = digits s64 v := fun v => by simp [number, padZero]
    have hh : ∀ {two}, q = .hours two → hasHours all = true := by
      intro two he
      unfold hasHours
      rw [List.any_eq_true]
      exact ⟨q, hq, by rw [he]⟩
    cases q with
    | plain c =>
      have hc := g1 c rfl
      simp only [List.mem_cons, List.not_mem_nil, or_false, not_or] at hc
      simp only [Piece.text, List.length_cons, List.length_nil] at hf
      obtain ⟨fuel, rfl⟩ : ∃ k, fuel = k + 1 := ⟨fuel - 1, by omega⟩
      simp only [Piece.text, List.singleton_append, printFormat, hc.1, hc.2.1, hc.2.2.1, hc.2.2.2.1, hc.2.2.2.2, if_false]
      rw [ih' fuel _ (by omega)]
      rfl
    | escaped c =>
      simp only [Piece.text, List.length_cons, List.length_nil] at hf
      obtain ⟨fuel, rfl⟩ : ∃ k, fuel = k + 1 := ⟨fuel - 1, by omega⟩
      simp only [Piece.text, List.cons_append, List.nil_append, printFormat, if_true]
      rw [ih' fuel _ (by omega)]
      rfl
    | hours two =>
      have h1 : ¬ ('h' = '\\') := by decide
      have hhr := hh rfl
      cases two with
      | false =>
        have hn := g3 'h' rfl
        simp only [Piece.text, Bool.false_eq_true, if_false, List.length_cons, List.length_nil] at hf
        obtain ⟨fuel, rfl⟩ : ∃ k, fuel = k + 1 := ⟨fuel - 1, by omega⟩
        simp only [Piece.text, Bool.false_eq_true, if_false, List.singleton_append, printFormat, h1, if_true, hn]
        rw [ih' fuel _ (by omega), hp]
        simp only [Piece.print, if_pos hhr, if_true, Bool.false_eq_true, if_false, pad0, signText, List.append_assoc]
      | true =>
        simp only [Piece.text, if_true, List.length_cons, List.length_nil] at hf
        obtain ⟨fuel, rfl⟩ : ∃ k, fuel = k + 1 := ⟨fuel - 1, by omega⟩
        simp only [Piece.text, if_true, List.cons_append, List.nil_append, printFormat, h1, if_false, List.head?_cons, List.tail_cons]
        rw [ih' fuel _ (by omega), hp]
        simp only [Piece.print, if_pos hhr, if_true, number, signText, List.append_assoc]
    | minutes two =>
      have h1 : ¬ ('m' = '\\') := by decide
      have h2 : ¬ ('m' = 'h') := by decide
      have hsg : signText (!s.hasHours && p.negative) = if ¬ (hasHours all = true) ∧ showsMinus us all = true then ['-'] else [] := by
        rw [hp, hs1]
        unfold signText
        simp
      cases two with
      | false =>
        have hn := g3 'm' rfl
        simp only [Piece.text, Bool.false_eq_true, if_false, List.length_cons, List.length_nil] at hf
        obtain ⟨fuel, rfl⟩ : ∃ k, fuel = k + 1 := ⟨fuel - 1, by omega⟩
        simp only [Piece.text, Bool.false_eq_true, if_false, List.singleton_append, printFormat, h1, h2, if_true, hn]
        rw [ih' fuel _ (by omega), hsg, hp]
        simp only [Piece.print, Bool.false_eq_true, if_false, pad0, List.append_assoc]
      | true =>
        simp only [Piece.text, if_true, List.length_cons, List.length_nil] at hf
        obtain ⟨fuel, rfl⟩ : ∃ k, fuel = k + 1 := ⟨fuel - 1, by omega⟩
        simp only [Piece.text, if_true, List.cons_append, List.nil_append, printFormat, h1, h2, if_false, List.head?_cons, List.tail_cons]
        rw [ih' fuel _ (by omega), hsg, hp]
        simp only [Piece.print, if_true, number, List.append_assoc]
    | seconds two =>
      have h1 : ¬ ('s' = '\\') := by decide
      have h2 : ¬ ('s' = 'h') := by decide
      have h3 : ¬ ('s' = 'm') := by decide
      have hsg : signText (!s.hasHours && !s.hasMinutes && p.negative) =
          if ¬ (hasHours all = true) ∧ ¬ (hasMinutes all = true) ∧ showsMinus us all = true then ['-'] else [] := by
        rw [hp, hs1, hs2]
        unfold signText
        simp [and_assoc]
      cases two with
      | false =>
        have hn := g3 's' rfl
        simp only [Piece.text, Bool.false_eq_true, if_false, List.length_cons, List.length_nil] at hf
        obtain ⟨fuel, rfl⟩ : ∃ k, fuel = k + 1 := ⟨fuel - 1, by omega⟩
        simp only [Piece.text, Bool.false_eq_true, if_false, List.singleton_append, printFormat, h1, h2, h3, if_true, hn]
        rw [ih' fuel _ (by omega), hsg, hp]
        simp only [Piece.print, Bool.false_eq_true, if_false, pad0, List.append_assoc]
      | true =>
        simp only [Piece.text, if_true, List.length_cons, List.length_nil] at hf
        obtain ⟨fuel, rfl⟩ : ∃ k, fuel = k + 1 := ⟨fuel - 1, by omega⟩
        simp only [Piece.text, if_true, List.cons_append, List.nil_append, printFormat, h1, h2, h3, if_false, List.head?_cons, List.tail_cons]
        rw [ih' fuel _ (by omega), hsg, hp]
        simp only [Piece.print, if_true, number, List.append_assoc]
    | fraction n =>
      have h1 : ¬ ('l' = '\\') := by decide
      have h2 : ¬ ('l' = 'h') := by decide
      have h3 : ¬ ('l' = 'm') := by decide
      have h4 : ¬ ('l' = 's') := by decide
      have hsg : signText (!s.hasHours && !s.hasMinutes && !s.hasSeconds && p.negative) =
          if ¬ (hasHours all = true) ∧ ¬ (hasMinutes all = true) ∧ ¬ (hasSeconds all = true) ∧ showsMinus us all = true then ['-'] else [] := by
        rw [hp, hs1, hs2, hs3]
        unfold signText
        simp [and_assoc]
      have hn := g3 'l' rfl
      obtain ⟨r1, r2⟩ := replicate_l n hn
      simp only [Piece.text, List.length_replicate] at hf
      obtain ⟨fuel, rfl⟩ : ∃ k, fuel = k + 1 := ⟨fuel - 1, by omega⟩
      simp only [Piece.text, List.replicate_succ, List.cons_append, printFormat, h1, h2, h3, h4, if_false, if_true]
      rw [r1, r2, ih' fuel _ (by omega), hsg, hp, Nat.add_comm 1 n]
      simp only [Piece.print, number, List.append_assoc]
      rw [usDivisor_eq (by omega), Int.tdiv_eq_ediv_of_nonneg (by omega)]

/-- C94.  In a format whose pieces are unambiguous, `ToString` prints each piece as specified: the largest unit of the format takes all of the duration, the others what is left. -/
theorem durToString_pieces_partial (us : Int) (ps : List Piece) (hne : ps ≠ []) (hg : Unambiguous ps) :
    durToString us (formatOf ps) = some (ps.flatMap (Piece.print us ps)) := by
  have hfne : formatOf ps ≠ [] := by
    cases ps with
    | nil => exact absurd rfl hne
    | cons p ps =>
      have e : formatOf (p :: ps) = p.text ++ formatOf ps := rfl
      rw [e]
      cases p with
      | hours t => cases t <;> simp [Piece.text]
      | minutes t => cases t <;> simp [Piece.text]
      | seconds t => cases t <;> simp [Piece.text]
      | _ => simp [Piece.text, List.replicate_succ]
  unfold durToString
  rw [if_neg hfne, scan_pieces ps _ _ hg (Nat.le_refl _), scanPieces_spec]
  simp only [Bool.false_or]
  rw [print_pieces us ps _ rfl rfl rfl _ (durParts_spec us ps _ rfl rfl) ps _ _ (fun _ h => h) hg (Nat.le_refl _)]
  rfl

/-- The pieces of `"hh:mm:ss.lll"`. -/
def clockPieces : List Piece := [.hours true, .plain ':', .minutes true, .plain ':', .seconds true, .plain '.', .fraction 2]

example : formatOf clockPieces = "hh:mm:ss.lll".toList ∧ Unambiguous clockPieces := by
  refine ⟨by decide, ?_⟩
  simp [clockPieces, Unambiguous, Piece.open?, formatOf, Piece.text, List.replicate]

example : durToString (-5430500000) "h\\:mm:ss.lll".toList = some "-1:30:30.500".toList ∧ durToString 5430500000 "m:ss".toList = some "90:30".toList := by decide +kernel

/-- C94.  Without a format the text is that of `"hh:mm:ss.lll"`. -/
theorem durDefault_format (us : Int) : durToString us [] = durToString us "hh:mm:ss.lll".toList := by
  have h := durToString_pieces_partial us clockPieces (by decide) (by simp [clockPieces, Unambiguous, Piece.open?, formatOf, Piece.text, List.replicate])
  have e : formatOf clockPieces = "hh:mm:ss.lll".toList := by decide
  rw [← e, h]
  unfold durToString
  rw [if_pos rfl]
  congr 1
  have hms : absI (durMs us) = us.natAbs / 1000 := natAbs_tdiv us 1000 (by omega)
  have hneg : (durMs us < 0) ↔ showsMinus us clockPieces = true := by
    unfold showsMinus durMs
    rw [decide_eq_true_iff]
    exact negative_iff us 1000 (by omega)
  have hh : hasHours clockPieces = true := rfl
  unfold durDefaultText
  rw [hms, Int.tdiv_eq_ediv_of_nonneg (by omega), Int.tmod_eq_emod_of_nonneg (by omega), Int.tmod_eq_emod_of_nonneg (by omega), Int.tmod_eq_emod_of_nonneg (by omega),
    Int.tdiv_eq_ediv_of_nonneg (by omega), Int.tdiv_eq_ediv_of_nonneg (by omega)]
  have e1 : (us.natAbs : Int) / 1000 / 3600000 = us.natAbs / 3600000000 := by omega
  have e2 : (us.natAbs : Int) / 1000 % 3600000 / 60000 = us.natAbs / 60000000 % 60 := by omega
  have e3 : (us.natAbs : Int) / 1000 % 60000 / 1000 = us.natAbs / 1000000 % 60 := by omega
  have e4 : (us.natAbs : Int) / 1000 % 1000 = us.natAbs % 1000000 / 1000 := by omega
  rw [e1, e2, e3, e4]
  have hsg : (if durMs us < 0 then ['-'] else ([] : List Char)) = if showsMinus us clockPieces = true then ['-'] else [] := by
    by_cases hn : durMs us < 0
    · rw [if_pos hn, if_pos (hneg.mp hn)]
    · rw [if_neg hn, if_neg (fun h => hn (hneg.mpr h))]
  rw [hsg]
  have hm : hasMinutes clockPieces = true := rfl
  have hs : hasSeconds clockPieces = true := rfl
  have hpw : (10 : Int) ^ (6 - min (2 + 1) 6) = 1000 := rfl
  have hmn : min (2 + 1) 6 = 3 := rfl
  simp only [clockPieces, List.flatMap_cons, List.flatMap_nil, Piece.print]
  simp only [show hasHours [.hours true, .plain ':', .minutes true, .plain ':', .seconds true, .plain '.', .fraction 2] = true from rfl, if_true, not_true_eq_false, false_and, if_false,
    hpw, hmn, List.nil_append, List.append_nil, number, List.append_assoc, List.cons_append]
  rfl

/-- C94.  The default text determines the milliseconds of the duration: it is `[-]h:m:s.l` with these numbers. -/
theorem durDefault_value {us : Int} (h1 : -9223372036854775808 < us) (h2 : us ≤ 9223372036854775807) :
    ∃ a b c d h m s l, durDefaultText us = (if durMs us < 0 then ['-'] else []) ++ a ++ ':' :: (b ++ ':' :: (c ++ '.' :: d)) ∧
      Numeral a h ∧ Numeral b m ∧ Numeral c s ∧ Numeral d l ∧ 2 ≤ a.length ∧ b.length = 2 ∧ c.length = 2 ∧ d.length = 3 ∧
      (durMs us).natAbs = h * 3600000 + m * 60000 + s * 1000 + l ∧ m < 60 ∧ s < 60 ∧ l < 1000 := by
  have s64_ok : s64.Ok := (int_types_ok s64 (by simp)).1
  have hms : absI (durMs us) = us.natAbs / 1000 := natAbs_tdiv us 1000 (by omega)
  have hna : ((durMs us).natAbs : Int) = us.natAbs / 1000 := by rw [← absI_natAbs, hms]
  have num : ∀ v : Int, 0 ≤ v → v ≤ us.natAbs → Numeral (digits s64 v) v := fun v hv0 hv => (numeral_digits s64_ok (by decide) hv0 (show v ≤ 9223372036854775807 by omega)).1
  have lenle : ∀ (w : Nat) (s : List Char), w ≤ (padZero w s).length := by
    intro w s; unfold padZero; rw [List.length_append, List.length_replicate]; omega
  have lenEq : ∀ (w : Nat) (v : Int), 1 ≤ w → 0 ≤ v → v ≤ us.natAbs → v < 10 ^ w → (padZero w (digits s64 v)).length = w := by
    intro w v hw hv0 hv hlt
    obtain ⟨hn, hz⟩ := numeral_digits s64_ok (by decide) hv0 (show v ≤ 9223372036854775807 by omega)
    have := numeral_no_longer hn hz hw hlt
    unfold padZero
    rw [List.length_append, List.length_replicate]
    omega
  refine ⟨padZero 2 (digits s64 (us.natAbs / 1000 / 3600000)), padZero 2 (digits s64 (us.natAbs / 1000 % 3600000 / 60000)),
    padZero 2 (digits s64 (us.natAbs / 1000 % 60000 / 1000)), padZero 3 (digits s64 (us.natAbs / 1000 % 1000)),
    us.natAbs / 1000 / 3600000, us.natAbs / 1000 % 3600000 / 60000, us.natAbs / 1000 % 60000 / 1000, us.natAbs / 1000 % 1000, ?_, ?_, ?_, ?_, ?_, ?_, ?_, ?_, ?_, ?_, ?_, ?_, ?_⟩
  · unfold durDefaultText
    rw [hms, Int.tdiv_eq_ediv_of_nonneg (by omega), Int.tmod_eq_emod_of_nonneg (by omega), Int.tmod_eq_emod_of_nonneg (by omega), Int.tmod_eq_emod_of_nonneg (by omega),
      Int.tdiv_eq_ediv_of_nonneg (by omega), Int.tdiv_eq_ediv_of_nonneg (by omega)]
  · exact (num _ (by omega) (by omega)).pad 2
  · exact (num _ (by omega) (by omega)).pad 2
  · exact (num _ (by omega) (by omega)).pad 2
  · exact (num _ (by omega) (by omega)).pad 3
  · exact lenle 2 _
  · exact lenEq 2 _ (by omega) (by omega) (by omega) (by omega)
  · exact lenEq 2 _ (by omega) (by omega) (by omega) (by omega)
  · exact lenEq 3 _ (by omega) (by omega) (by omega) (by omega)
  · omega
  · omega
  · omega
  · omega

example : durDefaultText (-360061001999) = "-100:01:01.001".toList := by decide +kernel

/-- C94 is violated by formats with seconds but no minutes: the minutes and hours are lost. -/
theorem dur_seconds_violated : durToString 90000000 "s".toList = some "30".toList := by decide +kernel

/-- C94 is violated by escaped letters of units: they count as units, so that the hours and the sign are lost. -/
theorem dur_escape_violated : durToString (-5400000000) "mm\\h".toList = some "30h".toList ∧ durToString (-5400000000) "mmH".toList = some "-90H".toList := by decide +kernel

end Verif.Time
