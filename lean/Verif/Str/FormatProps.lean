import Verif.Str.Format
import Verif.Str.ParseProps
import Verif.Num.DecimalTextProps

/-! C111: `StringFormat`. -/

namespace Verif.Str

/-- A piece of a format: a character, `%%`, or the argument `index` (from 1), written with the text `number`, and with the width written after `$`, if any. -/
inductive Piece where
  | char (c : Char)
  | percent
  | arg (number : List Char) (width : Option (List Char))
deriving DecidableEq, Repr

/-- The text of a piece in the format. -/
def Piece.text : Piece → List Char
  | .char c => [c]
  | .percent => ['%', '%']
  | .arg n none => '%' :: n ++ ['%']
  | .arg n (some w) => '%' :: n ++ '$' :: w ++ ['%']

/-- The text padded with zeros to a width. -/
def padded (w : Nat) (s : List Char) : List Char := List.replicate (w - s.length) '0' ++ s

/-- The number is written as `text`. -/
def Denotes (text : List Char) (n : Nat) : Prop := fromText u64 text = .ok n

/-- What a piece stands for. -/
inductive Stands (args : List (List Char)) : Piece → List Char → Prop
  | char {c : Char} : c ≠ '%' → Stands args (.char c) [c]
  | percent : Stands args .percent ['%']
  | arg {n s : List Char} {i : Nat} : Denotes n (i + 1) → args[i]? = some s → Stands args (.arg n none) s
  | wide {n w s : List Char} {i k : Nat} : Denotes n (i + 1) → Denotes w k → args[i]? = some s → Stands args (.arg n (some w)) (padded k s)

/-- What the pieces stand for, one after the other. -/
inductive Formats (args : List (List Char)) : List Piece → List Char → Prop
  | nil : Formats args [] []
  | cons {p : Piece} {ps : List Piece} {a b : List Char} : Stands args p a → Formats args ps b → Formats args (p :: ps) (a ++ b)

theorem formatArg_spec (args : List (List Char)) (i w : Nat) (r : List Char) : formatArg args i w = some r ↔ ∃ s, args[i]? = some s ∧ r = padded w s := by
  unfold formatArg
  cases args[i]? with
  | none => simp
  | some s =>
    simp only [Option.some.injEq]
    have e : padded w s = if w = 0 then s else if s.length < w then List.replicate (w - s.length) '0' ++ s else s := by
      unfold padded
      by_cases h : w = 0
      · simp [h]
      · rw [if_neg h]
        by_cases h2 : s.length < w
        · rw [if_pos h2]
        · rw [if_neg h2]
          have : w - s.length = 0 := by omega
          simp [this]
    constructor
    · intro h
      refine ⟨s, rfl, ?_⟩
      rw [e]
      by_cases h1 : w = 0
      · simp only [h1, if_true] at h ⊢; injection h with h; exact h.symm
      · by_cases h2 : s.length < w
        · simp only [h1, h2, if_true, if_false] at h ⊢; injection h with h; exact h.symm
        · simp only [h1, h2, if_false] at h ⊢; injection h with h; exact h.symm
    · rintro ⟨s', rfl, rfl⟩
      rw [e]
      by_cases h1 : w = 0
      · simp only [h1, if_true]
      · by_cases h2 : s.length < w
        · simp only [h1, h2, if_true, if_false]
        · simp only [h1, h2, if_false]

theorem fromText_nonneg {s : List Char} {v : Int} (h : fromText u64 s = .ok v) : 0 ≤ v := by
  cases s with
  | nil => cases h
  | cons c cs =>
    have ok : u64.Ok := (int_types_ok u64 (by simp)).1
    by_cases hs : c = '-' ∨ c = '+'
    · by_cases hd : cs.all isDigit = true
      · by_cases he : cs = []
        · subst he
          rcases hs with rfl | rfl
          · rw [(sign_alone_violated u64).1] at h; cases h; omega
          · rw [(sign_alone_violated u64).2] at h; cases h; omega
        · rcases hs with rfl | rfl
          · rw [fromText_negative ok he hd] at h
            have : u64.signed = false := rfl
            rw [this] at h
            simp at h
          · rw [(fromText_digits ok he hd).2] at h
            split at h
            · injection h with h; rw [← h]; exact Num.decimal_nonneg hd
            · cases h
      · rw [(fromText_refused u64).2 c cs (fun _ => by simpa using hd) (fun h1 h2 => absurd hs (by simp [h1, h2]))] at h
        cases h
    · by_cases hd : (c :: cs).all isDigit = true
      · rw [(fromText_digits ok (by simp) hd).1] at h
        split at h
        · injection h with h; rw [← h]; exact Num.decimal_nonneg hd
        · cases h
      · rw [(fromText_refused u64).2 c cs (fun h1 => absurd h1 hs) (fun _ _ => by simpa using hd)] at h
        cases h

theorem formatNumber_spec (s : List Char) (n : Nat) : formatNumber s = some n ↔ Denotes s n := by
  unfold formatNumber Denotes
  cases h : fromText u64 s with
  | ok v =>
    have := fromText_nonneg h
    simp only [Option.some.injEq, Parsed.ok.injEq]
    omega
  | _ => simp

theorem denotes_chars {s : List Char} {n : Nat} (h : Denotes s n) : s ≠ [] ∧ '%' ∉ s ∧ '$' ∉ s := by
  refine ⟨?_, ?_, ?_⟩
  · rintro rfl; cases h
  · intro hc
    rcases Num.fromText_chars h _ hc with h1 | h1 | h1
    · exact absurd h1 (by decide)
    · cases h1
    · cases h1
  · intro hc
    rcases Num.fromText_chars h _ hc with h1 | h1 | h1
    · exact absurd h1 (by decide)
    · cases h1
    · cases h1

theorem takeWhile_all {x : List Char} {d : Char} (h : d ∉ x) : x.takeWhile (· ≠ d) = x ∧ x.dropWhile (· ≠ d) = [] := by
  induction x with
  | nil => exact ⟨rfl, rfl⟩
  | cons a l ih =>
    simp only [List.mem_cons, not_or] at h
    obtain ⟨h1, h2⟩ := ih h.2
    have : decide (a ≠ d) = true := by simp [Ne.symm h.1]
    exact ⟨by rw [List.takeWhile_cons]; simp only [this, if_true, h1], by rw [List.dropWhile_cons]; simp only [this, if_true, h2]⟩

theorem takeWhile_cut {x y : List Char} {d : Char} (h : d ∉ x) : (x ++ d :: y).takeWhile (· ≠ d) = x ∧ (x ++ d :: y).dropWhile (· ≠ d) = d :: y := by
  induction x with
  | nil => simp
  | cons a l ih =>
    simp only [List.mem_cons, not_or] at h
    obtain ⟨h1, h2⟩ := ih h.2
    have : decide (a ≠ d) = true := by simp [Ne.symm h.1]
    rw [List.cons_append]
    exact ⟨by rw [List.takeWhile_cons]; simp only [this, if_true, h1], by rw [List.dropWhile_cons]; simp only [this, if_true, h2]⟩

theorem cut_cases (x : List Char) (d : Char) : (d ∉ x ∧ x.takeWhile (· ≠ d) = x ∧ x.dropWhile (· ≠ d) = []) ∨
    ∃ a b, x = a ++ d :: b ∧ d ∉ a ∧ x.takeWhile (· ≠ d) = a ∧ x.dropWhile (· ≠ d) = d :: b := by
  by_cases h : d ∈ x
  · obtain ⟨a, b, rfl, hn⟩ := List.eq_append_cons_of_mem h
    obtain ⟨h1, h2⟩ := takeWhile_cut (y := b) hn
    exact Or.inr ⟨a, b, rfl, hn, h1, h2⟩
  · exact Or.inl ⟨h, takeWhile_all h⟩

/-- The text between percent signs is that of an argument. -/
theorem formatPlace_spec (args : List (List Char)) (body r : List Char) : formatPlace args body = some r ↔
    ∃ n w, (Piece.arg n w).text = '%' :: body ++ ['%'] ∧ Stands args (.arg n w) r := by
  constructor
  · intro h
    unfold formatPlace at h
    rcases cut_cases body '$' with ⟨hn, h1, h2⟩ | ⟨a, b, hb, hn, h1, h2⟩
    · rw [h1, h2] at h
      by_cases he : body.isEmpty = true
      · rw [if_pos he] at h; cases h
      · rw [if_neg he] at h
        cases hf : formatNumber body with
        | none => rw [hf] at h; cases h
        | some i =>
          rw [hf] at h
          simp only [] at h
          by_cases hi : i = 0
          · rw [if_pos hi] at h; cases h
          · rw [if_neg hi] at h
            obtain ⟨s, h3, rfl⟩ := (formatArg_spec _ _ _ _).mp h
            obtain ⟨j, rfl⟩ : ∃ j, i = j + 1 := ⟨i - 1, by omega⟩
            refine ⟨body, none, rfl, ?_⟩
            have : padded 0 s = s := by simp [padded]
            rw [this]
            exact .arg ((formatNumber_spec _ _).mp hf) h3
    · rw [h1, h2] at h
      by_cases he : a.isEmpty = true
      · rw [if_pos he] at h; cases h
      · rw [if_neg he] at h
        cases hf : formatNumber a with
        | none => rw [hf] at h; cases h
        | some i =>
          rw [hf] at h
          simp only [] at h
          by_cases hi : i = 0
          · rw [if_pos hi] at h; cases h
          · rw [if_neg hi] at h
            by_cases hbe : b.isEmpty = true
            · rw [if_pos hbe] at h; cases h
            · rw [if_neg hbe] at h
              cases hw : formatNumber b with
              | none => rw [hw] at h; cases h
              | some w =>
                rw [hw] at h
                obtain ⟨s, h3, rfl⟩ := (formatArg_spec _ _ _ _).mp h
                obtain ⟨j, rfl⟩ : ∃ j, i = j + 1 := ⟨i - 1, by omega⟩
                refine ⟨a, some b, by rw [hb]; simp [Piece.text], ?_⟩
                exact .wide ((formatNumber_spec _ _).mp hf) ((formatNumber_spec _ _).mp hw) h3
  · rintro ⟨n, w, ht, hs⟩
    cases hs with
    | @arg _ s i hd ha =>
      have e : body = n := by
        have := (List.cons.inj ht).2
        exact (List.append_inj_left' this rfl).symm
      subst e
      obtain ⟨c1, c2, c3⟩ := denotes_chars hd
      obtain ⟨h1, h2⟩ := takeWhile_all c3
      unfold formatPlace
      rw [h1, h2, if_neg (by cases body <;> simp at c1 ⊢), (formatNumber_spec _ _).mpr hd]
      simp only []
      rw [if_neg (by omega)]
      exact (formatArg_spec _ _ _ _).mpr ⟨r, ha, by simp [padded]⟩
    | @wide _ w s i k hd hk ha =>
      have e : body = n ++ '$' :: w := by
        have := (List.cons.inj ht).2
        exact (List.append_inj_left' (t₁ := ['%']) (t₂ := ['%']) (by simpa using this) rfl).symm
      subst e
      obtain ⟨c1, c2, c3⟩ := denotes_chars hd
      obtain ⟨d1, d2, d3⟩ := denotes_chars hk
      obtain ⟨h1, h2⟩ := takeWhile_cut (y := w) c3
      unfold formatPlace
      rw [h1, h2, if_neg (by cases n <;> simp at c1 ⊢), (formatNumber_spec _ _).mpr hd]
      simp only []
      rw [if_neg (by omega), if_neg (by cases w <;> simp at d1 ⊢), (formatNumber_spec _ _).mpr hk]
      exact (formatArg_spec _ _ _ _).mpr ⟨s, ha, rfl⟩

theorem formatLoop_sound (args : List (List Char)) : ∀ (fuel : Nat) (format r : List Char), formatLoop args fuel format = some r →
    ∃ ps : List Piece, format = ps.flatMap Piece.text ∧ Formats args ps r
  | 0, _, _, h => by cases h
  | fuel + 1, [], r, h => by
    cases h
    exact ⟨[], rfl, .nil⟩
  | fuel + 1, c :: cs, r, h => by
    unfold formatLoop at h
    by_cases hc : c = '%'
    · rw [if_pos hc] at h
      subst hc
      rcases cut_cases cs '%' with ⟨hn, h1, h2⟩ | ⟨a, b, hb, hn, h1, h2⟩
      · rw [h1, h2] at h; cases h
      · rw [h1, h2] at h
        simp only [] at h
        by_cases he : a.isEmpty = true
        · rw [if_pos he, Option.map_eq_some_iff] at h
          obtain ⟨r', h3, rfl⟩ := h
          obtain ⟨ps, e, hf⟩ := formatLoop_sound args fuel b r' h3
          have ea : a = [] := by simpa using he
          refine ⟨.percent :: ps, ?_, .cons .percent hf⟩
          rw [hb, ea, e]; rfl
        · rw [if_neg he] at h
          cases hp : formatPlace args a with
          | none => rw [hp] at h; cases h
          | some t =>
            rw [hp] at h
            simp only [Option.map_eq_some_iff] at h
            obtain ⟨r', h3, rfl⟩ := h
            obtain ⟨ps, e, hf⟩ := formatLoop_sound args fuel b r' h3
            obtain ⟨n, w, ht, hst⟩ := (formatPlace_spec args a t).mp hp
            refine ⟨.arg n w :: ps, ?_, .cons hst hf⟩
            rw [List.flatMap_cons, ht, hb, e]; simp
    · rw [if_neg hc, Option.map_eq_some_iff] at h
      obtain ⟨r', h3, rfl⟩ := h
      obtain ⟨ps, e, hf⟩ := formatLoop_sound args fuel cs r' h3
      refine ⟨.char c :: ps, ?_, .cons (.char hc) hf⟩
      rw [e]; rfl

theorem formatLoop_complete {args : List (List Char)} {ps : List Piece} {r : List Char} (h : Formats args ps r) :
    ∀ fuel, (ps.flatMap Piece.text).length < fuel → formatLoop args fuel (ps.flatMap Piece.text) = some r := by
  induction h with
  | nil =>
    intro fuel hf
    cases fuel with
    | zero => simp at hf
    | succ n => rfl
  | @cons p ps a b hs _ ih =>
    intro fuel hf
    cases fuel with
    | zero => omega
    | succ fuel =>
      rw [List.flatMap_cons] at hf ⊢
      rw [List.length_append] at hf
      cases hs with
      | @char c hc =>
        show formatLoop args (fuel + 1) (c :: ps.flatMap Piece.text) = _
        unfold formatLoop
        rw [if_neg hc, ih fuel (by simp only [Piece.text, List.length_cons, List.length_append, List.length_nil] at hf; omega)]
        rfl
      | percent =>
        show formatLoop args (fuel + 1) ('%' :: '%' :: ps.flatMap Piece.text) = _
        unfold formatLoop
        rw [if_pos rfl]
        have e1 : ('%' :: ps.flatMap Piece.text).dropWhile (· ≠ '%') = '%' :: ps.flatMap Piece.text := by simp
        have e2 : ('%' :: ps.flatMap Piece.text).takeWhile (· ≠ '%') = [] := by simp
        rw [e1, e2]
        simp only [List.isEmpty_nil, if_true]
        rw [ih fuel (by simp only [Piece.text, List.length_cons, List.length_append, List.length_nil] at hf; omega)]
        rfl
      | @arg n s i hd ha =>
        obtain ⟨c1, c2, c3⟩ := denotes_chars hd
        have e : (Piece.arg n none).text ++ ps.flatMap Piece.text = '%' :: (n ++ '%' :: ps.flatMap Piece.text) := by simp [Piece.text]
        rw [e]
        unfold formatLoop
        obtain ⟨h1, h2⟩ := takeWhile_cut (y := ps.flatMap Piece.text) c2
        rw [if_pos rfl, h1, h2]
        simp only []
        rw [if_neg (by cases n <;> simp at c1 ⊢), (formatPlace_spec args n a).mpr ⟨n, none, rfl, .arg hd ha⟩]
        simp only []
        rw [ih fuel (by simp only [Piece.text, List.length_cons, List.length_append, List.length_nil] at hf; omega)]
        rfl
      | @wide n w s i k hd hk ha =>
        obtain ⟨c1, c2, c3⟩ := denotes_chars hd
        obtain ⟨d1, d2, d3⟩ := denotes_chars hk
        have e : (Piece.arg n (some w)).text ++ ps.flatMap Piece.text = '%' :: ((n ++ '$' :: w) ++ '%' :: ps.flatMap Piece.text) := by simp [Piece.text]
        have c2' : '%' ∉ n ++ '$' :: w := by
          simp only [List.mem_append, List.mem_cons, not_or]
          exact ⟨c2, by decide, d2⟩
        rw [e]
        unfold formatLoop
        obtain ⟨h1, h2⟩ := takeWhile_cut (y := ps.flatMap Piece.text) c2'
        rw [if_pos rfl, h1, h2]
        simp only []
        rw [if_neg (by cases n <;> simp), (formatPlace_spec args (n ++ '$' :: w) (padded k s)).mpr ⟨n, some w, by simp [Piece.text], .wide hd hk ha⟩]
        simp only []
        rw [ih fuel (by simp only [Piece.text, List.length_cons, List.length_append, List.length_nil] at hf; omega)]
        rfl

/-- C111.  `StringFormat` succeeds exactly if the format consists of characters other than `%`, of `%%` and of places `%i%` or `%i$w%` for arguments that exist; the result is these characters, `%`, and the
texts of the arguments, padded with zeros to the width, in this order.  Everything else is refused with an exception. -/
theorem stringFormat_spec (format : List Char) (args : List (List Char)) (r : List Char) :
    stringFormat format args = some r ↔ ∃ ps : List Piece, format = ps.flatMap Piece.text ∧ Formats args ps r := by
  constructor
  · exact formatLoop_sound args _ format r
  · rintro ⟨ps, rfl, h⟩
    exact formatLoop_complete h _ (Nat.lt_succ_self _)

/-- Text without `%` is copied. -/
theorem stringFormat_plain {s : List Char} (h : '%' ∉ s) (args : List (List Char)) : stringFormat s args = some s := by
  rw [stringFormat_spec]
  refine ⟨s.map .char, by simp [List.flatMap_map, Piece.text], ?_⟩
  induction s with
  | nil => exact .nil
  | cons c cs ih =>
    simp only [List.mem_cons, not_or] at h
    exact .cons (a := [c]) (.char (fun e => h.1 e.symm)) (ih h.2)

/-- Every number written by the library stands for its argument: the places of C81 are places of C111. -/
theorem stringFormat_place {args : List (List Char)} {i : Nat} {s : List Char} (h : args[i]? = some s) (hi : i + 1 < 2 ^ 64) :
    ∃ n, toText u64 (i + 1 : Nat) = some n ∧ stringFormat ('%' :: n ++ ['%']) args = some s := by
  have hh : u64.hi = 18446744073709551615 := rfl
  have hl : u64.lo = 0 := rfl
  obtain ⟨n, e1, e2⟩ := fromText_toText (t := u64) (v := ((i + 1 : Nat) : Int)) (int_types_ok u64 (by simp)).1 (int_types_ok u64 (by simp)).2 (by omega) (by omega)
  refine ⟨n, e1, (stringFormat_spec _ _ _).mpr ⟨[.arg n none], by simp [Piece.text], ?_⟩⟩
  have := Formats.cons (Stands.arg (args := args) (n := n) e2 h) .nil
  simpa using this

example : stringFormat "%2%-%1$4%: 100%%".toList ["17".toList, "ab".toList] = some "ab-0017: 100%".toList ∧ stringFormat "%3%".toList ["17".toList, "ab".toList] = none ∧
    stringFormat "%0%".toList ["17".toList] = none ∧ stringFormat "50% off".toList ["17".toList] = none ∧ stringFormat "%1$%".toList ["17".toList] = none := by decide +kernel

end Verif.Str
