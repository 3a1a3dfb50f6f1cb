import Verif.Util.Version
import Verif.Util.CompareProps
import Verif.Str.ParseProps
import Verif.Num.DecimalTextProps

namespace Verif.Util

open Verif.Str Verif.Order

namespace Spec

/-- Decimal digits that denote a number of 32 bits. -/
def Unsigned (s : List Char) (n : Int) : Prop := s ≠ [] ∧ (∀ c ∈ s, isDigit c = true) ∧ decimal s = n ∧ n < 2 ^ 32

/-- `major.minor` or `major.minor.build`, each number as `reads` says. -/
def Written (reads : List Char → Int → Prop) (s : List Char) (v : Version) : Prop :=
  match v.build with
  | none => ∃ a b, s = a ++ '.' :: b ∧ reads a v.major ∧ reads b v.minor
  | some n => ∃ a b c, s = a ++ '.' :: b ++ '.' :: c ∧ reads a v.major ∧ reads b v.minor ∧ reads c n

/-- The numbers of a version are values of `unsigned`. -/
def Valid (v : Version) : Prop := (0 ≤ v.major ∧ v.major < 2 ^ 32) ∧ (0 ≤ v.minor ∧ v.minor < 2 ^ 32) ∧ ∀ n, v.build = some n → 0 ≤ n ∧ n < 2 ^ 32

end Spec

open Spec

/-- What `FromString<unsigned>` reads. -/
def ReadsU32 (s : List Char) (n : Int) : Prop := Str.fromText u32 s = .ok n

theorem intLess_order : StrictWeak intLess :=
  ⟨fun a => by simp [intLess], fun a b c h1 h2 => by simp [intLess] at *; omega, fun a b c h => by simp [intLess] at *; omega⟩

/-- Versions are ordered by major, minor, build, a version without a build before those with one; versions are equal exactly if they are the same. -/
theorem version_order (a b : Version) :
    (a.less b = true ↔ a.major < b.major ∨ (a.major = b.major ∧ (a.minor < b.minor ∨ (a.minor = b.minor ∧ ∃ n, b.build = some n ∧ ∀ m, a.build = some m → m < n)))) ∧
    (a.equal b = true ↔ a = b) := by
  have less : ∀ a b : Version, a.less b = true ↔ a.major < b.major ∨ (a.major = b.major ∧ (a.minor < b.minor ∨ (a.minor = b.minor ∧ ∃ n, b.build = some n ∧ ∀ m, a.build = some m → m < n))) := by
    rintro ⟨a1, a2, a3⟩ ⟨b1, b2, b3⟩
    simp only [Version.less, cmpToLess, memberCmp, lessToCmp, intLess]
    by_cases h1 : a1 < b1
    · simp [h1]
    · by_cases h1' : b1 < a1
      · simp [h1, h1']; omega
      · have e1 : a1 = b1 := by omega
        subst e1
        by_cases h2 : a2 < b2
        · simp [h2]
        · by_cases h2' : b2 < a2
          · simp [h2, h2']; omega
          · have e2 : a2 = b2 := by omega
            subst e2
            cases a3 with
            | none => cases b3 <;> simp [optionalLess]
            | some x =>
              cases b3 with
              | none => simp [optionalLess]
              | some y =>
                by_cases h3 : x < y
                · simp [optionalLess, intLess, h3]
                · by_cases h3' : y < x <;> simp [optionalLess, intLess, h3, h3']
  refine ⟨less a b, ?_⟩
  have e : a.equal b = true ↔ ¬ a.less b = true ∧ ¬ b.less a = true := by
    simp only [Version.equal, lessToEquals, Bool.and_eq_true, Bool.not_eq_true', Bool.not_eq_true]
  rw [e, less, less]
  constructor
  · rintro ⟨h1, h2⟩
    obtain ⟨a1, a2, a3⟩ := a
    obtain ⟨b1, b2, b3⟩ := b
    simp only [] at h1 h2
    have e1 : a1 = b1 := by omega
    subst e1
    have e2 : a2 = b2 := by
      rcases Int.lt_or_le a2 b2 with h | h
      · exact absurd (Or.inr ⟨rfl, Or.inl h⟩) h1
      · rcases Int.lt_or_le b2 a2 with h' | h'
        · exact absurd (Or.inr ⟨rfl, Or.inl h'⟩) h2
        · omega
    subst e2
    have h1' : ¬ ∃ n, b3 = some n ∧ ∀ m, a3 = some m → m < n := fun h => h1 (Or.inr ⟨rfl, Or.inr ⟨rfl, h⟩⟩)
    have h2' : ¬ ∃ n, a3 = some n ∧ ∀ m, b3 = some m → m < n := fun h => h2 (Or.inr ⟨rfl, Or.inr ⟨rfl, h⟩⟩)
    cases a3 with
    | none =>
      cases b3 with
      | none => rfl
      | some y => exact absurd ⟨y, rfl, fun m h => nomatch h⟩ h1'
    | some x =>
      cases b3 with
      | none => exact absurd ⟨x, rfl, fun m h => nomatch h⟩ h2'
      | some y =>
        rcases Int.lt_or_le x y with h | h
        · exact absurd ⟨y, rfl, fun m e => by cases e; exact h⟩ h1'
        · rcases Int.lt_or_le y x with h' | h'
          · exact absurd ⟨x, rfl, fun m e => by cases e; exact h'⟩ h2'
          · have : x = y := by omega
            rw [this]
  · rintro rfl
    have : ¬ (a.major < a.major ∨ (a.major = a.major ∧ (a.minor < a.minor ∨ (a.minor = a.minor ∧ ∃ n, a.build = some n ∧ ∀ m, a.build = some m → m < n)))) := by
      rintro (h | ⟨-, h | ⟨-, n, h1, h2⟩⟩)
      · omega
      · omega
      · have := h2 n h1; omega
    exact ⟨this, this⟩

theorem reads_spec {i : Nat} {v : List Char} : readsUnsigned i v = true ↔ ∃ n, ReadsU32 v n := by
  unfold readsUnsigned ReadsU32
  cases h : Str.fromText u32 v with
  | ok n => simp
  | _ => simp

theorem reads_facts {v : List Char} {n : Int} (h : ReadsU32 v n) : v ≠ [] ∧ '.' ∉ v := by
  refine ⟨?_, ?_⟩
  · rintro rfl; cases h
  · intro hc
    rcases Num.fromText_chars h _ hc with h1 | h1 | h1
    · exact absurd h1 (by decide)
    · cases h1
    · cases h1

theorem cuts_point {a b : List Char} (h : '.' ∉ a) : CutsFirst ['.'] (a ++ ['.'] ++ b) a b := by
  refine ⟨rfl, ?_⟩
  rintro i ⟨a', b', hh, rfl⟩
  rcases Nat.lt_or_ge a'.length a.length with hl | hl
  · exfalso
    apply h
    have e : (a ++ ['.'] ++ b)[a'.length]? = (a' ++ ['.'] ++ b')[a'.length]? := by rw [hh]
    have e1 : (a' ++ ['.'] ++ b')[a'.length]? = some '.' := by simp
    have e2 : (a ++ ['.'] ++ b)[a'.length]? = a[a'.length]? := by
      rw [List.append_assoc, List.getElem?_append_left hl]
    rw [e1, e2] at e
    exact List.mem_of_getElem? e
  · exact hl

theorem good2 : GoodItems 2 [⟨some 0, ['.']⟩, ⟨some 1, []⟩] := ⟨by simp; exact ⟨.free (by decide), .free (by decide)⟩, by decide, by decide⟩
theorem good3 : GoodItems 3 [⟨some 0, ['.']⟩, ⟨some 1, ['.']⟩, ⟨some 2, []⟩] := ⟨by simp; exact ⟨.free (by decide), .free (by decide)⟩, by decide, by decide⟩
theorem text2 : formatText [] [⟨some 0, ['.']⟩, ⟨some 1, []⟩] = "%1%.%2%".toList := by decide +kernel
theorem text3 : formatText [] [⟨some 0, ['.']⟩, ⟨some 1, ['.']⟩, ⟨some 2, []⟩] = "%1%.%2%.%3%".toList := by decide +kernel

theorem parse2 (s : List Char) (asg : List (Nat × List Char)) : stringParse 2 readsUnsigned s "%1%.%2%".toList = .yes asg ↔
    ∃ a b m n, s = a ++ '.' :: b ∧ ReadsU32 a m ∧ ReadsU32 b n ∧ asg = [(0, a), (1, b)] := by
  rw [← text2, (parse_places_partial (by decide) good2 s asg).1]
  constructor
  · intro h
    cases h with
    | place _ hv hc ht hm =>
      cases ht with
      | read _ hr =>
        cases hm with
        | last hv2 ht2 =>
          cases ht2 with
          | read _ hr2 =>
            obtain ⟨m, hm⟩ := reads_spec.mp hr
            obtain ⟨n, hn⟩ := reads_spec.mp hr2
            exact ⟨_, _, m, n, by simp, hm, hn, rfl⟩
        | place hl => exact absurd rfl hl
  · rintro ⟨a, b, m, n, rfl, h1, h2, rfl⟩
    have e : a ++ '.' :: b = a ++ ['.'] ++ b := by simp
    rw [e]
    exact .place (asg := [(0, a)]) (by simp) (reads_facts h1).1 (cuts_point (reads_facts h1).2) (.read (by decide) (reads_spec.mpr ⟨m, h1⟩))
      (.last (reads_facts h2).1 (.read (by decide) (reads_spec.mpr ⟨n, h2⟩)))

theorem parse3 (s : List Char) (asg : List (Nat × List Char)) : stringParse 3 readsUnsigned s "%1%.%2%.%3%".toList = .yes asg ↔
    ∃ a b c m n k, s = a ++ '.' :: b ++ '.' :: c ∧ ReadsU32 a m ∧ ReadsU32 b n ∧ ReadsU32 c k ∧ asg = [(0, a), (1, b), (2, c)] := by
  rw [← text3, (parse_places_partial (by decide) good3 s asg).1]
  constructor
  · intro h
    cases h with
    | place _ hv hc ht hm =>
      cases ht with
      | read _ hr =>
        cases hm with
        | place _ hv2 hc2 ht2 hm2 =>
          cases ht2 with
          | read _ hr2 =>
            cases hm2 with
            | last hv3 ht3 =>
              cases ht3 with
              | read _ hr3 =>
                obtain ⟨m, hm⟩ := reads_spec.mp hr
                obtain ⟨n, hn⟩ := reads_spec.mp hr2
                obtain ⟨k, hk⟩ := reads_spec.mp hr3
                exact ⟨_, _, _, m, n, k, by simp, hm, hn, hk, rfl⟩
            | place hl => exact absurd rfl hl
  · rintro ⟨a, b, c, m, n, k, rfl, h1, h2, h3, rfl⟩
    have e : a ++ '.' :: b ++ '.' :: c = a ++ ['.'] ++ (b ++ ['.'] ++ c) := by simp
    rw [e]
    exact .place (asg := [(0, a)]) (by simp) (reads_facts h1).1 (cuts_point (reads_facts h1).2) (.read (by decide) (reads_spec.mpr ⟨m, h1⟩))
      (.place (asg := [(1, b)]) (by simp) (reads_facts h2).1 (cuts_point (reads_facts h2).2) (.read (by decide) (reads_spec.mpr ⟨n, h2⟩))
      (.last (reads_facts h3).1 (.read (by decide) (reads_spec.mpr ⟨k, h3⟩))))

theorem points_two {a b a' b' c' : List Char} (h1 : '.' ∉ a) (h2 : '.' ∉ b) (h : a ++ '.' :: b = a' ++ '.' :: b' ++ '.' :: c') : False := by
  have := congrArg (List.count '.') h
  rw [List.append_assoc] at this
  simp only [List.count_append, List.cons_append, List.count_cons_self, List.count_eq_zero.mpr h1, List.count_eq_zero.mpr h2] at this
  omega

/-- Exactly the texts `major.minor` and `major.minor.build` are read, where the numbers are read as `FromString<unsigned>` does; everything else is refused. -/
theorem version_from_text (s : List Char) (v : Version) : Version.fromText s = some v ↔ Written ReadsU32 s v := by
  obtain ⟨ma, mi, bu⟩ := v
  unfold Version.fromText
  constructor
  · intro h
    cases h3 : stringParse 3 readsUnsigned s "%1%.%2%.%3%".toList with
    | yes asg =>
      rw [h3] at h
      simp only [] at h
      obtain ⟨a, b, c, m, n, k, e, r1, r2, r3, rfl⟩ := (parse3 s asg).mp h3
      simp only [argValue, List.reverse_cons, List.reverse_nil, List.nil_append, List.cons_append, List.find?_cons, decide_true, Nat.reduceEqDiff, decide_false] at h
      injection h with h
      injection h with ha hb hc
      rw [show Str.fromText u32 a = .ok m from r1] at ha
      rw [show Str.fromText u32 b = .ok n from r2] at hb
      rw [show Str.fromText u32 c = .ok k from r3] at hc
      simp only [] at ha hb hc
      subst ha hb hc
      exact ⟨a, b, c, e, r1, r2, r3⟩
    | threw => rw [h3] at h; cases h
    | no x =>
      rw [h3] at h
      simp only [] at h
      cases h2 : stringParse 2 readsUnsigned s "%1%.%2%".toList with
      | yes asg =>
        rw [h2] at h
        simp only [] at h
        obtain ⟨a, b, m, n, e, r1, r2, rfl⟩ := (parse2 s asg).mp h2
        simp only [argValue, List.reverse_cons, List.reverse_nil, List.nil_append, List.cons_append, List.find?_cons, decide_true, Nat.reduceEqDiff, decide_false] at h
        injection h with h
        injection h with ha hb hc
        rw [show Str.fromText u32 a = .ok m from r1] at ha
        rw [show Str.fromText u32 b = .ok n from r2] at hb
        simp only [] at ha hb
        subst ha hb hc
        exact ⟨a, b, e, r1, r2⟩
      | threw => rw [h2] at h; cases h
      | no x => rw [h2] at h; cases h
  · intro h
    cases bu with
    | some k =>
      obtain ⟨a, b, c, e, r1, r2, r3⟩ := h
      rw [(parse3 s _).mpr ⟨a, b, c, _, _, _, e, r1, r2, r3, rfl⟩]
      simp only [argValue, List.reverse_cons, List.reverse_nil, List.nil_append, List.cons_append, List.find?_cons, decide_true, Nat.reduceEqDiff, decide_false]
      rw [show Str.fromText u32 a = .ok ma from r1, show Str.fromText u32 b = .ok mi from r2, show Str.fromText u32 c = .ok k from r3]
    | none =>
      obtain ⟨a, b, e, r1, r2⟩ := h
      simp only [] at r1 r2
      have no3 : ∀ asg, stringParse 3 readsUnsigned s "%1%.%2%.%3%".toList ≠ .yes asg := by
        intro asg h3
        obtain ⟨a', b', c', _, _, _, e', _⟩ := (parse3 s asg).mp h3
        rw [e] at e'
        exact points_two (reads_facts r1).2 (reads_facts r2).2 e'
      have nt : stringParse 3 readsUnsigned s "%1%.%2%.%3%".toList ≠ .threw := by
        rw [← text3]; exact (parse_places_partial (by decide) good3 s []).2
      cases h3 : stringParse 3 readsUnsigned s "%1%.%2%.%3%".toList with
      | yes asg => exact absurd h3 (no3 asg)
      | threw => exact absurd h3 nt
      | no x =>
        simp only []
        rw [(parse2 s _).mpr ⟨a, b, _, _, e, r1, r2, rfl⟩]
        simp only [argValue, List.reverse_cons, List.reverse_nil, List.nil_append, List.cons_append, List.find?_cons, decide_true, Nat.reduceEqDiff, decide_false]
        rw [show Str.fromText u32 a = .ok ma from r1, show Str.fromText u32 b = .ok mi from r2]

theorem u32_ok : u32.Ok ∧ u32.hi < 10 ^ 31 := int_types_ok u32 (by simp)

theorem reads_unsigned {a : List Char} {n : Int} (h1 : '-' ∉ a) (h2 : '+' ∉ a) : ReadsU32 a n ↔ Unsigned a n := by
  constructor
  · intro h
    have hne := (reads_facts h).1
    have hd : ∀ c ∈ a, isDigit c = true := by
      intro c hc
      rcases Num.fromText_chars h c hc with h3 | h3 | h3
      · exact h3
      · subst h3; exact absurd hc h1
      · subst h3; exact absurd hc h2
    have := (fromText_digits u32_ok.1 hne (List.all_eq_true.mpr hd)).1
    unfold ReadsU32 at h
    rw [this] at h
    by_cases hh : decimal a ≤ u32.hi
    · rw [if_pos hh] at h
      injection h with h
      refine ⟨hne, hd, h, ?_⟩
      have : u32.hi = 4294967295 := rfl
      omega
    · rw [if_neg hh] at h; cases h
  · rintro ⟨hne, hd, rfl, hl⟩
    unfold ReadsU32
    rw [(fromText_digits u32_ok.1 hne (List.all_eq_true.mpr hd)).1, if_pos]
    have : u32.hi = 4294967295 := rfl
    omega

/-- Texts without signs: read are exactly two or three decimal numbers of 32 bits with points between them. -/
theorem version_from_text_partial {s : List Char} (h1 : '-' ∉ s) (h2 : '+' ∉ s) (v : Version) : Version.fromText s = some v ↔ Written Unsigned s v := by
  rw [version_from_text]
  obtain ⟨ma, mi, bu⟩ := v
  cases bu with
  | none =>
    constructor
    · rintro ⟨a, b, e, r1, r2⟩
      subst e
      simp only [List.mem_append, List.mem_cons, not_or] at h1 h2
      exact ⟨a, b, rfl, (reads_unsigned h1.1 h2.1).mp r1, (reads_unsigned h1.2.2 h2.2.2).mp r2⟩
    · rintro ⟨a, b, e, r1, r2⟩
      subst e
      simp only [List.mem_append, List.mem_cons, not_or] at h1 h2
      exact ⟨a, b, rfl, (reads_unsigned h1.1 h2.1).mpr r1, (reads_unsigned h1.2.2 h2.2.2).mpr r2⟩
  | some k =>
    constructor
    · rintro ⟨a, b, c, e, r1, r2, r3⟩
      subst e
      simp only [List.mem_append, List.mem_cons, not_or] at h1 h2
      exact ⟨a, b, c, rfl, (reads_unsigned h1.1.1 h2.1.1).mp r1, (reads_unsigned h1.1.2.2 h2.1.2.2).mp r2, (reads_unsigned h1.2.2 h2.2.2).mp r3⟩
    · rintro ⟨a, b, c, e, r1, r2, r3⟩
      subst e
      simp only [List.mem_append, List.mem_cons, not_or] at h1 h2
      exact ⟨a, b, c, rfl, (reads_unsigned h1.1.1 h2.1.1).mpr r1, (reads_unsigned h1.1.2.2 h2.1.2.2).mpr r2, (reads_unsigned h1.2.2 h2.2.2).mpr r3⟩

theorem number_text {n : Int} (h1 : 0 ≤ n) (h2 : n < 2 ^ 32) : ∃ s, Str.toText u32 n = some s ∧ Unsigned s n ∧ ReadsU32 s n := by
  have hh : u32.hi = 4294967295 := rfl
  have hl : u32.lo = 0 := rfl
  obtain ⟨ds, e, hne, hd, hv, -⟩ := toText_spec (t := u32) (v := n) u32_ok.1 u32_ok.2 (by omega) (by omega)
  rw [if_neg (by omega)] at e
  refine ⟨ds, e, ⟨hne, List.all_eq_true.mp hd, by omega, h2⟩, ?_⟩
  unfold ReadsU32
  rw [(fromText_digits u32_ok.1 hne hd).1, if_pos (by omega)]
  congr 1; omega

/-- The text of a version is two or three decimal numbers with points between them, and is read as the same version. -/
theorem version_round_trip {v : Version} (h : Valid v) : ∃ s, v.toText = some s ∧ Written Unsigned s v ∧ Version.fromText s = some v := by
  obtain ⟨ma, mi, bu⟩ := v
  obtain ⟨h1, h2, h3⟩ := h
  obtain ⟨a, ea, ua, ra⟩ := number_text h1.1 h1.2
  obtain ⟨b, eb, ub, rb⟩ := number_text h2.1 h2.2
  cases bu with
  | none =>
    refine ⟨a ++ '.' :: b, ?_, ⟨a, b, rfl, ua, ub⟩, (version_from_text _ _).mpr ⟨a, b, rfl, ra, rb⟩⟩
    unfold Version.toText
    simp only [] at ea eb
    rw [ea, eb]
  | some n =>
    obtain ⟨c, ec, uc, rc⟩ := number_text (h3 n rfl).1 (h3 n rfl).2
    refine ⟨a ++ '.' :: b ++ '.' :: c, ?_, ⟨a, b, c, rfl, ua, ub, uc⟩, (version_from_text _ _).mpr ⟨a, b, c, rfl, ra, rb, rc⟩⟩
    unfold Version.toText
    simp only [] at ea eb
    simp only [ea, eb, ec]

/-- Signs instead of numbers are accepted (see C75): `-.+` is read as version 0.0. -/
theorem version_signs_violated : Version.fromText "-.+".toList = some ⟨0, 0, none⟩ ∧ ¬ Written Unsigned "-.+".toList ⟨0, 0, none⟩ := by
  refine ⟨by decide +kernel, ?_⟩
  rintro ⟨a, b, e, ⟨ne, hd, -⟩, -⟩
  cases a with
  | nil => exact absurd rfl ne
  | cons c cs =>
    have : c = '-' := by
      rw [List.cons_append] at e
      exact (List.cons.inj e).1.symm
    have := hd c List.mem_cons_self
    subst c
    exact absurd this (by decide)

example : Version.fromText "10.4.17".toList = some ⟨10, 4, some 17⟩ ∧ Version.fromText "10.4".toList = some ⟨10, 4, none⟩ ∧ Version.fromText "10".toList = none ∧
    Version.fromText "1.2.3.4".toList = none ∧ Version.fromText "1.4294967296".toList = none ∧ Version.toText ⟨10, 4, some 17⟩ = some "10.4.17".toList := by decide +kernel

example : Version.less ⟨1, 2, none⟩ ⟨1, 2, some 0⟩ = true ∧ Version.less ⟨1, 10, none⟩ ⟨1, 9, some 3⟩ = false ∧ Valid ⟨1, 2, some 3⟩ :=
  ⟨by decide, by decide, ⟨by decide, by decide, fun n h => by cases h; decide⟩⟩

end Verif.Util
