import Verif.Str.Split

/-! C77, C78: splitting, joining, replacing, stripping. -/

namespace Verif.Str

/-! ### Specification -/

/-- `pat` occurs in `s` at position `p`. -/
def OccursAt (pat s : List Char) (p : Nat) : Prop := ∃ x y, s = x ++ pat ++ y ∧ x.length = p

/-- The leftmost occurrence of `d` cuts the string into `a` and the rest `b`. -/
def CutsFirst (d s a b : List Char) : Prop := s = a ++ d ++ b ∧ ∀ p, OccursAt d s p → a.length ≤ p

/-- Splitting at the leftmost occurrences, at most `limit` times. -/
inductive IsSplit (d : List Char) : Option Nat → List Char → List (List Char) → Prop
  | last {n s} : (∀ p, ¬ OccursAt d s p) → IsSplit d n s [s]
  | stop {s} : IsSplit d (some 0) s [s]
  | cut {s a b ps} : CutsFirst d s a b → IsSplit d none b ps → IsSplit d none s (a :: ps)
  | cutN {n s a b ps} : CutsFirst d s a b → IsSplit d (some n) b ps → IsSplit d (some (n + 1)) s (a :: ps)

/-- The pieces with the separator in between. -/
def glue (sep : List Char) : List (List Char) → List Char
  | [] => []
  | [p] => p
  | p :: q :: ps => p ++ sep ++ glue sep (q :: ps)

/-! ### Searching -/

theorem occursAt_iff (pat s : List Char) (p : Nat) : OccursAt pat s p ↔ p ≤ s.length ∧ pat.isPrefixOf (s.drop p) = true := by
  constructor
  · rintro ⟨x, y, rfl, rfl⟩
    constructor
    · simp
    · rw [List.append_assoc, List.drop_left, List.isPrefixOf_iff_prefix]
      exact List.prefix_append _ _
  · rintro ⟨h1, h2⟩
    rw [List.isPrefixOf_iff_prefix] at h2
    obtain ⟨y, hy⟩ := h2
    refine ⟨s.take p, y, ?_, by simp; omega⟩
    rw [List.append_assoc, hy, List.take_append_drop]

theorem scan_spec (pat : List Char) (s : List Char) : ∀ off,
    (∀ p, scan pat s off = some p → off ≤ p ∧ OccursAt pat s (p - off) ∧ ∀ q, OccursAt pat s q → p - off ≤ q) ∧
    (scan pat s off = none → ∀ q, ¬ OccursAt pat s q) := by
  induction s with
  | nil =>
    intro off
    constructor
    · intro p hp
      simp only [scan] at hp
      split at hp
      · injection hp with hp
        subst hp
        refine ⟨Nat.le_refl _, ?_, fun q _ => by omega⟩
        rw [occursAt_iff]
        simp_all
      · cases hp
    · intro hn q hq
      simp only [scan] at hn
      split at hn
      · cases hn
      · rename_i hne
        obtain ⟨x, y, h, _⟩ := hq
        simp at h
        exact hne h.2.1
  | cons c cs ih =>
    intro off
    obtain ⟨ih1, ih2⟩ := ih (off + 1)
    have hocc : pat.isPrefixOf (c :: cs) = false → ∀ q, OccursAt pat (c :: cs) q → ∃ q', q = q' + 1 ∧ OccursAt pat cs q' := by
      intro hf q hq
      rw [occursAt_iff] at hq
      cases q with
      | zero => simp [hf] at hq
      | succ q =>
        refine ⟨q, rfl, ?_⟩
        rw [occursAt_iff]
        simpa using hq
    constructor
    · intro p hp
      simp only [scan] at hp
      split at hp
      · injection hp with hp
        subst hp
        refine ⟨Nat.le_refl _, ?_, fun q _ => by omega⟩
        rw [occursAt_iff]
        simp_all
      · rename_i hf
        obtain ⟨h1, h2, h3⟩ := ih1 p hp
        refine ⟨by omega, ?_, fun q hq => ?_⟩
        · rw [occursAt_iff] at h2 ⊢
          have : p - off = (p - (off + 1)) + 1 := by omega
          rw [this]
          simpa using h2
        · obtain ⟨q', rfl, hq'⟩ := hocc (Bool.eq_false_iff.mpr hf) q hq
          have := h3 q' hq'
          omega
    · intro hn q hq
      simp only [scan] at hn
      split at hn
      · cases hn
      · rename_i hf
        obtain ⟨q', rfl, hq'⟩ := hocc (Bool.eq_false_iff.mpr hf) q hq
        exact ih2 hn q' hq'

theorem find_some {s pat : List Char} {pos p : Nat} (h : find s pat pos = some p) :
    pos ≤ p ∧ CutsFirst pat (s.drop pos) ((s.drop pos).take (p - pos)) (s.drop (p + pat.length)) ∧ p + pat.length ≤ s.length := by
  unfold find at h
  split at h
  · obtain ⟨h1, h2, h3⟩ := (scan_spec pat (s.drop pos) pos).1 p h
    rw [occursAt_iff, List.isPrefixOf_iff_prefix] at h2
    obtain ⟨h2, y, hy⟩ := h2
    have hl : pat.length ≤ ((s.drop pos).drop (p - pos)).length := by rw [← hy]; simp
    simp only [List.length_drop] at hl h2
    refine ⟨h1, ⟨?_, fun q hq => ?_⟩, by omega⟩
    · have e1 : s.drop (p + pat.length) = ((s.drop pos).drop (p - pos)).drop pat.length := by
        rw [List.drop_drop, List.drop_drop]
        congr 1; omega
      rw [e1, ← hy, List.drop_left, List.append_assoc, hy, List.take_append_drop]
    · have := h3 q hq
      rw [List.length_take]; omega
  · cases h

theorem find_none {s pat : List Char} {pos : Nat} (h : find s pat pos = none) (hp : pos ≤ s.length) :
    ∀ q, ¬ OccursAt pat (s.drop pos) q := by
  unfold find at h
  rw [if_pos hp] at h
  exact (scan_spec pat (s.drop pos) pos).2 h

/-! ### Splitting -/

theorem take_drop_mid (s : List Char) (a b : Nat) : (s.take b).drop a = (s.drop a).take (b - a) := by
  rw [List.drop_take]

/-- The pieces still to come from a range that stands at `b`. -/
theorem collect_spec {s d : List Char} (hd : d ≠ []) (limit : Nat) (k : Nat) : ∀ (b results fuel : Nat), b ≤ s.length → s.length - b ≤ k → k + 2 ≤ fuel →
    (limit = 0 ∨ results < limit) →
    ∃ ps, collect s (delimSearch d s) limit fuel ⟨some b, delimSearch d s b, results⟩ = some ps ∧
      IsSplit d (if limit = 0 then none else some (limit - results)) (s.drop b) ps := by
  have hpos : 0 < d.length := List.length_pos_iff.mpr hd
  induction k with
  | zero =>
    intro b results fuel hb hk hf hl
    obtain ⟨fuel, rfl⟩ : ∃ n, fuel = n + 2 := ⟨fuel - 2, by omega⟩
    have hn : find s d b = none := by
      cases h : find s d b with
      | none => rfl
      | some p => have := find_some h; omega
    refine ⟨[s.drop b], ?_, .last (find_none hn hb)⟩
    simp only [collect, SplitRange.get, delimSearch, hn, SplitRange.step, refStr, Option.getD_none, Option.map_some]
    rw [List.take_of_length_le (Nat.le_refl _)]
  | succ k ih =>
    intro b results fuel hb hk hf hl
    obtain ⟨fuel, rfl⟩ : ∃ n, fuel = n + 1 := ⟨fuel - 1, by omega⟩
    cases hn : find s d b with
    | none =>
      refine ⟨[s.drop b], ?_, .last (find_none hn hb)⟩
      obtain ⟨fuel, rfl⟩ : ∃ n, fuel = n + 1 := ⟨fuel - 1, by omega⟩
      simp only [collect, SplitRange.get, delimSearch, hn, SplitRange.step, refStr, Option.getD_none, Option.map_some]
      rw [List.take_of_length_le (Nat.le_refl _)]
    | some p =>
      obtain ⟨h1, h2, h3⟩ := find_some hn
      have hpiece : refStr s b (some p) = (s.drop b).take (p - b) := by
        simp only [refStr, Option.getD_some]
        exact take_drop_mid s b p
      by_cases hl0 : limit = 0
      · obtain ⟨ps, i1, i2⟩ := ih (p + d.length) results fuel h3 (by omega) (by omega) hl
        refine ⟨refStr s b (some p) :: ps, ?_, ?_⟩
        · simp only [collect, SplitRange.get, SplitRange.step, hl0, if_true]
          have e : (delimSearch d s b).position = some p := hn
          have e2 : (delimSearch d s b).size = d.length := rfl
          simp only [e, e2, ← hl0, i1, Option.map_some]
        · rw [if_pos hl0] at i2 ⊢
          rw [hpiece]
          exact .cut h2 i2
      · have hr : results < limit := by rcases hl with h | h; exact absurd h hl0; exact h
        have e : (delimSearch d s b).position = some p := hn
        have e2 : (delimSearch d s b).size = d.length := rfl
        by_cases hlt : results + 1 < limit
        · obtain ⟨ps, i1, i2⟩ := ih (p + d.length) (results + 1) fuel h3 (by omega) (by omega) (Or.inr hlt)
          refine ⟨refStr s b (some p) :: ps, ?_, ?_⟩
          · simp only [collect, SplitRange.get, SplitRange.step, e, e2, if_neg hl0, if_pos hlt, i1, Option.map_some]
          · rw [if_neg hl0] at i2 ⊢
            rw [hpiece]
            have : limit - results = (limit - (results + 1)) + 1 := by omega
            rw [this]
            exact .cutN h2 i2
        · refine ⟨[refStr s b (some p), s.drop (p + d.length)], ?_, ?_⟩
          · obtain ⟨fuel, rfl⟩ : ∃ n, fuel = n + 2 := ⟨fuel - 2, by omega⟩
            simp only [collect, SplitRange.get, SplitRange.step, e, e2, if_neg hl0, if_neg hlt, Option.map_some, refStr,
              Option.getD_none, Option.getD_some]
            rw [List.take_of_length_le (Nat.le_refl s.length)]
          · rw [if_neg hl0, hpiece]
            have : limit - results = 0 + 1 := by omega
            rw [this]
            exact .cutN h2 .stop

/-- C77.  `Split` with a delimiter that is not empty ends, and its pieces are what is cut off at the leftmost occurrences of the
delimiter, at most `limit` cuts if there is a limit. -/
theorem split_spec {s d : List Char} (hd : d ≠ []) (limit : Nat) {fuel : Nat} (hf : s.length + 2 ≤ fuel) :
    ∃ ps, split fuel s d limit = some ps ∧ IsSplit d (if limit = 0 then none else some limit) s ps := by
  obtain ⟨ps, h1, h2⟩ := collect_spec (s := s) hd limit s.length 0 0 fuel (by omega) (by omega) hf (by omega)
  exact ⟨ps, h1, by simpa using h2⟩

example : split 20 "ab//cd/e/f/.g/.".toList "/".toList 5 = some (["ab", "", "cd", "e", "f", ".g/."].map String.toList) := by decide +kernel

/-- The specification determines the pieces. -/
theorem IsSplit.unique {d : List Char} {n : Option Nat} {s : List Char} {ps qs : List (List Char)} (hd : d ≠ [])
    (h1 : IsSplit d n s ps) (h2 : IsSplit d n s qs) : ps = qs := by
  have hcut : ∀ {s a b a' b'}, CutsFirst d s a b → CutsFirst d s a' b' → a = a' ∧ b = b' := by
    intro s a b a' b' h h'
    have l1 := h.2 a'.length ⟨a', b', h'.1, rfl⟩
    have l2 := h'.2 a.length ⟨a, b, h.1, rfl⟩
    have e := h.1.symm.trans h'.1
    rw [List.append_assoc, List.append_assoc] at e
    obtain ⟨ha, hb⟩ := List.append_inj e (by omega)
    exact ⟨ha, List.append_cancel_left hb⟩
  have hno : ∀ {s a b}, CutsFirst d s a b → (∀ p, ¬ OccursAt d s p) → False := by
    intro s a b h hn
    exact hn a.length ⟨a, b, h.1, rfl⟩
  induction h1 generalizing qs with
  | last hn =>
    cases h2 with
    | last => rfl
    | stop => rfl
    | cut hc _ => exact (hno hc hn).elim
    | cutN hc _ => exact (hno hc hn).elim
  | stop =>
    cases h2 with
    | last => rfl
    | stop => rfl
  | cut hc _ ih =>
    cases h2 with
    | last hn => exact (hno hc hn).elim
    | cut hc' h' =>
      obtain ⟨rfl, rfl⟩ := hcut hc hc'
      rw [ih h']
  | cutN hc _ ih =>
    cases h2 with
    | last hn => exact (hno hc hn).elim
    | cutN hc' h' =>
      obtain ⟨rfl, rfl⟩ := hcut hc hc'
      rw [ih h']

theorem IsSplit.ne_nil {d : List Char} {n : Option Nat} {s : List Char} {ps : List (List Char)} (h : IsSplit d n s ps) : ps ≠ [] := by
  cases h <;> simp

theorem IsSplit.glue {d : List Char} {n : Option Nat} {s : List Char} {ps : List (List Char)} (h : IsSplit d n s ps) : glue d ps = s := by
  induction h with
  | last _ => rfl
  | stop => rfl
  | @cut s a b ps hc h ih =>
    obtain ⟨q, qs, rfl⟩ := List.exists_cons_of_ne_nil h.ne_nil
    rw [Str.glue, ih]; exact hc.1.symm
  | @cutN n s a b ps hc h ih =>
    obtain ⟨q, qs, rfl⟩ := List.exists_cons_of_ne_nil h.ne_nil
    rw [Str.glue, ih]; exact hc.1.symm

theorem IsSplit.length_le {d : List Char} {n : Nat} {s : List Char} {ps : List (List Char)} (h : IsSplit d (some n) s ps) : ps.length ≤ n + 1 := by
  generalize hn : some n = o at h
  induction h generalizing n with
  | last _ => simp
  | stop => simp
  | cut => cases hn
  | cutN _ _ ih =>
    injection hn with hn
    have := ih rfl
    simp; omega

/-- `Join` puts the separator between the pieces. -/
theorem join_spec (sep : List Char) (ps : List (List Char)) : join sep ps = glue sep ps := by
  cases ps with
  | nil => rfl
  | cons p ps =>
    simp only [join]
    induction ps generalizing p with
    | nil => simp [joinRest, Str.glue]
    | cons q qs ih =>
      simp only [joinRest, Str.glue]
      rw [← ih q]
      simp

/-- C77.  Joining the pieces with the delimiter gives the string back, with any limit, and there are at
most `limit + 1` pieces. -/
theorem join_split {s d : List Char} (hd : d ≠ []) (limit : Nat) :
    ∃ ps, split (s.length + 2) s d limit = some ps ∧ join d ps = s ∧ (limit ≠ 0 → ps.length ≤ limit + 1) := by
  obtain ⟨ps, h1, h2⟩ := split_spec (s := s) hd limit (Nat.le_refl _)
  refine ⟨ps, h1, by rw [join_spec, h2.glue], fun hl => ?_⟩
  rw [if_neg hl] at h2
  exact h2.length_le

/-- No piece of an unlimited split contains the delimiter. -/
theorem IsSplit.delimiter_free {d : List Char} {s : List Char} {ps : List (List Char)} (hd : d ≠ []) (h : IsSplit d none s ps) :
    ∀ p ∈ ps, ∀ q, ¬ OccursAt d p q := by
  generalize hn : (none : Option Nat) = o at h
  induction h with
  | last h => intro p hp; simp at hp; subst hp; exact h
  | stop => cases hn
  | cutN => cases hn
  | @cut s a b ps hc h ih =>
    intro p hp
    rcases List.mem_cons.mp hp with rfl | hp
    · intro q hq
      obtain ⟨x, y, rfl, rfl⟩ := hq
      have := hc.2 x.length ⟨x, y ++ d ++ b, by rw [hc.1]; simp, rfl⟩
      have hpos : 0 < d.length := List.length_pos_iff.mpr hd
      simp at this
      omega
    · exact ih rfl p hp

/-- C77.  Conversely, splitting what was joined gives the pieces back, if the separator is one character
that no piece contains and there is at least one piece. -/
theorem split_join {c : Char} {ps : List (List Char)} (hne : ps ≠ []) (hc : ∀ p ∈ ps, c ∉ p) :
    IsSplit [c] none (join [c] ps) ps ∧ split ((join [c] ps).length + 2) (join [c] ps) [c] 0 = some ps := by
  have h1 : IsSplit [c] none (join [c] ps) ps := by
    rw [join_spec]
    induction ps with
    | nil => exact absurd rfl hne
    | cons p ps ih =>
      cases ps with
      | nil =>
        refine .last fun q ⟨x, y, h, _⟩ => ?_
        simp only [Str.glue] at h
        exact hc p (by simp) (by rw [h]; simp)
      | cons q qs =>
        refine .cut (b := Str.glue [c] (q :: qs)) ⟨rfl, fun k hk => ?_⟩ (ih (by simp) (fun r hr => hc r (by simp [hr])))
        obtain ⟨x, y, h, rfl⟩ := hk
        simp only [Str.glue] at h
        rw [List.append_assoc, List.append_assoc] at h
        refine Nat.le_of_not_lt fun hlt => ?_
        obtain ⟨z, hz⟩ : ∃ z, p = x ++ c :: z := by
          have hx : x = p.take x.length := by
            have := congrArg (List.take x.length) h
            simp only [List.take_left] at this
            rw [List.take_append_of_le_length (by omega)] at this
            exact this.symm
          refine ⟨p.drop (x.length + 1), ?_⟩
          have hd2 := congrArg (List.drop x.length) h
          rw [List.drop_left, List.drop_append_of_le_length (by omega)] at hd2
          have hdr : p.drop x.length ≠ [] := by
            intro h0
            have := congrArg List.length h0
            simp at this
            omega
          obtain ⟨e, es, he⟩ := List.exists_cons_of_ne_nil hdr
          rw [he] at hd2
          simp at hd2
          have : es = p.drop (x.length + 1) := by
            rw [← List.drop_drop, he]; rfl
          rw [← this, ← hd2.1, ← he]
          have e2 : x ++ p.drop x.length = p.take x.length ++ p.drop x.length := by rw [← hx]
          rw [e2, List.take_append_drop]
        exact hc p (by simp) (by rw [hz]; simp)
  refine ⟨h1, ?_⟩
  obtain ⟨qs, h2, h3⟩ := split_spec (s := join [c] ps) (d := [c]) (by simp) 0 (Nat.le_refl _)
  rw [h2, h1.unique (by simp) h3]

example : join ",".toList (["a", "", "bc"].map String.toList) = "a,,bc".toList ∧
    split 10 "a,,bc".toList ",".toList 0 = some (["a", "", "bc"].map String.toList) := by decide +kernel

/-- C77 is violated by the empty delimiter: no string can be collected to the end. -/
theorem split_empty_violated (s : List Char) (fuel : Nat) : split fuel s [] 0 = none := by
  have h0 : find s [] 0 = some 0 := by
    simp only [find, Nat.zero_le, if_true, List.drop_zero]
    cases s <;> simp [scan, List.isPrefixOf]
  unfold split SplitRange.init
  induction fuel with
  | zero => rfl
  | succ n ih =>
    have e : delimSearch [] s 0 = ⟨some 0, 0⟩ := by simp [delimSearch, h0]
    simp only [collect, SplitRange.get, e, SplitRange.step, if_true, Nat.add_zero] at ih ⊢
    rw [ih]
    rfl

/-- C77 is violated by `First`: it keeps the end of the current piece, so a range that was advanced and reset
shows a first piece that runs over several. -/
theorem first_violated : ∃ s d, ((SplitRange.init (delimSearch d s)).step (delimSearch d s) 0).first.get s = some s ∧
    (SplitRange.init (delimSearch d s)).get s = some "a".toList ∧ s = "a,b".toList :=
  ⟨"a,b".toList, ",".toList, by decide +kernel, by decide +kernel, rfl⟩

/-! ### Splitting at any of a set of characters -/

theorem scanAny_spec (set s : List Char) : ∀ off,
    (∀ p, scanAny set s off = some p → off ≤ p ∧ ∃ a c b, s = a ++ c :: b ∧ a.length = p - off ∧ c ∈ set ∧ ∀ x ∈ a, x ∉ set) ∧
    (scanAny set s off = none → ∀ x ∈ s, x ∉ set) := by
  induction s with
  | nil => intro off; simp [scanAny]
  | cons e s ih =>
    intro off
    obtain ⟨i1, i2⟩ := ih (off + 1)
    by_cases he : set.contains e = true
    · simp only [scanAny, he, if_true]
      refine ⟨fun p hp => ?_, fun h => by cases h⟩
      injection hp with hp
      subst hp
      exact ⟨Nat.le_refl _, [], e, s, rfl, by simp, by simpa using he, by simp⟩
    · simp only [scanAny, he, if_false]
      refine ⟨fun p hp => ?_, fun h x hx => ?_⟩
      · obtain ⟨h1, a, c, b, h2, h3, h4, h5⟩ := i1 p hp
        refine ⟨by omega, e :: a, c, b, by rw [h2]; rfl, by simp [h3]; omega, h4, fun x hx => ?_⟩
        rcases List.mem_cons.mp hx with rfl | hx
        · simpa using he
        · exact h5 x hx
      · rcases List.mem_cons.mp hx with rfl | hx
        · simpa using he
        · exact i2 h x hx

/-- Splitting at characters of a set (specification): each piece but the last ends before the first
character of the set, which is dropped. -/
inductive IsSplitAny (set : List Char) : Option Nat → List Char → List (List Char) → Prop
  | last {n s} : (∀ x ∈ s, x ∉ set) → IsSplitAny set n s [s]
  | stop {s} : IsSplitAny set (some 0) s [s]
  | cut {a c b ps} : (∀ x ∈ a, x ∉ set) → c ∈ set → IsSplitAny set none b ps → IsSplitAny set none (a ++ c :: b) (a :: ps)
  | cutN {n a c b ps} : (∀ x ∈ a, x ∉ set) → c ∈ set → IsSplitAny set (some n) b ps → IsSplitAny set (some (n + 1)) (a ++ c :: b) (a :: ps)

theorem collectAny_spec {s set : List Char} (limit : Nat) (k : Nat) : ∀ (b results fuel : Nat), b ≤ s.length → s.length - b ≤ k → k + 2 ≤ fuel →
    (limit = 0 ∨ results < limit) →
    ∃ ps, collect s (anySearch set s) limit fuel ⟨some b, anySearch set s b, results⟩ = some ps ∧
      IsSplitAny set (if limit = 0 then none else some (limit - results)) (s.drop b) ps := by
  induction k with
  | zero =>
    intro b results fuel hb hk hf hl
    obtain ⟨fuel, rfl⟩ : ∃ n, fuel = n + 2 := ⟨fuel - 2, by omega⟩
    have hnil : s.drop b = [] := List.drop_eq_nil_of_le (by omega)
    have hn : findAny s set b = none := by simp [findAny, hnil, scanAny]
    refine ⟨[s.drop b], ?_, .last (by simp [hnil])⟩
    simp only [collect, SplitRange.get, anySearch, hn, SplitRange.step, refStr, Option.getD_none, Option.map_some]
    rw [List.take_of_length_le (Nat.le_refl _)]
  | succ k ih =>
    intro b results fuel hb hk hf hl
    obtain ⟨fuel, rfl⟩ : ∃ n, fuel = n + 1 := ⟨fuel - 1, by omega⟩
    cases hn : findAny s set b with
    | none =>
      refine ⟨[s.drop b], ?_, .last ((scanAny_spec set (s.drop b) b).2 hn)⟩
      obtain ⟨fuel, rfl⟩ : ∃ n, fuel = n + 1 := ⟨fuel - 1, by omega⟩
      simp only [collect, SplitRange.get, anySearch, hn, SplitRange.step, refStr, Option.getD_none, Option.map_some]
      rw [List.take_of_length_le (Nat.le_refl _)]
    | some p =>
      obtain ⟨h1, a, c, r, h2, h3, h4, h5⟩ := (scanAny_spec set (s.drop b) b).1 p hn
      have hpiece : refStr s b (some p) = a := by
        simp only [refStr, Option.getD_some]
        rw [take_drop_mid, h2, ← h3, List.take_left]
      have hrest : s.drop (p + 1) = r := by
        have : p + 1 = b + (a.length + 1) := by omega
        rw [this, ← List.drop_drop, h2, ← List.drop_drop, List.drop_left]
        rfl
      have hlen : p + 1 ≤ s.length := by
        have := congrArg List.length h2
        simp at this
        omega
      have e : (anySearch set s b).position = some p := hn
      have e2 : (anySearch set s b).size = 1 := rfl
      by_cases hl0 : limit = 0
      · obtain ⟨ps, i1, i2⟩ := ih (p + 1) results fuel hlen (by omega) (by omega) hl
        refine ⟨refStr s b (some p) :: ps, ?_, ?_⟩
        · simp only [collect, SplitRange.get, SplitRange.step, hl0, if_true]
          simp only [e, e2, ← hl0, i1, Option.map_some]
        · rw [if_pos hl0] at i2 ⊢
          rw [hpiece, h2]
          rw [hrest] at i2
          exact .cut h5 h4 i2
      · have hr : results < limit := by rcases hl with h | h; exact absurd h hl0; exact h
        by_cases hlt : results + 1 < limit
        · obtain ⟨ps, i1, i2⟩ := ih (p + 1) (results + 1) fuel hlen (by omega) (by omega) (Or.inr hlt)
          refine ⟨refStr s b (some p) :: ps, ?_, ?_⟩
          · simp only [collect, SplitRange.get, SplitRange.step, e, e2, if_neg hl0, if_pos hlt, i1, Option.map_some]
          · rw [if_neg hl0] at i2 ⊢
            rw [hpiece, h2]
            rw [hrest] at i2
            have : limit - results = (limit - (results + 1)) + 1 := by omega
            rw [this]
            exact .cutN h5 h4 i2
        · refine ⟨[refStr s b (some p), s.drop (p + 1)], ?_, ?_⟩
          · obtain ⟨fuel, rfl⟩ : ∃ n, fuel = n + 2 := ⟨fuel - 2, by omega⟩
            simp only [collect, SplitRange.get, SplitRange.step, e, e2, if_neg hl0, if_neg hlt, Option.map_some, refStr,
              Option.getD_none, Option.getD_some]
            rw [List.take_of_length_le (Nat.le_refl s.length)]
          · rw [if_neg hl0, hpiece, h2, hrest]
            have : limit - results = 0 + 1 := by omega
            rw [this]
            exact .cutN h5 h4 .stop

/-- C77.  `Split` with `IsAnyOf` cuts at the characters of the set. -/
theorem splitAny_spec (s set : List Char) (limit : Nat) :
    ∃ ps, splitAny (s.length + 2) s set limit = some ps ∧ IsSplitAny set (if limit = 0 then none else some limit) s ps := by
  obtain ⟨ps, h1, h2⟩ := collectAny_spec (s := s) (set := set) limit s.length 0 0 (s.length + 2) (by omega) (by omega) (Nat.le_refl _) (by omega)
  exact ⟨ps, h1, by simpa using h2⟩

example : splitAny 20 "a,b.c;d".toList ",.;".toList 2 = some (["a", "b", "c;d"].map String.toList) := by decide +kernel

/-! ### Replacing -/

/-- The loop of `ReplaceAll` with everything before `index` done. -/
theorem replaceLoop_spec {src dst : List Char} (hs : src ≠ []) (k : Nat) : ∀ (pre a b : List Char) (fuel : Nat) (ps : List (List Char)),
    b.length ≤ k → k < fuel → CutsFirst src (a ++ src ++ b) a b → IsSplit src none b ps →
    replaceLoop src dst fuel (pre ++ (a ++ src ++ b)) (pre.length + a.length) = some (pre ++ a ++ dst ++ glue dst ps) := by
  have hpos : 0 < src.length := List.length_pos_iff.mpr hs
  induction k with
  | zero =>
    intro pre a b fuel ps hb hf hc hp
    obtain rfl := List.length_eq_zero_iff.mp (Nat.le_zero.mp hb)
    obtain ⟨fuel, rfl⟩ : ∃ n, fuel = n + 1 := ⟨fuel - 1, by omega⟩
    have hps : ps = [[]] := by
      refine hp.unique hs (.last fun q ⟨x, y, h, _⟩ => ?_)
      simp at h
      exact hs h.2.1
    have hnew : (pre ++ (a ++ src ++ [])).take (pre.length + a.length) ++ dst ++ (pre ++ (a ++ src ++ [])).drop (pre.length + a.length + src.length) = pre ++ a ++ dst := by
      have e : pre ++ (a ++ src ++ []) = (pre ++ a) ++ src := by simp
      rw [e, ← List.length_append, List.take_left, ← List.length_append, List.drop_length]
      simp
    simp only [replaceLoop]
    rw [hnew]
    have hn : find (pre ++ a ++ dst) src (pre.length + a.length + dst.length) = none := by
      cases h : find (pre ++ a ++ dst) src (pre.length + a.length + dst.length) with
      | none => rfl
      | some p => have := find_some h; simp at this; omega
    rw [hn]
    simp [hps, Str.glue]
  | succ k ih =>
    intro pre a b fuel ps hb hf hc hp
    obtain ⟨fuel, rfl⟩ : ∃ n, fuel = n + 1 := ⟨fuel - 1, by omega⟩
    have hnew : (pre ++ (a ++ src ++ b)).take (pre.length + a.length) ++ dst ++ (pre ++ (a ++ src ++ b)).drop (pre.length + a.length + src.length) = pre ++ a ++ dst ++ b := by
      have e : pre ++ (a ++ src ++ b) = (pre ++ a) ++ (src ++ b) := by simp
      have e2 : pre ++ (a ++ src ++ b) = (pre ++ a ++ src) ++ b := by simp
      have l2 : pre.length + a.length + src.length = (pre ++ a ++ src).length := by simp; omega
      rw [show (pre ++ (a ++ src ++ b)).drop (pre.length + a.length + src.length) = b by rw [e2, l2, List.drop_left]]
      rw [e, ← List.length_append, List.take_left]
    have hdrop : (pre ++ a ++ dst ++ b).drop (pre.length + a.length + dst.length) = b := by
      have l2 : pre.length + a.length + dst.length = (pre ++ a ++ dst).length := by simp; omega
      rw [l2, List.drop_left]
    simp only [replaceLoop]
    rw [hnew]
    cases hfnd : find (pre ++ a ++ dst ++ b) src (pre.length + a.length + dst.length) with
    | none =>
      have hno := find_none hfnd (by simp; omega)
      rw [hdrop] at hno
      have : ps = [b] := hp.unique hs (.last hno)
      simp [this, Str.glue]
    | some p =>
      obtain ⟨h1, h2, h3⟩ := find_some hfnd
      rw [hdrop] at h2
      rw [Option.getD_some, if_pos (by omega)]
      generalize ha' : b.take (p - (pre.length + a.length + dst.length)) = a' at h2
      generalize hb' : (pre ++ a ++ dst ++ b).drop (p + src.length) = b' at h2
      have hbl : b.length = a'.length + src.length + b'.length := by rw [h2.1]; simp; omega
      have hp' : p = (pre ++ a ++ dst).length + a'.length := by
        rw [← ha', List.length_take]
        simp only [List.length_append] at h3 ⊢
        omega
      obtain ⟨qs, rfl, hq⟩ : ∃ qs, ps = a' :: qs ∧ IsSplit src none b' qs := by
        cases hp with
        | last hn => exact absurd ⟨a', b', h2.1, rfl⟩ (hn a'.length)
        | @cut _ a2 b2 qs hc2 hq2 =>
          have l1 := hc2.2 a'.length ⟨a', b', h2.1, rfl⟩
          have l2 := h2.2 a2.length ⟨a2, b2, hc2.1, rfl⟩
          have e := hc2.1.symm.trans h2.1
          rw [List.append_assoc, List.append_assoc] at e
          obtain ⟨ea, eb⟩ := List.append_inj e (by omega)
          have eb := List.append_cancel_left eb
          subst ea; subst eb
          exact ⟨qs, rfl, hq2⟩
      have hrec := ih (pre ++ a ++ dst) a' b' fuel qs (by omega) (by omega) (h2.1 ▸ h2) hq
      rw [← hp'] at hrec
      rw [show pre ++ a ++ dst ++ b = pre ++ a ++ dst ++ (a' ++ src ++ b') by rw [← h2.1]]
      rw [hrec]
      obtain ⟨q, qs', rfl⟩ := List.exists_cons_of_ne_nil hq.ne_nil
      simp [Str.glue]

/-- C78.  `ReplaceAll` replaces the leftmost occurrences that do not overlap, all of them, and looks at
nothing it inserted: the result is the pieces between them with the new text in between. -/
theorem replaceAll_spec {s src dst : List Char} (hs : src ≠ []) {ps : List (List Char)} (h : IsSplit src none s ps) {fuel : Nat}
    (hf : s.length < fuel) : replaceAll fuel s src dst = some (glue dst ps) := by
  unfold replaceAll
  cases hfnd : find s src 0 with
  | none =>
    have hno := find_none hfnd (Nat.zero_le _)
    rw [List.drop_zero] at hno
    have : ps = [s] := h.unique hs (.last hno)
    simp [this, Str.glue]
  | some p =>
    obtain ⟨h1, h2, h3⟩ := find_some hfnd
    rw [List.drop_zero, Nat.sub_zero] at h2
    generalize ha' : s.take p = a' at h2
    generalize hb' : s.drop (p + src.length) = b' at h2
    have hbl : s.length = a'.length + src.length + b'.length := by rw [h2.1]; simp; omega
    have hp' : p = a'.length := by rw [← ha', List.length_take]; omega
    obtain ⟨qs, rfl, hq⟩ : ∃ qs, ps = a' :: qs ∧ IsSplit src none b' qs := by
      cases h with
      | last hn => exact absurd ⟨a', b', h2.1, rfl⟩ (hn a'.length)
      | @cut _ a2 b2 qs hc2 hq2 =>
        have l1 := hc2.2 a'.length ⟨a', b', h2.1, rfl⟩
        have l2 := h2.2 a2.length ⟨a2, b2, hc2.1, rfl⟩
        have e := hc2.1.symm.trans h2.1
        rw [List.append_assoc, List.append_assoc] at e
        obtain ⟨ea, eb⟩ := List.append_inj e (by omega)
        have eb := List.append_cancel_left eb
        subst ea; subst eb
        exact ⟨qs, rfl, hq2⟩
    have hrec := replaceLoop_spec (dst := dst) hs b'.length [] a' b' fuel qs (Nat.le_refl _) (by omega) (h2.1 ▸ h2) hq
    simp only [List.nil_append, List.length_nil, Nat.zero_add, ← hp', ← h2.1] at hrec
    simp only []
    rw [hrec]
    obtain ⟨q, qs', rfl⟩ := List.exists_cons_of_ne_nil hq.ne_nil
    simp [Str.glue]

/-- C78.  In other words `ReplaceAll(s, src, dst)` is `Join(dst, Split(s, src))`. -/
theorem replaceAll_eq_join_split {s src dst : List Char} (hs : src ≠ []) :
    ∃ ps, split (s.length + 2) s src 0 = some ps ∧ replaceAll (s.length + 1) s src dst = some (join dst ps) := by
  obtain ⟨ps, h1, h2⟩ := split_spec (s := s) hs 0 (Nat.le_refl _)
  exact ⟨ps, h1, by rw [join_spec]; exact replaceAll_spec hs h2 (by omega)⟩

example : replaceAll 10 "aaabaa".toList "aa".toList "Xaa".toList = some "XaaabXaa".toList := by decide +kernel

theorem find_empty (s : List Char) {pos : Nat} (h : pos ≤ s.length) : find s [] pos = some pos := by
  simp only [find, h, if_true]
  cases s.drop pos <;> simp [scan, List.isPrefixOf]

/-- C78 is violated by an empty `from`: on a string that is not empty the replacement never ends. -/
theorem replaceAll_empty_violated (s dst : List Char) (hs : s ≠ []) (fuel : Nat) : replaceAll fuel s [] dst = none := by
  have key : ∀ fuel (result : List Char) (index : Nat), index < result.length → replaceLoop [] dst fuel result index = none := by
    intro fuel
    induction fuel with
    | zero => intros; rfl
    | succ n ih =>
      intro result index hi
      have hlen : (result.take index ++ dst ++ result.drop (index + ([] : List Char).length)).length = result.length + dst.length := by
        simp; omega
      simp only [replaceLoop]
      rw [find_empty _ (by omega), Option.getD_some, if_pos (by omega)]
      exact ih _ _ (by omega)
  unfold replaceAll
  rw [find_empty s (Nat.zero_le _)]
  exact key fuel s 0 (List.length_pos_iff.mpr hs)

/-! ### Stripping -/

theorem head_dropWhile (p : Char → Bool) (s : List Char) : ∀ c, (s.dropWhile p).head? = some c → p c = false := by
  induction s with
  | nil => intro c h; cases h
  | cons a s ih =>
    intro c h
    by_cases ha : p a = true
    · rw [List.dropWhile_cons_of_pos ha] at h; exact ih c h
    · rw [List.dropWhile_cons_of_neg ha] at h
      simp at h; subst h; simpa using ha

/-- C78.  `Strip` removes from both ends exactly the characters of the set: what it takes off is in the
set, and the rest (if any) begins and ends with a character that is not. -/
theorem strip_spec (s chars : List Char) : ∃ a b, s = a ++ strip s chars ++ b ∧ (∀ x ∈ a, x ∈ chars) ∧ (∀ x ∈ b, x ∈ chars) ∧
    (∀ c, (strip s chars).head? = some c → c ∉ chars) ∧ (∀ c, (strip s chars).getLast? = some c → c ∉ chars) := by
  have hall : ∀ (l : List Char), ∀ x ∈ l.takeWhile chars.contains, x ∈ chars := by
    intro l x hx
    have := List.all_takeWhile (p := chars.contains) (l := l)
    rw [List.all_eq_true] at this
    simpa using this x hx
  refine ⟨(rightStrip s chars).takeWhile chars.contains, (s.reverse.takeWhile chars.contains).reverse, ?_, hall _, ?_, ?_, ?_⟩
  · have e1 : rightStrip s chars = (rightStrip s chars).takeWhile chars.contains ++ strip s chars := by
      rw [strip, leftStrip, List.takeWhile_append_dropWhile]
    rw [← e1, rightStrip, ← List.reverse_append, List.takeWhile_append_dropWhile, List.reverse_reverse]
  · intro x hx
    exact hall _ x (by simpa using hx)
  · intro c hc
    have := head_dropWhile chars.contains (rightStrip s chars) c hc
    simpa using this
  · intro c hc
    have hsuf : strip s chars <:+ rightStrip s chars := List.dropWhile_suffix _
    have hlast : (rightStrip s chars).getLast? = some c := by
      obtain ⟨t, ht⟩ := hsuf
      rw [← ht, List.getLast?_append, hc]; rfl
    rw [rightStrip, List.getLast?_reverse] at hlast
    have := head_dropWhile chars.contains s.reverse c hlast
    simpa using this

/-- C78.  The same for one end. -/
theorem leftStrip_spec (s chars : List Char) : ∃ a, s = a ++ leftStrip s chars ∧ (∀ x ∈ a, x ∈ chars) ∧
    ∀ c, (leftStrip s chars).head? = some c → c ∉ chars := by
  refine ⟨s.takeWhile chars.contains, by rw [leftStrip, List.takeWhile_append_dropWhile], fun x hx => ?_, fun c hc => ?_⟩
  · have := List.all_takeWhile (p := chars.contains) (l := s)
    rw [List.all_eq_true] at this
    simpa using this x hx
  · have := head_dropWhile chars.contains s c hc
    simpa using this

example : strip " \ta b\n".toList " \t\n".toList = "a b".toList ∧ strip "  ".toList " ".toList = [] := by decide +kernel

/-! ### StringRef -/

/-- C78.  Inside the ref, `find` gives the occurrence in the ref's own text when it gives a position whose match does not
run over the end. -/
theorem ref_find_partial {owner pat : List Char} {r : Ref} {pos p : Nat} (hr : r.b ≤ r.e)
    (h : r.find owner pat pos = some p) (hin : p + pat.length ≤ r.e - r.b) : OccursAt pat (r.str owner) p ∧ pos ≤ p := by
  unfold Ref.find at h
  split at h
  · cases h
  · rename_i q hq
    split at h
    · cases h
    · injection h with h
      obtain ⟨h1, h2, h3⟩ := find_some hq
      refine ⟨?_, by omega⟩
      rw [occursAt_iff, List.isPrefixOf_iff_prefix]
      have hlen : (r.str owner).length = min r.e owner.length - r.b := by simp [Ref.str]
      refine ⟨by omega, ?_⟩
      have e : (r.str owner).drop p = (owner.drop q).take (r.e - q) := by
        rw [Ref.str, List.drop_drop, List.drop_take]
        have : r.b + p = q := by omega
        rw [this]
      rw [e]
      have hpre : pat <+: owner.drop q := by
        refine ⟨owner.drop (q + pat.length), ?_⟩
        have hl : ((owner.drop (pos + r.b)).take (q - (pos + r.b))).length = q - (pos + r.b) := by
          rw [List.length_take, List.length_drop]; omega
        have := congrArg (List.drop ((owner.drop (pos + r.b)).take (q - (pos + r.b))).length) h2.1
        rw [List.append_assoc, List.drop_left, hl, List.drop_drop] at this
        have e1 : pos + r.b + (q - (pos + r.b)) = q := by omega
        rw [e1] at this
        exact this.symm
      rw [List.prefix_take_iff]
      exact ⟨hpre, by omega⟩

/-- C78 is violated by `StringRef::find`: it finds text that runs over the end of the ref … -/
theorem ref_find_violated : ∃ (owner : List Char) (r : Ref) (pat : List Char), Ref.find owner r pat 0 = some 1 ∧ ∀ p, ¬ OccursAt pat (r.str owner) p := by
  refine ⟨"abc".toList, ⟨0, 2⟩, "bc".toList, by decide +kernel, fun p h => ?_⟩
  rw [occursAt_iff] at h
  have hp : p ≤ 2 := h.1
  have : p = 0 ∨ p = 1 ∨ p = 2 := by omega
  rcases this with rfl | rfl | rfl <;> revert h <;> decide

/-- … and by `StringRef::substr`: with a count that is too big the part is longer than the whole. -/
theorem ref_substr_violated : ∃ (owner : List Char) (r : Ref) (n : Nat), (r.substr 0 (some n)).str owner = owner ∧ r.str owner = "a".toList ∧ owner = "abc".toList :=
  ⟨"abc".toList, ⟨0, 1⟩, 3, by decide +kernel, by decide +kernel, rfl⟩

/-- C78: `StringRef::substr` is `std::string::substr` of the text it refers to, if the part is inside of it. -/
theorem ref_substr_partial (owner : List Char) (r : Ref) (pos : Nat) :
    (r.substr pos none).str owner = (r.str owner).drop pos ∧
    ∀ n, r.b + pos + n ≤ r.e → (r.substr pos (some n)).str owner = ((r.str owner).drop pos).take n := by
  constructor
  · simp [Ref.substr, Ref.str, List.drop_drop]
  · intro n h
    simp only [Ref.substr, Ref.str, List.drop_drop, List.drop_take, List.take_take]
    congr 1; omega

example : (Ref.substr ⟨1, 5⟩ 1 (some 2)).str "abcdef".toList = "cd".toList := by decide

end Verif.Str
