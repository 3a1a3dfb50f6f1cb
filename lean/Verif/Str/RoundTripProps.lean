import Verif.Str.FormatProps
import Verif.Str.ParseProps
/-!
`StringParse` reads back what `StringFormat` has written with the same format, for integers of any types.
-/
namespace Verif.Str

/-- A format with places for some of `n` arguments, in any order, with text between them that no number contains at its beginning and without `%`. -/
structure Readable (n : Nat) (head : List Char) (places : List (Nat × List Char)) : Prop where
  percent : '%' ∉ head ∧ ∀ p ∈ places, '%' ∉ p.2
  exist : ∀ p ∈ places, p.1 < n
  apart : ∀ p ∈ places.dropLast, p.2 ≠ []
  first : ∀ p ∈ places, ∀ c, p.2.head? = some c → isDigit c = false ∧ c ≠ '-' ∧ c ≠ '+'

/-- The format: the text at the beginning, then the places `%i%`, counted from 1, with the text after each. -/
def placesText (head : List Char) (places : List (Nat × List Char)) : List Char :=
  formatText head (places.map fun p => ⟨some p.1, p.2⟩)

/-- The texts of the arguments. -/
def argTexts (args : List (IntTy × Int)) : List (List Char) := args.map fun a => (toText a.1 a.2).getD []

/-- Reading argument `i`: the text is a number of its type. -/
def readsArg (args : List (IntTy × Int)) (i : Nat) (text : List Char) : Bool :=
  match args[i]? with
  | none => false
  | some a => match fromText a.1 text with
    | .ok _ => true
    | _ => false

/-- The texts of the arguments at their places. -/
def written (args : List (IntTy × Int)) (head : List Char) (places : List (Nat × List Char)) : List Char :=
  head ++ places.flatMap fun p => ((argTexts args)[p.1]?).getD [] ++ p.2

theorem int_text {t : IntTy} (ht : t ∈ [s8, u8, s16, u16, s32, u32, s64, u64]) {v : Int} (h1 : t.lo ≤ v) (h2 : v ≤ t.hi) :
    ∃ s, toText t v = some s ∧ fromText t s = .ok v ∧ s ≠ [] ∧ ∀ c ∈ s, isDigit c = true ∨ c = '-' ∨ c = '+' := by
  have hk := int_types_ok t ht
  obtain ⟨s, e1, e2⟩ := fromText_toText hk.1 hk.2 h1 h2
  refine ⟨s, e1, e2, ?_, Num.fromText_chars e2⟩
  rintro rfl
  cases e2

theorem formats_plain {texts : List (List Char)} {x : List Char} (hx : '%' ∉ x) {ps : List Piece} {r : List Char} (h : Formats texts ps r) :
    Formats texts (x.map .char ++ ps) (x ++ r) := by
  induction x with
  | nil => exact h
  | cons c x ih =>
    simp only [List.mem_cons, not_or] at hx
    exact .cons (a := [c]) (.char fun e => hx.1 e.symm) (ih hx.2)

theorem cuts_number {s l rest : List Char} (hl : l ≠ []) (h : ∀ c, l.head? = some c → isDigit c = false ∧ c ≠ '-' ∧ c ≠ '+')
    (hs : ∀ c ∈ s, isDigit c = true ∨ c = '-' ∨ c = '+') : CutsFirst l (s ++ l ++ rest) s rest := by
  refine ⟨rfl, fun p ⟨x, y, e, hp⟩ => ?_⟩
  refine Classical.byContradiction fun hlt => ?_
  cases l with
  | nil => exact hl rfl
  | cons c l =>
    have hx : x.length < s.length := by omega
    have e1 := congrArg (fun z => z[x.length]?) e
    simp only [List.append_assoc] at e1
    rw [List.getElem?_append_left hx, List.getElem?_append_right (Nat.le_refl _), Nat.sub_self] at e1
    simp only [List.cons_append, List.getElem?_cons_zero] at e1
    have hc := List.mem_of_getElem? e1
    obtain ⟨h1, h2, h3⟩ := h c rfl
    rcases hs c hc with h | h | h
    · rw [h1] at h; cases h
    · exact h2 h
    · exact h3 h

/-- What `StringFormat` writes with such a format. -/
theorem format_places {args : List (IntTy × Int)} (hn : args.length + 1 < skipIndex) {head : List Char} {places : List (Nat × List Char)}
    (hr : Readable args.length head places) : stringFormat (placesText head places) (argTexts args) = some (written args head places) := by
  have hp : ∀ places : List (Nat × List Char), (∀ p ∈ places, '%' ∉ p.2) → (∀ p ∈ places, p.1 < args.length) →
      ∃ ps : List Piece, (places.map fun p => (⟨some p.1, p.2⟩ : Item)).flatMap Item.format = ps.flatMap Piece.text ∧
        Formats (argTexts args) ps (places.flatMap fun p => ((argTexts args)[p.1]?).getD [] ++ p.2) := by
    intro places
    induction places with
    | nil => intro _ _; exact ⟨[], rfl, .nil⟩
    | cons p places ih =>
      intro h1 h2
      obtain ⟨ps, e1, e2⟩ := ih (fun q hq => h1 q (List.mem_cons_of_mem _ hq)) (fun q hq => h2 q (List.mem_cons_of_mem _ hq))
      have hlt := h2 p List.mem_cons_self
      unfold skipIndex at hn
      obtain ⟨s, f1, f2⟩ := fromText_toText (int_types_ok u64 (by simp)).1 (int_types_ok u64 (by simp)).2 (v := ((p.1 + 1 : Nat) : Int))
        (by show (0 : Int) ≤ _; omega) (by show _ ≤ (18446744073709551615 : Int); omega)
      refine ⟨.arg s none :: (p.2.map .char ++ ps), ?_, ?_⟩
      · have hc : ∀ x : List Char, (x.map Piece.char).flatMap Piece.text = x := by
          intro x
          induction x with
          | nil => rfl
          | cons c x ih => rw [List.map_cons, List.flatMap_cons, ih]; rfl
        rw [List.map_cons, List.flatMap_cons, List.flatMap_cons, List.flatMap_append, hc, e1]
        have f1' : toText u64 ((p.1 : Int) + 1) = some s := f1
        simp [Item.format, f1', Piece.text]
      · rw [List.flatMap_cons, List.append_assoc]
        refine .cons ?_ (formats_plain (h1 p List.mem_cons_self) e2)
        have hl : p.1 < (argTexts args).length := by unfold argTexts; rw [List.length_map]; exact hlt
        rw [List.getElem?_eq_getElem hl]
        exact .arg f2 (List.getElem?_eq_getElem hl)
  obtain ⟨ps, e1, e2⟩ := hp places hr.percent.2 hr.exist
  rw [stringFormat_spec]
  refine ⟨head.map .char ++ ps, ?_, formats_plain hr.percent.1 e2⟩
  have hc : ∀ x : List Char, (x.map Piece.char).flatMap Piece.text = x := by
    intro x
    induction x with
    | nil => rfl
    | cons c x ih => rw [List.map_cons, List.flatMap_cons, ih]; rfl
  unfold placesText formatText
  rw [List.flatMap_append, hc, e1]

/-- The written text matches the places. -/
theorem written_matches {args : List (IntTy × Int)} (ha : ∀ a ∈ args, a.1 ∈ [s8, u8, s16, u16, s32, u32, s64, u64] ∧ a.1.lo ≤ a.2 ∧ a.2 ≤ a.1.hi) :
    ∀ places : List (Nat × List Char), (∀ p ∈ places, p.1 < args.length) → (∀ p ∈ places.dropLast, p.2 ≠ []) →
      (∀ p ∈ places, ∀ c, p.2.head? = some c → isDigit c = false ∧ c ≠ '-' ∧ c ≠ '+') →
      Matches args.length (readsArg args) (places.map fun p => ⟨some p.1, p.2⟩) (places.flatMap fun p => ((argTexts args)[p.1]?).getD [] ++ p.2)
        (places.map fun p => (p.1, ((argTexts args)[p.1]?).getD [])) := by
  intro places
  induction places with
  | nil => intro _ _ _; exact .nil
  | cons p places ih =>
    intro h1 h2 h3
    obtain ⟨k, l⟩ := p
    have hk : k < args.length := h1 _ List.mem_cons_self
    have hka := ha _ (List.getElem_mem hk)
    obtain ⟨s, e1, e2, e3, e4⟩ := int_text hka.1 hka.2.1 hka.2.2
    have et : (argTexts args)[k]? = some s := by
      unfold argTexts
      rw [List.getElem?_map, List.getElem?_eq_getElem hk, Option.map_some, e1]
      rfl
    have htk : Takes args.length (readsArg args) (some k) s [(k, s)] := by
      refine .read hk ?_
      unfold readsArg
      rw [List.getElem?_eq_getElem hk]
      dsimp only
      rw [e2]
    have ih := ih (fun p hp => h1 p (List.mem_cons_of_mem _ hp))
    rw [List.map_cons, List.flatMap_cons, List.map_cons]
    dsimp only
    rw [et, Option.getD_some]
    by_cases hl : l = []
    · subst hl
      cases places with
      | nil =>
        simp only [List.map_nil, List.flatMap_nil, List.append_nil]
        exact .last e3 htk
      | cons q qs => exact absurd rfl (h2 (k, []) (by simp))
    · refine .place (asg := [(k, s)]) hl e3 (cuts_number hl (h3 _ List.mem_cons_self) e4) htk (ih ?_ (fun p hp => h3 p (List.mem_cons_of_mem _ hp)))
      intro p hp
      refine h2 p ?_
      cases places with
      | nil => cases hp
      | cons q qs => exact List.mem_cons_of_mem _ hp

/-- Numbers of any integer types, written with `StringFormat`, are read back by `StringParse` with the same format: the text is accepted, every argument that has
a place is assigned, in the order of the places, and each gets a text from which its number is read.  Missing: texts between the places that begin with a digit or a sign, places without
text between them, see `adjacent_lost_violated` and `digit_after_violated`. -/
theorem roundtrip_partial {args : List (IntTy × Int)} (ha : ∀ a ∈ args, a.1 ∈ [s8, u8, s16, u16, s32, u32, s64, u64] ∧ a.1.lo ≤ a.2 ∧ a.2 ≤ a.1.hi)
    (hn : args.length + 1 < skipIndex) {head : List Char} {places : List (Nat × List Char)} (hr : Readable args.length head places) :
    ∃ text assigned, stringFormat (placesText head places) (argTexts args) = some text ∧
      stringParse args.length (readsArg args) text (placesText head places) = .yes assigned ∧
      assigned.map Prod.fst = places.map Prod.fst ∧
      ∀ x ∈ assigned, ∃ a, args[x.1]? = some a ∧ fromText a.1 x.2 = .ok a.2 := by
  have hm := written_matches ha places hr.exist hr.apart hr.first
  have hg : GoodItems args.length (places.map fun p => (⟨some p.1, p.2⟩ : Item)) := by
    refine ⟨fun i hi => ?_, fun i hi k hk => ?_, fun i hi => ?_⟩
    · obtain ⟨p, hp, rfl⟩ := List.mem_map.mp hi
      exact .free (hr.percent.2 p hp)
    · obtain ⟨p, hp, rfl⟩ := List.mem_map.mp hi
      injection hk with hk
      subst hk
      exact hr.exist p hp
    · rw [← List.map_dropLast] at hi
      obtain ⟨p, hp, rfl⟩ := List.mem_map.mp hi
      exact hr.apart p hp
  refine ⟨written args head places, places.map fun p => (p.1, ((argTexts args)[p.1]?).getD []), format_places hn hr, ?_, ?_, ?_⟩
  rotate_left
  · rw [List.map_map]; rfl
  · intro x hx
    obtain ⟨p, hp, rfl⟩ := List.mem_map.mp hx
    have hk := hr.exist p hp
    have hka := ha _ (List.getElem_mem hk)
    obtain ⟨s, e1, e2, _, _⟩ := int_text hka.1 hka.2.1 hka.2.2
    refine ⟨_, List.getElem?_eq_getElem hk, ?_⟩
    dsimp only
    unfold argTexts
    rw [List.getElem?_map, List.getElem?_eq_getElem hk, Option.map_some, e1]
    exact e2
  · unfold placesText written
    by_cases hh : head = []
    · subst hh
      exact (parse_places_partial hn hg _ _).1.mpr hm
    · exact parse_head_accepts hn hh (.free hr.percent.1) hg hm

/-- Places next to each other: the text is written, and reading it back assigns only the last one, wrongly. -/
theorem adjacent_lost_violated : stringFormat "%1%%2%".toList (argTexts [(s32, 1), (s32, 2)]) = some "12".toList ∧
    stringParse 2 (readsArg [(s32, 1), (s32, 2)]) "12".toList "%1%%2%".toList = .yes [(1, "12".toList)] := by decide +kernel

/-- Text that begins with a digit: it is found too early. -/
theorem digit_after_violated : stringFormat "%1%0 %2%".toList (argTexts [(s32, 100), (s32, 2)]) = some "1000 2".toList ∧
    stringParse 2 (readsArg [(s32, 100), (s32, 2)]) "1000 2".toList "%1%0 %2%".toList = .yes [(0, "100".toList), (1, "2".toList)] ∧
    stringFormat "%1%-%2%".toList (argTexts [(s32, -5), (s32, 2)]) = some "-5-2".toList ∧
    stringParse 2 (readsArg [(s32, -5), (s32, 2)]) "-5-2".toList "%1%-%2%".toList = .no [] := by decide +kernel

/-! Not vacuous. -/
example : Readable 2 "x = ".toList [(1, ", y = ".toList), (0, [])] :=
  ⟨⟨by decide, by decide⟩, by decide, by decide, by
    intro p hp c hc
    simp only [List.mem_cons, List.not_mem_nil, or_false] at hp
    rcases hp with rfl | rfl
    · simp at hc; subst hc; decide
    · cases hc⟩
example : stringFormat (placesText "x = ".toList [(1, ", y = ".toList), (0, [])]) (argTexts [(s64, -12), (u8, 255)]) = some "x = 255, y = -12".toList ∧
    stringParse 2 (readsArg [(s64, -12), (u8, 255)]) "x = 255, y = -12".toList (placesText "x = ".toList [(1, ", y = ".toList), (0, [])]) =
      .yes [(1, "255".toList), (0, "-12".toList)] := by decide +kernel

end Verif.Str
