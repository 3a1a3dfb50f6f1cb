import Verif.Str.Parse
import Verif.Str.SplitProps
import Verif.Str.IntsProps

/-! C81: `StringParse`. -/

namespace Verif.Str

/-! ### Specification -/

/-- A place in the format: `%_%` (skipped) or `%i%` for the argument `i - 1`, and the text after it. -/
structure Item where
  arg : Option Nat
  text : List Char
deriving DecidableEq, Repr

/-- The text of a place. -/
def Item.format (i : Item) : List Char :=
  match i.arg with
  | none => "%_%".toList ++ i.text
  | some k => '%' :: (toText u64 (k + 1 : Nat)).getD [] ++ '%' :: i.text

/-- The format: literal text, then places with text after them. -/
def formatText (head : List Char) (items : List Item) : List Char := head ++ items.flatMap Item.format

/-- What a place takes from its part of the string. -/
inductive Takes (args : Nat) (reads : Nat → List Char → Bool) : Option Nat → List Char → List (Nat × List Char) → Prop
  | skip (v : List Char) : Takes args reads none v []
  | read {i : Nat} {v : List Char} : i < args → reads i v = true → Takes args reads (some i) v [(i, v)]

/-- The string matches the places: each takes a part that is not empty, up to the next occurrence of the text after
it; a place with no text after it takes all the rest. -/
inductive Matches (args : Nat) (reads : Nat → List Char → Bool) : List Item → List Char → List (Nat × List Char) → Prop
  | nil : Matches args reads [] [] []
  | last {a v asg} : v ≠ [] → Takes args reads a v asg → Matches args reads [⟨a, []⟩] v asg
  | place {a l v rest items asg asg'} : l ≠ [] → v ≠ [] → CutsFirst l (v ++ l ++ rest) v rest → Takes args reads a v asg →
      Matches args reads items rest asg' → Matches args reads (⟨a, l⟩ :: items) (v ++ l ++ rest) (asg ++ asg')

/-- Text of a format: without `%`, or with pairs of `%` that have no index and no `_` between them. -/
inductive PlainText : List Char → Prop
  | free {x : List Char} : '%' ∉ x → PlainText x
  | pair {x b y : List Char} : '%' ∉ x → '%' ∉ b → b ≠ ['_'] → (∀ n, fromText u64 b ≠ .ok n) → PlainText y →
      PlainText (x ++ '%' :: (b ++ '%' :: y))

/-- A format in which all arguments exist, only the last place has no text after it, and the texts are
no places. -/
structure GoodItems (args : Nat) (items : List Item) : Prop where
  percent : ∀ i ∈ items, PlainText i.text
  exist : ∀ i ∈ items, ∀ k, i.arg = some k → k < args
  texts : ∀ i ∈ items.dropLast, i.text ≠ []

/-! ### The tokens of a format -/

/-- The index of a place. -/
def argIndex : Option Nat → Nat
  | none => skipIndex
  | some k => k + 1

/-- The tokens of the places. -/
def itemToks (items : List Item) : List Tok := items.flatMap fun i => .idx (argIndex i.arg) :: litTok i.text

theorem dropWhile_percent {x y : List Char} (h : '%' ∉ x) : (x ++ '%' :: y).dropWhile (· ≠ '%') = '%' :: y ∧
    (x ++ '%' :: y).takeWhile (· ≠ '%') = x := by
  induction x with
  | nil => simp
  | cons c x ih =>
    have hc : c ≠ '%' := fun hc => h (by simp [hc])
    obtain ⟨i1, i2⟩ := ih (fun hx => h (by simp [hx]))
    constructor
    · rw [List.cons_append, List.dropWhile_cons_of_pos (by simpa using hc)]; exact i1
    · rw [List.cons_append, List.takeWhile_cons_of_pos (by simpa using hc), i2]

theorem dropWhile_none {x : List Char} (h : '%' ∉ x) : x.dropWhile (· ≠ '%') = [] := by
  induction x with
  | nil => rfl
  | cons c x ih =>
    have hc : c ≠ '%' := fun hc => h (by simp [hc])
    rw [List.dropWhile_cons_of_pos (by simpa using hc)]
    exact ih (fun hx => h (by simp [hx]))

/-- The text between the markers of a place. -/
def Item.body (i : Item) : List Char :=
  match i.arg with
  | none => ['_']
  | some k => (toText u64 (k + 1 : Nat)).getD []

theorem item_body (i : Item) (hi : ∀ k, i.arg = some k → k + 1 < skipIndex) :
    i.format = '%' :: i.body ++ '%' :: i.text ∧ '%' ∉ i.body ∧ i.body ≠ [] ∧ tokIndex i.body = some (argIndex i.arg) := by
  obtain ⟨a, t⟩ := i
  cases a with
  | none => exact ⟨rfl, by simp [Item.body], by simp [Item.body], rfl⟩
  | some k =>
    have hk : k + 1 < skipIndex := hi k rfl
    unfold skipIndex at hk
    have hu : u64.Ok := by constructor <;> decide
    have hb : u64.hi < 10 ^ 31 := by decide
    have h1 : u64.lo ≤ ((k + 1 : Nat) : Int) := by show (0 : Int) ≤ _; omega
    have h2 : ((k + 1 : Nat) : Int) ≤ u64.hi := by show _ ≤ (18446744073709551615 : Int); omega
    obtain ⟨ds, e1, e2, e3, _, _⟩ := toText_spec hu hb h1 h2
    obtain ⟨s, f1, f2⟩ := fromText_toText hu hb h1 h2
    rw [if_neg (by omega)] at e1
    rw [e1] at f1
    injection f1 with f1
    subst f1
    have hdig : ∀ c ∈ ds, isDigit c = true := by rw [List.all_eq_true] at e3; exact e3
    refine ⟨by simp [Item.format, Item.body], ?_, ?_, ?_⟩
    · simp only [Item.body, e1, Option.getD_some]
      intro hc
      have := hdig _ hc
      revert this; decide
    · simp only [Item.body, e1, Option.getD_some]; exact e2
    · simp only [Item.body, e1, Option.getD_some, tokIndex, f2]
      rw [if_neg]
      · simp [argIndex]
      · intro hc
        have := hdig '_' (by rw [hc]; simp)
        revert this; decide

theorem tokIndex_none {b : List Char} (h1 : b ≠ ['_']) (h2 : ∀ n, fromText u64 b ≠ .ok n) : tokIndex b = none := by
  unfold tokIndex
  rw [if_neg h1]
  split
  · rename_i v hv; exact absurd hv (h2 v)
  · rfl

/-- Plain text joins the text before the next token. -/
theorem tokenize_plain {t rest : List Char} (ht : PlainText t) (hr : rest = [] ∨ ∃ y, rest = '%' :: y) : ∀ (lit : List Char) (n fuel : Nat),
    t.length + n < fuel → ∃ fuel', n < fuel' ∧ tokenize fuel lit (t ++ rest) = tokenize fuel' (lit ++ t) rest := by
  induction ht with
  | @free x hx =>
    intro lit n fuel hf
    obtain ⟨fuel, rfl⟩ : ∃ n, fuel = n + 1 := ⟨fuel - 1, by omega⟩
    refine ⟨fuel + 1, by omega, ?_⟩
    rcases hr with rfl | ⟨y, rfl⟩
    · simp only [List.append_nil, tokenize, dropWhile_none hx, List.dropWhile_nil]
    · obtain ⟨d1, d2⟩ := dropWhile_percent (y := y) hx
      have e1 : ('%' :: y).dropWhile (· ≠ '%') = '%' :: y := (dropWhile_percent (x := []) (y := y) (by simp)).1
      have e2 : ('%' :: y).takeWhile (· ≠ '%') = [] := (dropWhile_percent (x := []) (y := y) (by simp)).2
      simp only [tokenize, d1, d2, e1, e2, List.append_nil]
  | @pair x b y hx hb h1 h2 _ ih =>
    intro lit n fuel hf
    obtain ⟨fuel, rfl⟩ : ∃ n, fuel = n + 1 := ⟨fuel - 1, by omega⟩
    simp only [List.length_append, List.length_cons] at hf
    obtain ⟨d1, d2⟩ := dropWhile_percent (y := b ++ '%' :: (y ++ rest)) hx
    obtain ⟨d3, d4⟩ := dropWhile_percent (y := y ++ rest) hb
    obtain ⟨fuel', f1, f2⟩ := ih (lit ++ x ++ '%' :: b ++ ['%']) n fuel (by omega)
    refine ⟨fuel', f1, ?_⟩
    have e : x ++ '%' :: (b ++ '%' :: y) ++ rest = x ++ '%' :: (b ++ '%' :: (y ++ rest)) := by simp
    rw [e]
    simp only [tokenize, d1, d2, d3, d4, tokIndex_none h1 h2, ite_self]
    rw [f2]
    simp

theorem tokenize_format (items : List Item) : ∀ (head : List Char) (fuel : Nat), PlainText head → (∀ i ∈ items, PlainText i.text) →
    (∀ i ∈ items, ∀ k, i.arg = some k → k + 1 < skipIndex) → (formatText head items).length < fuel →
    tokenize fuel [] (formatText head items) = some (litTok head ++ itemToks items) := by
  induction items with
  | nil =>
    intro head fuel hh _ _ hf
    obtain ⟨fuel', f1, f2⟩ := tokenize_plain (rest := []) hh (.inl rfl) [] 0 fuel (by simpa [formatText] using hf)
    obtain ⟨fuel', rfl⟩ : ∃ n, fuel' = n + 1 := ⟨fuel' - 1, by omega⟩
    have e : formatText head [] = head ++ [] := by simp [formatText]
    rw [e, f2]
    simp [tokenize, itemToks]
  | cons i items ih =>
    intro head fuel hh hp hk hf
    obtain ⟨b1, b2, b3, b4⟩ := item_body i (hk i (by simp))
    have e : formatText head (i :: items) = head ++ '%' :: (i.body ++ '%' :: formatText i.text items) := by
      simp [formatText, b1]
    rw [e] at hf
    simp only [List.length_append, List.length_cons] at hf
    obtain ⟨fuel', f1, f2⟩ := tokenize_plain (rest := '%' :: (i.body ++ '%' :: formatText i.text items)) hh (.inr ⟨_, rfl⟩) []
      ((formatText i.text items).length + 1) fuel (by omega)
    obtain ⟨fuel', rfl⟩ : ∃ n, fuel' = n + 1 := ⟨fuel' - 1, by omega⟩
    have d1 : ('%' :: (i.body ++ '%' :: formatText i.text items)).dropWhile (· ≠ '%') = '%' :: (i.body ++ '%' :: formatText i.text items) :=
      (dropWhile_percent (x := []) (by simp)).1
    have d2 : ('%' :: (i.body ++ '%' :: formatText i.text items)).takeWhile (· ≠ '%') = [] := (dropWhile_percent (x := []) (by simp)).2
    obtain ⟨d3, d4⟩ := dropWhile_percent (y := formatText i.text items) b2
    have hlen : (i.body).length + 1 > 1 := by have := List.length_pos_iff.mpr b3; omega
    rw [e, f2]
    simp only [tokenize, d1, d2, d3, d4, hlen, if_true, b4, List.nil_append, List.append_nil]
    rw [ih i.text fuel' (hp i (by simp)) (fun j hj => hp j (by simp [hj])) (fun j hj => hk j (by simp [hj])) (by omega)]
    simp [itemToks]

/-! ### Matching -/

theorem tryRead_spec {args : Nat} {reads : Nat → List Char → Bool} {a : Option Nat} (ha : ∀ k, a = some k → k < args ∧ k + 1 < skipIndex) (v : List Char) :
    (∃ asg, tryRead args reads (argIndex a) v = some (true, asg) ∧ Takes args reads a v asg ∧ ∀ b, Takes args reads a v b → b = asg) ∨
    (∃ asg, tryRead args reads (argIndex a) v = some (false, asg) ∧ ∀ b, ¬ Takes args reads a v b) := by
  cases a with
  | none =>
    left
    refine ⟨[], by simp [tryRead, argIndex], .skip v, fun b hb => ?_⟩
    cases hb; rfl
  | some k =>
    obtain ⟨h1, h2⟩ := ha k rfl
    have hne : k + 1 ≠ skipIndex := by omega
    cases hr : reads k v with
    | true =>
      left
      refine ⟨[(k, v)], by simp [tryRead, argIndex, hne, h1, hr], .read h1 hr, fun b hb => ?_⟩
      cases hb; rfl
    | false =>
      right
      refine ⟨[], by simp [tryRead, argIndex, hne, h1, hr], fun b hb => ?_⟩
      cases hb with
      | read _ h => rw [hr] at h; cases h

theorem argIndex_ne (a : Option Nat) : argIndex a ≠ 0 := by
  cases a <;> simp [argIndex, skipIndex]

theorem cutsFirst_unique {d s a b a' b' : List Char} (h : CutsFirst d s a b) (h' : CutsFirst d s a' b') : a = a' ∧ b = b' := by
  have l1 := h.2 a'.length ⟨a', b', h'.1, rfl⟩
  have l2 := h'.2 a.length ⟨a, b, h.1, rfl⟩
  have e := h.1.symm.trans h'.1
  rw [List.append_assoc, List.append_assoc] at e
  obtain ⟨ha, hb⟩ := List.append_inj e (by omega)
  exact ⟨ha, List.append_cancel_left hb⟩

theorem find_cuts {s d : List Char} {p : Nat} (h : find s d 0 = some p) : CutsFirst d s (s.take p) (s.drop (p + d.length)) ∧ (s.take p).length = p := by
  obtain ⟨_, h2, h3⟩ := find_some h
  rw [List.drop_zero, Nat.sub_zero] at h2
  exact ⟨h2, by rw [List.length_take]; omega⟩

theorem parseLoop_places {args : Nat} {reads : Nat → List Char → Bool} (hargs : args + 1 < skipIndex) (items : List Item) : ∀ (string : List Char) (pre : List (Nat × List Char)),
    GoodItems args items →
    (∀ asg, parseLoop args reads (itemToks items) 0 string pre = .yes (pre ++ asg) ↔ Matches args reads items string asg) ∧
    (∀ out, parseLoop args reads (itemToks items) 0 string pre = .yes out → ∃ asg, out = pre ++ asg) ∧
    parseLoop args reads (itemToks items) 0 string pre ≠ .threw := by
  induction items with
  | nil =>
    intro string pre _
    have e : parseLoop args reads (itemToks []) 0 string pre = if string = [] then .yes pre else .no pre := by
      simp [itemToks, parseLoop, parseEnd]
    rw [e]
    by_cases hs : string = []
    · subst hs
      rw [if_pos rfl]
      refine ⟨fun asg => ⟨fun h => ?_, fun h => ?_⟩, fun out h => ?_, by simp⟩
      · injection h with h
        have : [] = asg := List.append_cancel_left (as := pre) (by rw [List.append_nil]; exact h)
        subst this; exact .nil
      · cases h; simp
      · injection h with h; exact ⟨[], by simp [h]⟩
    · rw [if_neg hs]
      refine ⟨fun asg => ⟨fun h => (by cases h), fun h => ?_⟩, fun out h => (by cases h), by simp⟩
      cases h; exact absurd rfl hs
  | cons i items ih =>
    obtain ⟨a, l⟩ := i
    intro string pre hg
    have hex : ∀ k, a = some k → k < args ∧ k + 1 < skipIndex := by
      intro k hk
      have := hg.exist ⟨a, l⟩ (by simp) k hk
      exact ⟨this, by omega⟩
    have hg' : GoodItems args items := by
      refine ⟨fun j hj => hg.percent j (by simp [hj]), fun j hj => hg.exist j (by simp [hj]), fun j hj => hg.texts j ?_⟩
      cases items with
      | nil => cases hj
      | cons x xs => rw [List.dropLast_cons_of_ne_nil (by simp)]; simp [hj]
    by_cases hs : string = []
    · subst hs
      have e : parseLoop args reads (itemToks (⟨a, l⟩ :: items)) 0 [] pre = .no pre := by
        simp [itemToks, parseLoop]
      rw [e]
      refine ⟨fun asg => ⟨fun h => (by cases h), fun h => ?_⟩, fun out h => (by cases h), by simp⟩
      generalize hst : ([] : List Char) = st at h
      cases h with
      | last h _ => exact absurd hst.symm h
      | place _ h _ _ _ => simp at hst; exact absurd hst.1 h
    · by_cases hl : l = []
      · -- the last place
        have hit : items = [] := by
          cases items with
          | nil => rfl
          | cons x xs =>
            exact absurd hl (hg.texts ⟨a, l⟩ (by rw [List.dropLast_cons_of_ne_nil (by simp)]; simp))
        subst hit; subst hl
        have e : parseLoop args reads (itemToks [⟨a, []⟩]) 0 string pre = parseEnd args reads (argIndex a) string pre := by
          simp [itemToks, litTok, parseLoop, hs]
        rw [e]
        unfold parseEnd
        rw [if_pos (argIndex_ne a)]
        rcases tryRead_spec (reads := reads) hex string with ⟨asg, h1, h2, h3⟩ | ⟨asg, h1, h2⟩
        · rw [h1]
          simp only []
          refine ⟨fun b => ⟨fun h => ?_, fun h => ?_⟩, fun out h => ?_, by simp⟩
          · injection h with h
            rw [← List.append_cancel_left h]
            exact .last hs h2
          · cases h with
            | last _ ht => rw [h3 _ ht]
            | place hne _ _ _ _ => exact absurd rfl hne
          · injection h with h; exact ⟨asg, h.symm⟩
        · rw [h1]
          simp only []
          refine ⟨fun b => ⟨fun h => (by cases h), fun h => ?_⟩, fun out h => (by cases h), by simp⟩
          cases h with
          | last _ ht => exact absurd ht (h2 _)
          | place hne _ _ _ _ => exact absurd rfl hne
      · have e : parseLoop args reads (itemToks (⟨a, l⟩ :: items)) 0 string pre =
            parseLoop args reads (.lit l :: itemToks items) (argIndex a) string pre := by
          simp [itemToks, litTok, hl, parseLoop, hs]
        rw [e]
        simp only [parseLoop, hs, if_false]
        cases hfnd : find string l 0 with
        | none =>
          simp only []
          refine ⟨fun b => ⟨fun h => (by cases h), fun h => ?_⟩, fun out h => (by cases h), by simp⟩
          have hno := find_none hfnd (Nat.zero_le _)
          rw [List.drop_zero] at hno
          cases h with
          | last _ _ => exact absurd rfl hl
          | @place _ _ v rest _ _ _ _ _ _ _ _ => exact absurd ⟨v, rest, rfl, rfl⟩ (hno v.length)
        | some p =>
          obtain ⟨c1, c2⟩ := find_cuts hfnd
          simp only [ne_eq, argIndex_ne a, not_false_eq_true, if_true]
          by_cases hp : p > 0
          · rw [if_pos hp]
            have hv : string.take p ≠ [] := by
              intro h0; rw [h0] at c2; simp at c2; omega
            rcases tryRead_spec (reads := reads) hex (string.take p) with ⟨asg, h1, h2, h3⟩ | ⟨asg, h1, h2⟩
            · rw [h1]
              simp only []
              obtain ⟨i1, i2, i3⟩ := ih (string.drop (p + l.length)) (pre ++ asg) hg'
              refine ⟨fun b => ⟨fun h => ?_, fun h => ?_⟩, fun out h => ?_, i3⟩
              · obtain ⟨b', hb'⟩ := i2 _ h
                rw [List.append_assoc] at hb'
                have hb'' := List.append_cancel_left hb'
                subst hb''
                rw [← List.append_assoc] at h
                have hm := (i1 b').mp h
                have hst := c1.1
                rw [hst]
                exact .place hl hv (hst ▸ c1) h2 hm
              · generalize hst : string = st at h
                cases h with
                | last _ _ => exact absurd rfl hl
                | @place _ _ v rest _ asg1 asg2 _ hv' hcut ht hm =>
                  rw [← hst] at hcut
                  obtain ⟨ev, er⟩ := cutsFirst_unique c1 hcut
                  rw [← ev] at ht
                  rw [h3 _ ht, ← List.append_assoc]
                  rw [← er] at hm
                  rw [← hst]
                  exact (i1 asg2).mpr hm
              · obtain ⟨b', hb'⟩ := i2 _ h
                exact ⟨asg ++ b', by rw [hb', List.append_assoc]⟩
            · rw [h1]
              simp only []
              refine ⟨fun b => ⟨fun h => (by cases h), fun h => ?_⟩, fun out h => (by cases h), by simp⟩
              generalize hst : string = st at h
              cases h with
              | last _ _ => exact absurd rfl hl
              | @place _ _ v rest _ asg1 asg2 _ hv' hcut ht hm =>
                rw [← hst] at hcut
                obtain ⟨ev, _⟩ := cutsFirst_unique c1 hcut
                rw [← ev] at ht
                exact absurd ht (h2 _)
          · rw [if_neg hp]
            refine ⟨fun b => ⟨fun h => (by cases h), fun h => ?_⟩, fun out h => (by cases h), by simp⟩
            generalize hst : string = st at h
            cases h with
            | last _ _ => exact absurd rfl hl
            | @place _ _ v rest _ asg1 asg2 _ hv' hcut ht hm =>
              rw [← hst] at hcut
              obtain ⟨ev, _⟩ := cutsFirst_unique c1 hcut
              have := congrArg List.length ev
              rw [c2] at this
              have := List.length_pos_iff.mpr hv'
              omega

/-- C81, for formats that begin with a place: `StringParse` succeeds with the assignments `asg` exactly if
the whole string matches the places. -/
theorem parse_places_partial {args : Nat} {reads : Nat → List Char → Bool} (hargs : args + 1 < skipIndex) {items : List Item} (hg : GoodItems args items)
    (string : List Char) (asg : List (Nat × List Char)) :
    (stringParse args reads string (formatText [] items) = .yes asg ↔ Matches args reads items string asg) ∧
    stringParse args reads string (formatText [] items) ≠ .threw := by
  unfold stringParse
  rw [tokenize_format items [] _ (.free (by simp)) hg.percent (fun i hi k hk => by have := hg.exist i hi k hk; omega) (by omega)]
  simp only [litTok, if_true, List.nil_append]
  obtain ⟨h1, _, h3⟩ := parseLoop_places (reads := reads) hargs items string [] hg
  exact ⟨h1 asg, h3⟩

/-- Reads decimal numbers into the arguments. -/
def readsNumber (_ : Nat) (text : List Char) : Bool :=
  match fromText s32 text with
  | .ok _ => true
  | _ => false

example : GoodItems 2 [⟨some 1, ":".toList⟩, ⟨none, ", ".toList⟩, ⟨some 0, []⟩] ∧
    formatText [] [⟨some 1, ":".toList⟩, ⟨none, ", ".toList⟩, ⟨some 0, []⟩] = "%2%:%_%, %1%".toList ∧
    stringParse 2 readsNumber "12:x, 34".toList "%2%:%_%, %1%".toList = .yes [(1, "12".toList), (0, "34".toList)] :=
  ⟨⟨by simp; exact ⟨.free (by decide), .free (by decide), .free (by decide)⟩, by decide, by decide⟩, by decide +kernel, by decide +kernel⟩

/-- A text with percent signs. -/
example : PlainText "100%% and %x% ".toList ∧
    stringParse 1 readsNumber "100%% and %x% 5".toList (formatText "100%% and %x% ".toList [⟨some 0, []⟩]) = .yes [(0, "5".toList)] :=
  ⟨.pair (x := "100".toList) (b := []) (by decide) (by decide) (by decide) (fun n h => by cases h)
    (.pair (x := " and ".toList) (b := "x".toList) (by decide) (by decide) (by decide) (fun n h => nomatch (show Parsed.formatError = .ok n from h)) (.free (by decide))), by decide +kernel⟩

/-- C81, formats that begin with text: anything may come before the first occurrence of the text in the
string. -/
theorem parse_head_partial {args : Nat} {reads : Nat → List Char → Bool} (hargs : args + 1 < skipIndex) {head : List Char} {items : List Item}
    (hh : head ≠ []) (hhp : PlainText head) (hg : GoodItems args items) (string : List Char) (asg : List (Nat × List Char)) :
    (stringParse args reads string (formatText head items) = .yes asg ↔
      ∃ junk rest, CutsFirst head string junk rest ∧ Matches args reads items rest asg) := by
  unfold stringParse
  rw [tokenize_format items head _ hhp hg.percent (fun i hi k hk => by have := hg.exist i hi k hk; omega) (by omega)]
  simp only [litTok, if_neg hh, List.singleton_append, parseLoop]
  by_cases hs : string = []
  · rw [if_pos hs]
    refine ⟨fun h => (by cases h), fun ⟨junk, rest, hc, _⟩ => ?_⟩
    have := hc.1
    rw [hs] at this
    simp at this
    exact absurd this.2.1 hh
  · rw [if_neg hs]
    cases hfnd : find string head 0 with
    | none =>
      simp only []
      have hno := find_none hfnd (Nat.zero_le _)
      rw [List.drop_zero] at hno
      exact ⟨fun h => (by cases h), fun ⟨junk, rest, hc, _⟩ => absurd ⟨junk, rest, hc.1, rfl⟩ (hno junk.length)⟩
    | some p =>
      obtain ⟨c1, _⟩ := find_cuts hfnd
      simp only [ne_eq, not_true_eq_false, if_false]
      obtain ⟨h1, _, _⟩ := parseLoop_places (reads := reads) hargs items (string.drop (p + head.length)) [] hg
      have h1 := h1 asg
      rw [List.nil_append] at h1
      rw [h1]
      refine ⟨fun h => ⟨_, _, c1, h⟩, fun ⟨junk, rest, hc, hm⟩ => ?_⟩
      obtain ⟨_, e⟩ := cutsFirst_unique hc c1
      rw [← e]; exact hm

/-- C81.  In particular a string that begins with the text of the format and matches the places is accepted. -/
theorem parse_head_accepts {args : Nat} {reads : Nat → List Char → Bool} (hargs : args + 1 < skipIndex) {head : List Char} {items : List Item}
    (hh : head ≠ []) (hhp : PlainText head) (hg : GoodItems args items) {rest : List Char} {asg : List (Nat × List Char)} (hm : Matches args reads items rest asg) :
    stringParse args reads (head ++ rest) (formatText head items) = .yes asg :=
  (parse_head_partial hargs hh hhp hg _ _).mpr ⟨[], rest, ⟨by simp, fun _ _ => Nat.zero_le _⟩, hm⟩

/-- What matching means for the string: it is the parts and the texts after them, one after the other, and what was
assigned are parts of it. -/
theorem Matches.concat {args : Nat} {reads : Nat → List Char → Bool} {items : List Item} {string : List Char} {asg : List (Nat × List Char)}
    (h : Matches args reads items string asg) : ∃ vs : List (List Char), vs.length = items.length ∧ (∀ v ∈ vs, v ≠ []) ∧
      string = (List.zipWith (fun v (i : Item) => v ++ i.text) vs items).flatten ∧ ∀ x ∈ asg, x.2 ∈ vs ∧ reads x.1 x.2 = true := by
  induction h with
  | nil => exact ⟨[], rfl, by simp, rfl, by simp⟩
  | @last a v asg hv ht =>
    refine ⟨[v], rfl, by simp [hv], by simp, fun x hx => ?_⟩
    cases ht with
    | skip => cases hx
    | read h1 h2 => simp at hx; subst hx; exact ⟨by simp, h2⟩
  | @place a l v rest items asg asg' _ hv _ ht _ ih =>
    obtain ⟨vs, i1, i2, i3, i4⟩ := ih
    refine ⟨v :: vs, by simp [i1], ?_, ?_, ?_⟩
    · intro u hu
      rcases List.mem_cons.mp hu with rfl | hu
      · exact hv
      · exact i2 u hu
    · rw [List.zipWith_cons_cons, List.flatten_cons, ← i3]
    · intro x hx
      rcases List.mem_append.mp hx with hx | hx
      · cases ht with
        | skip => cases hx
        | read h1 h2 => simp at hx; subst hx; exact ⟨by simp, h2⟩
      · obtain ⟨h1, h2⟩ := i4 x hx
        exact ⟨by simp [h1], h2⟩

/-- C81 is violated by formats that begin with text: the string need not begin with it. -/
theorem parse_unanchored_violated : stringParse 1 readsNumber "not an id=5".toList "id=%1%".toList = .yes [(0, "5".toList)] := by decide +kernel

/-- C81 is violated by adjacent places: all but the last are forgotten and their arguments not assigned. -/
theorem parse_adjacent_violated : stringParse 2 readsNumber "12".toList "%1%%2%".toList = .yes [(1, "12".toList)] := by decide +kernel

/-- C81 is violated by failures: arguments read before have already been assigned. -/
theorem parse_failure_assigns_violated : stringParse 2 readsNumber "1 x".toList "%1% %2%".toList = .no [(0, "1".toList)] := by decide +kernel

/-- C81: a doubled `%` is not a percent sign but two. -/
theorem parse_percent : stringParse 1 readsNumber "5%%".toList "%1%%%".toList = .yes [(0, "5".toList)] ∧
    stringParse 1 readsNumber "5%".toList "%1%%%".toList = .no [] := by decide +kernel

end Verif.Str
