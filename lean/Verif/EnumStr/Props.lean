import Verif.EnumStr.Model
import Verif.Str.IntsProps
/-
C127: the names of an enum class.
-/
namespace Verif.EnumStr

/-! ### Specification -/

/-- What a C++ compiler makes of the list of enumerators. -/
structure Spec.Native (is : List Ini) (vs : List Val) : Prop where
  len : vs.length = is.length
  first : is[0]? = some .auto → vs[0]? = some 0
  next : ∀ i : Nat, is[i + 1]? = some .auto → vs[i + 1]? = (vs[i]?).map (fun v => v + 1)
  lit : ∀ (i : Nat) (n : Val), is[i]? = some (.lit n) → vs[i]? = some n
  copy : ∀ i j : Nat, is[i]? = some (.copy j) → vs[i]? = vs[j]?
  plus : ∀ (i j : Nat) (k : Val), is[i]? = some (.plus j k) → vs[i]? = (vs[j]?).map (fun v => v + k)

/-- The enumerator that an initialiser mentions. -/
def Spec.mentions : Ini → Option Nat
  | .copy j => some j
  | .plus j _ => some j
  | _ => none

/-- Blanks. -/
def Spec.Blank (c : Char) : Prop := c = ' ' ∨ c = '\t' ∨ c = '\n' ∨ c = '\r'

/-- An identifier, as far as it matters: not empty, without blanks and separators, no digit in front. -/
structure Spec.Ident (n : Text) : Prop where
  nonempty : n ≠ []
  plain : ∀ c ∈ n, ¬ Spec.Blank c ∧ c ≠ ',' ∧ c ≠ '=' ∧ c ≠ '|'
  nodigit : ∀ c, n.head? = some c → ¬ ('0' ≤ c ∧ c ≤ '9')

/-- One enumerator in the text of the macro: blanks, the name, and the rest up to the comma. -/
structure Spec.Item where
  lead : Text
  name : Text
  tail : Text

/-- The rest is empty or begins with a blank or '='; there is no comma in it. -/
structure Spec.Item.Good (x : Spec.Item) : Prop where
  lead : ∀ c ∈ x.lead, Spec.Blank c
  name : Spec.Ident x.name
  comma : ',' ∉ x.tail
  tail : ∀ c, x.tail.head? = some c → Spec.Blank c ∨ c = '='

/-- The text of the macro. -/
def Spec.macroText : List Spec.Item → Text
  | [] => []
  | [x] => x.lead ++ x.name ++ x.tail
  | x :: r => x.lead ++ x.name ++ x.tail ++ ',' :: Spec.macroText r

/-- Texts separated by '|'. -/
def Spec.bars : List Text → Text
  | [] => []
  | [x] => x
  | x :: r => x ++ '|' :: Spec.bars r

/-- The union of flags. -/
def Spec.union : List Val → Val
  | [] => 0
  | v :: r => v ||| Spec.union r

/-! ### Values -/

theorem declare_spec (is : List Ini) : ∀ hs : List Holder, ∃ t, declare hs is = hs ++ t ∧ t.length = is.length ∧
    ∀ (i : Nat) (x : Ini), is[i]? = some x → t[i]? = some (holderOf (hs ++ t.take i) x) := by
  induction is with
  | nil => intro hs; exact ⟨[], by simp [declare], rfl, by simp⟩
  | cons x r ih =>
    intro hs
    obtain ⟨t, h1, h2, h3⟩ := ih (hs ++ [holderOf hs x])
    refine ⟨holderOf hs x :: t, by rw [declare, h1]; simp, by simp [h2], ?_⟩
    intro i y hi
    cases i with
    | zero => simp at hi; subst hi; simp
    | succ i =>
      simp at hi
      have := h3 i y hi
      simp at this
      simp [this]

theorem initValues_length (hs : List Holder) : ∀ cur, (initValues cur hs).length = hs.length := by
  induction hs with
  | nil => intro; rfl
  | cons h r ih => intro cur; simp [initValues, ih]

theorem initValues_some (hs : List Holder) : ∀ (cur : Val) (i : Nat) (v : Val), hs[i]? = some (some v) → (initValues cur hs)[i]? = some v := by
  induction hs with
  | nil => intro cur i v h; simp at h
  | cons x r ih =>
    intro cur i v h
    cases i with
    | zero => simp at h; subst h; simp [initValues]
    | succ i => simp at h; simp [initValues]; exact ih _ _ _ h

theorem initValues_next (hs : List Holder) : ∀ (cur : Val) (i : Nat), hs[i + 1]? = some none →
    (initValues cur hs)[i + 1]? = ((initValues cur hs)[i]?).map (fun v => v + 1) := by
  induction hs with
  | nil => intro cur i h; simp at h
  | cons x r ih =>
    intro cur i h
    simp only [List.getElem?_cons_succ] at h
    simp only [initValues, List.getElem?_cons_succ]
    cases i with
    | zero =>
      cases r with
      | nil => simp at h
      | cons y r => simp at h; subst h; simp [initValues]
    | succ i => simp only [List.getElem?_cons_succ]; exact ih _ _ h

/-- C127 (in part: for initialisers that mention explicitly initialised enumerators only).  The values of an enum class in the map are those the compiler gives it. -/
theorem values_partial {is : List Ini} (h : ∀ (i j : Nat) (x : Ini), is[i]? = some x → Spec.mentions x = some j → j < i ∧ is[j]? ≠ some .auto) :
    Spec.Native is (enumValues is) := by
  obtain ⟨t, h1, h2, h3⟩ := declare_spec is []
  simp only [List.nil_append] at h1 h3
  have hlook : ∀ i j : Nat, j < i → (t.take i)[j]? = t[j]? := by
    intro i j hj; rw [List.getElem?_take]; rw [if_pos hj]
  have expl : ∀ n j : Nat, j < n → ∀ x, is[j]? = some x → x ≠ .auto → ∃ v, t[j]? = some (some v) := by
    intro n
    induction n with
    | zero => intro j hj; omega
    | succ n ih =>
      intro j hj x hx hne
      have hh := h3 j x hx
      cases x with
      | auto => exact absurd rfl hne
      | lit v => exact ⟨v, hh⟩
      | plus i k => exact ⟨_, hh⟩
      | copy i =>
        obtain ⟨hlt, hna⟩ := h j i _ hx rfl
        have : i < is.length := by
          have := (List.getElem?_eq_some_iff.mp hx).1
          omega
        obtain ⟨v, hv⟩ := ih i (by omega) is[i] (List.getElem?_eq_getElem this) (by rw [List.getElem?_eq_getElem this] at hna; exact fun e => hna (by rw [e]))
        refine ⟨v, ?_⟩
        rw [hh, holderOf, hlook j i hlt, hv]; rfl
  have target : ∀ (i j : Nat) (x : Ini), is[i]? = some x → Spec.mentions x = some j → ∃ v, (t.take i)[j]? = some (some v) ∧ (initValues 0 t)[j]? = some v := by
    intro i j x hx hm
    obtain ⟨hlt, hna⟩ := h i j x hx hm
    have : j < is.length := by
      have := (List.getElem?_eq_some_iff.mp hx).1
      omega
    obtain ⟨v, hv⟩ := expl (j + 1) j (by omega) is[j] (List.getElem?_eq_getElem this) (by rw [List.getElem?_eq_getElem this] at hna; exact fun e => hna (by rw [e]))
    exact ⟨v, by rw [hlook i j hlt, hv], initValues_some t 0 j v hv⟩
  unfold enumValues
  rw [h1]
  refine ⟨by rw [initValues_length, h2], ?_, ?_, ?_, ?_, ?_⟩
  · intro h0
    have := h3 0 _ h0
    cases t with
    | nil => simp at this
    | cons y r => simp [holderOf] at this; subst this; rfl
  · intro i hi
    exact initValues_next t 0 i (h3 _ _ hi)
  · intro i n hi
    exact initValues_some t 0 i n (h3 _ _ hi)
  · intro i j hi
    obtain ⟨v, hv, hw⟩ := target i j _ hi rfl
    rw [hw]
    refine initValues_some t 0 i v ?_
    rw [h3 _ _ hi, holderOf, hv]; rfl
  · intro i j k hi
    obtain ⟨v, hv, hw⟩ := target i j _ hi rfl
    rw [hw]
    refine initValues_some t 0 i (v + k) ?_
    rw [h3 _ _ hi, holderOf, hv]; rfl

example : enumValues [.lit 5, .auto, .copy 0, .auto, .plus 2 (-7), .auto] = [5, 6, 5, 6, -2, -1] := by decide +kernel

/-- The hypothesis of `values_partial` is met by this list. -/
example : ∀ (i j : Nat) (x : Ini), ([.lit 5, .auto, .copy 0, .plus 2 1] : List Ini)[i]? = some x → Spec.mentions x = some j →
    j < i ∧ ([.lit 5, .auto, .copy 0, .plus 2 1] : List Ini)[j]? ≠ some .auto := by
  intro i j x h1 h2
  match i, h1 with
  | 0, h1 => simp at h1; subst h1; cases h2
  | 1, h1 => simp at h1; subst h1; cases h2
  | 2, h1 => simp at h1; subst h1; cases h2; simp
  | 3, h1 => simp at h1; subst h1; cases h2; simp

/-- C127 is violated by an initialiser that mentions an enumerator without initialiser: `{ A, B = A }` gives B the value 1, `{ X = 5, A, B = A + 1 }` gives it 1. -/
theorem values_violated :
    enumValues [.auto, .copy 0] = [0, 1] ∧ Spec.Native [.auto, .copy 0] [0, 0] ∧
    enumValues [.lit 5, .auto, .plus 1 1] = [5, 6, 1] ∧ Spec.Native [.lit 5, .auto, .plus 1 1] [5, 6, 7] := by
  refine ⟨by decide +kernel, ⟨rfl, ?_, ?_, ?_, ?_, ?_⟩, by decide +kernel, ⟨rfl, ?_, ?_, ?_, ?_, ?_⟩⟩
  · intro; rfl
  · intro i h
    match i, h with
    | 0, h => simp at h
  · intro i n h
    match i, h with
    | 0, h => simp at h
    | 1, h => simp at h
  · intro i j h
    match i, h with
    | 0, h => simp at h
    | 1, h => simp at h; subst h; rfl
  · intro i j k h
    match i, h with
    | 0, h => simp at h
    | 1, h => simp at h
  · intro h; simp at h
  · intro i h
    match i, h with
    | 0, h => rfl
    | 1, h => simp at h
  · intro i n h
    match i, h with
    | 0, h => simp at h; subst h; rfl
    | 1, h => simp at h
    | 2, h => simp at h
  · intro i j h
    match i, h with
    | 0, h => simp at h
    | 1, h => simp at h
    | 2, h => simp at h
  · intro i j k h
    match i, h with
    | 0, h => simp at h
    | 1, h => simp at h
    | 2, h => simp at h; obtain ⟨rfl, rfl⟩ := h; decide +kernel

/-! ### Names in the text of the macro -/

theorem isWs_iff (c : Char) : isWs c = true ↔ Spec.Blank c := by
  simp [isWs, Spec.Blank, or_assoc]

theorem drop_blanks {l r : Text} (h : ∀ c ∈ l, Spec.Blank c) : (l ++ r).dropWhile isWs = r.dropWhile isWs := by
  rw [List.dropWhile_append_of_pos (fun c hc => (isWs_iff c).mpr (h c hc))]

theorem drop_none {p : Char → Bool} {r : Text} (h : ∀ c, r.head? = some c → p c = false) : r.dropWhile p = r ∧ r.takeWhile p = [] := by
  cases r with
  | nil => exact ⟨rfl, rfl⟩
  | cons c r => have := h c rfl; simp [this]

theorem take_all {p : Char → Bool} {l r : Text} (hl : ∀ c ∈ l, p c = true) (hr : ∀ c, r.head? = some c → p c = false) :
    (l ++ r).takeWhile p = l ∧ (l ++ r).dropWhile p = r := by
  rw [List.takeWhile_append_of_pos hl, List.dropWhile_append_of_pos hl, (drop_none hr).1, (drop_none hr).2]
  simp

theorem not_blank {c : Char} (h : ¬ Spec.Blank c) : isWs c = false := by
  cases h' : isWs c with
  | false => rfl
  | true => exact absurd ((isWs_iff c).mp h') h

theorem one_item {x : Spec.Item} (h : x.Good) {rest : Text} (hr : rest = [] ∨ ∃ r, rest = ',' :: r) :
    ((x.lead ++ x.name ++ x.tail ++ rest).dropWhile isWs).takeWhile nameChar = x.name ∧
    ((((x.lead ++ x.name ++ x.tail ++ rest).dropWhile isWs).dropWhile nameChar).dropWhile (fun c => c ≠ ',')) = rest := by
  have hn : ∀ c ∈ x.name, nameChar c = true := by
    intro c hc
    obtain ⟨a, b, d, e⟩ := h.name.plain c hc
    simp [nameChar, not_blank a, b, d]
  have e1 : (x.lead ++ x.name ++ x.tail ++ rest).dropWhile isWs = x.name ++ (x.tail ++ rest) := by
    rw [List.append_assoc, List.append_assoc, drop_blanks h.lead]
    refine (drop_none ?_).1
    intro c hc
    cases hx : x.name with
    | nil => exact absurd hx h.name.nonempty
    | cons d r =>
      rw [hx] at hc; simp at hc; subst hc
      exact not_blank (h.name.plain d (by rw [hx]; simp)).1
  have e2 : ∀ c, (x.tail ++ rest).head? = some c → nameChar c = false := by
    intro c hc
    cases ht : x.tail with
    | nil =>
      rw [ht] at hc
      rcases hr with rfl | ⟨r, rfl⟩
      · simp at hc
      · simp at hc; subst hc; decide
    | cons d r =>
      rw [ht] at hc; simp at hc; subst hc
      rcases h.tail d (by rw [ht]; rfl) with hb | rfl
      · simp [nameChar, (isWs_iff d).mpr hb]
      · decide
  obtain ⟨a, b⟩ := take_all hn e2
  rw [e1]
  refine ⟨a, ?_⟩
  rw [b]
  refine (take_all ?_ ?_).2
  · intro c hc
    have : c ≠ ',' := fun e => h.comma (e ▸ hc)
    simpa using this
  · intro c hc
    rcases hr with rfl | ⟨r, rfl⟩
    · simp at hc
    · simp at hc; subst hc; simp

theorem item_ne {x : Spec.Item} (h : x.Good) (rest : Text) : x.lead ++ x.name ++ x.tail ++ rest ≠ [] := by
  have := h.name.nonempty
  simp [this]

/-- C127.  The names are read off the text of the macro, whatever the blanks and the initialisers (without commas). -/
theorem names_partial : ∀ (xs : List Spec.Item), (∀ x ∈ xs, x.Good) → parseNames xs.length (Spec.macroText xs) = some (xs.map (fun x => x.name))
  | [], _ => rfl
  | [x], h => by
    have hx := h x (by simp)
    have e := one_item hx (rest := []) (Or.inl rfl)
    have hne := item_ne hx []
    rw [List.append_nil] at e hne
    show parseNames 1 (x.lead ++ x.name ++ x.tail) = _
    rw [parseNames, if_neg hne, e.1]
    rfl
  | x :: y :: r, h => by
    have hx := h x (by simp)
    have e := one_item hx (rest := ',' :: Spec.macroText (y :: r)) (Or.inr ⟨_, rfl⟩)
    have hne := item_ne hx (',' :: Spec.macroText (y :: r))
    have ih := names_partial (y :: r) (fun z hz => h z (by simp [List.mem_cons.mp hz]))
    show parseNames ((y :: r).length + 1) (x.lead ++ x.name ++ x.tail ++ ',' :: Spec.macroText (y :: r)) = _
    rw [parseNames, if_neg hne, e.1, e.2]
    simp only [List.drop_succ_cons, List.drop_zero]
    rw [ih]
    rfl

/-- C127.  With fewer names than values the map is not made. -/
theorem names_short : ∀ (xs : List Spec.Item), (∀ x ∈ xs, x.Good) → ∀ n, xs.length < n → parseNames n (Spec.macroText xs) = none
  | [], _, n, hn => by
    cases n with
    | zero => simp at hn
    | succ n => rfl
  | [x], h, n, hn => by
    have hx := h x (by simp)
    have e := one_item hx (rest := []) (Or.inl rfl)
    have hne := item_ne hx []
    rw [List.append_nil] at e hne
    show parseNames n (x.lead ++ x.name ++ x.tail) = _
    cases n with
    | zero => simp at hn
    | succ n =>
      rw [parseNames, if_neg hne, e.2]
      cases n with
      | zero => simp at hn
      | succ n => rfl
  | x :: y :: r, h, n, hn => by
    have hx := h x (by simp)
    have e := one_item hx (rest := ',' :: Spec.macroText (y :: r)) (Or.inr ⟨_, rfl⟩)
    have hne := item_ne hx (',' :: Spec.macroText (y :: r))
    cases n with
    | zero => simp at hn
    | succ n =>
      have ih := names_short (y :: r) (fun z hz => h z (by simp [List.mem_cons.mp hz])) n (by simp at hn ⊢; omega)
      show parseNames (n + 1) (x.lead ++ x.name ++ x.tail ++ ',' :: Spec.macroText (y :: r)) = _
      rw [parseNames, if_neg hne, e.2]
      simp only [List.drop_succ_cons, List.drop_zero]
      rw [ih]
      rfl

example : parseNames 3 "Read = 1, Write= 2,\n\tAll=3".toList = some ["Read".toList, "Write".toList, "All".toList] := by decide +kernel

/-- C127 is violated by an initialiser with a comma in it: the next name is cut from the middle of it. -/
theorem names_violated : parseNames 2 "A = Max(1, 2), B".toList = some ["A".toList, "2)".toList] := by decide +kernel

end Verif.EnumStr
