import Verif.Util.Uuid
import Verif.Str.HexProps

namespace Verif.Util

open Verif.Str

namespace Spec

/-- `text` is laid out as the format says: two hexadecimal digits (upper or lower case) of the next byte for every `XX`, everything else literally. -/
inductive Lays : List Char → List Char → List Nat → Prop
  | nil : Lays [] [] []
  | byte {f s : List Char} {bs : List Nat} {a b : Char} {v : Nat} : hexNumber [a, b] = some v → Lays f s bs → Lays ('X' :: 'X' :: f) (a :: b :: s) (v :: bs)
  | lit {f s : List Char} {bs : List Nat} {c : Char} : c ≠ 'X' → Lays f s bs → Lays (c :: f) (c :: s) bs

/-- A format of `n` bytes. -/
inductive Fmt : List Char → Nat → Prop
  | nil : Fmt [] 0
  | byte {f : List Char} {n : Nat} : Fmt f n → Fmt ('X' :: 'X' :: f) (n + 1)
  | lit {f : List Char} {n : Nat} {c : Char} : c ≠ 'X' → Fmt f n → Fmt (c :: f) n

end Spec

open Spec

theorem uuid_format : Fmt uuidFormat 16 := by
  show Fmt ['X','X','X','X','X','X','X','X','-','X','X','X','X','-','X','X','X','X','-','X','X','X','X','-','X','X','X','X','X','X','X','X','X','X','X','X'] 16
  have d : '-' ≠ 'X' := by decide
  exact .byte (.byte (.byte (.byte (.lit d (.byte (.byte (.lit d (.byte (.byte (.lit d (.byte (.byte (.lit d (.byte (.byte (.byte (.byte (.byte (.byte .nil)))))))))))))))))))

theorem fromHex_two (a b : Char) : (∃ v, fromHex 255 [a, b] = .ok (v : Nat) ∧ hexNumber [a, b] = some v ∧ v < 256) ∨ ((∀ v, fromHex 255 [a, b] ≠ .ok v) ∧ hexNumber [a, b] = none) := by
  rw [fromHex_spec (by decide), if_neg (by simp)]
  cases h : hexNumber [a, b] with
  | none => exact Or.inr ⟨fun v e => (nomatch e), rfl⟩
  | some v =>
    have hv : v < 256 := by
      by_cases ha : isHexChar a = true
      · by_cases hb : isHexChar b = true
        · have := hexNumber_some [a, b] (by simp [ha, hb]) 0
          rw [hexNumber, this] at h
          cases h
          have h1 := hexVal_lt ha
          have h2 := hexVal_lt hb
          simp only [hexFold, List.foldl]; omega
        · have := hexNumber_none [a, b] (by simp [hb]) 0
          rw [hexNumber, this] at h; cases h
      · have := hexNumber_none [a, b] (by simp [ha]) 0
        rw [hexNumber, this] at h; cases h
    refine Or.inl ⟨v, ?_, rfl, hv⟩
    simp only []
    rw [if_pos (by omega)]

theorem scan_spec {f : List Char} {n : Nat} (hf : Fmt f n) : ∀ (s : List Char) (bs : List Nat), s.length = f.length → (uuidScan f s = some bs ↔ Lays f s bs) := by
  induction hf with
  | nil =>
    intro s bs hl
    cases s with
    | cons _ _ => simp at hl
    | nil =>
      unfold uuidScan
      constructor
      · intro h; cases h; exact .nil
      · intro h; cases h; rfl
  | @byte f n _ ih =>
    intro s bs hl
    match s, hl with
    | a :: b :: s, hl =>
      have hl' : s.length = f.length := by simpa using hl
      unfold uuidScan
      rw [if_pos rfl]
      rcases fromHex_two a b with ⟨v, h1, h2, -⟩ | ⟨h1, h2⟩
      · simp only [h1, Int.toNat_natCast, Option.map_eq_some_iff]
        constructor
        · rintro ⟨l, h3, rfl⟩
          exact .byte h2 ((ih s l hl').mp h3)
        · intro h
          cases h with
          | byte h4 h5 =>
            rw [h2] at h4; cases h4
            exact ⟨_, (ih s _ hl').mpr h5, rfl⟩
          | lit h4 _ => exact absurd rfl h4
      · constructor
        · intro h
          simp only [] at h
          cases h
        · intro h
          cases h with
          | byte h4 h5 => rw [h2] at h4; cases h4
          | lit h4 _ => exact absurd rfl h4
  | @lit f n c hc _ ih =>
    intro s bs hl
    match s, hl with
    | a :: s, hl =>
      have hl' : s.length = f.length := by simpa using hl
      unfold uuidScan
      rw [if_neg hc]
      simp only []
      by_cases e : a = c
      · rw [if_pos e, ih s bs hl', e]
        constructor
        · exact .lit hc
        · intro h
          cases h with
          | byte => exact absurd rfl hc
          | lit _ h5 => exact h5
      · rw [if_neg e]
        constructor
        · intro h; cases h
        · intro h
          cases h with
          | byte => exact absurd rfl hc
          | lit _ h5 => exact absurd rfl e

theorem Spec.Lays.length {f s : List Char} {bs : List Nat} (h : Lays f s bs) : s.length = f.length := by
  induction h with
  | nil => rfl
  | byte _ _ ih => simp [ih]
  | lit _ _ ih => simp [ih]

theorem Spec.Lays.bytes {f s : List Char} {bs : List Nat} (h : Lays f s bs) : ∀ b ∈ bs, b < 256 := by
  induction h with
  | nil => simp
  | @byte f s bs a b v h1 _ ih =>
    rcases fromHex_two a b with ⟨w, _, h2, h3⟩ | ⟨_, h2⟩
    · rw [h1] at h2; cases h2
      exact List.forall_mem_cons.mpr ⟨h3, ih⟩
    · rw [h1] at h2; cases h2
  | lit _ _ ih => exact ih

/-- `FromString` accepts exactly the texts laid out as `GetRepresentation` says, and gives the bytes written there; everything else is refused. -/
theorem uuid_from_text (s : List Char) (bs : List Nat) : uuidFromText s = some bs ↔ Lays uuidFormat s bs := by
  unfold uuidFromText
  by_cases h : s.length = uuidFormat.length
  · rw [if_pos h]; exact scan_spec uuid_format s bs h
  · rw [if_neg h]
    exact ⟨fun e => (nomatch e), fun e => absurd e.length h⟩

theorem Spec.Lays.count {f s : List Char} {bs : List Nat} (h : Lays f s bs) : ∀ {n : Nat}, Fmt f n → bs.length = n := by
  induction h with
  | nil => intro n hf; cases hf; rfl
  | byte _ _ ih =>
    intro n hf
    cases hf with
    | byte h1 => simp [ih h1]
    | lit h1 _ => exact absurd rfl h1
  | lit hc _ ih =>
    intro n hf
    cases hf with
    | byte h1 => exact absurd rfl hc
    | lit _ h1 => exact ih h1

theorem print_lays {f : List Char} {n : Nat} (hf : Fmt f n) : ∀ bs : List Nat, bs.length = n → (∀ b ∈ bs, b < 256) →
    Lays f (uuidPrint f bs) bs ∧ ∀ c ∈ uuidPrint f bs, c ∉ ['A', 'B', 'C', 'D', 'E', 'F'] ∨ c ∈ f := by
  induction hf with
  | nil =>
    intro bs h _
    cases bs with
    | nil => exact ⟨.nil, by simp [uuidPrint]⟩
    | cons _ _ => simp at h
  | @byte f n _ ih =>
    intro bs h hb
    match bs, h with
    | b :: bs, h =>
      obtain ⟨h1, h2⟩ := List.forall_mem_cons.mp hb
      obtain ⟨i1, i2⟩ := ih bs (by simpa using h) h2
      obtain ⟨x, y, e, e2, -⟩ := toHex_byte h1 false
      have e3 : hexNumber [x, y] = some b := by
        rcases fromHex_two x y with ⟨v, h3, h4, _⟩ | ⟨h3, _⟩
        · rw [h3] at e2
          injection e2 with e2
          have : v = b := by omega
          rw [h4, this]
        · exact absurd e2 (h3 _)
      unfold uuidPrint
      rw [if_pos rfl]
      simp only [e]
      refine ⟨.byte e3 i1, ?_⟩
      have low : ∀ c ∈ toHex 1 b 2 false, c ∉ ['A', 'B', 'C', 'D', 'E', 'F'] := by
        have : ∀ b < 256, ∀ c ∈ toHex 1 b 2 false, c ∉ ['A', 'B', 'C', 'D', 'E', 'F'] := by decide +kernel
        exact this b h1
      rw [e] at low
      intro c hc
      rcases List.mem_append.mp hc with hc | hc
      · exact Or.inl (low c hc)
      · rcases i2 c hc with h3 | h3
        · exact Or.inl h3
        · exact Or.inr (by simp [h3])
  | @lit f n c hc _ ih =>
    intro bs h hb
    obtain ⟨i1, i2⟩ := ih bs h hb
    unfold uuidPrint
    rw [if_neg hc]
    refine ⟨.lit hc i1, ?_⟩
    intro d hd
    rcases List.mem_cons.mp hd with hd | hd
    · exact Or.inr (by simp [hd])
    · rcases i2 d hd with h3 | h3
      · exact Or.inl h3
      · exact Or.inr (by simp [h3])

/-- `ToString` of a UUID is laid out as `GetRepresentation` says, in lower case. -/
theorem uuid_to_text {bs : List Nat} (h1 : bs.length = 16) (h2 : ∀ b ∈ bs, b < 256) :
    Lays uuidFormat (uuidToText bs) bs ∧ ∀ c ∈ uuidToText bs, c ∉ ['A', 'B', 'C', 'D', 'E', 'F'] := by
  obtain ⟨a, b⟩ := print_lays uuid_format bs h1 h2
  refine ⟨a, fun c hc => ?_⟩
  rcases b c hc with h | h
  · exact h
  · have : ∀ c ∈ uuidFormat, c ∉ ['A', 'B', 'C', 'D', 'E', 'F'] := by decide +kernel
    exact this c h

/-- A UUID printed and read is the same UUID. -/
theorem uuid_round_trip {bs : List Nat} (h1 : bs.length = 16) (h2 : ∀ b ∈ bs, b < 256) : uuidFromText (uuidToText bs) = some bs :=
  (uuid_from_text _ _).mpr (uuid_to_text h1 h2).1

/-- What is read is 16 bytes; printing it gives the text back up to the case of the digits: both are read alike. -/
theorem uuid_read {s : List Char} {bs : List Nat} (h : uuidFromText s = some bs) :
    bs.length = 16 ∧ (∀ b ∈ bs, b < 256) ∧ s.length = 36 ∧ uuidFromText (uuidToText bs) = uuidFromText s := by
  have h1 := (uuid_from_text _ _).mp h
  have h2 := h1.count uuid_format
  exact ⟨h2, h1.bytes, h1.length, by rw [uuid_round_trip h2 h1.bytes, h]⟩

/-- The constructor takes exactly 16 bytes. With the version and the variant set, the upper half of byte 6 is 4 and the upper bits of byte 8 are 10; every other bit is as given. -/
theorem uuid_make (data : List Nat) (set : Bool) :
    (data.length ≠ 16 → uuidMake data set = none) ∧
    (data.length = 16 → uuidMake data false = some data ∧ ∃ r, uuidMake data true = some r ∧ r.length = 16 ∧
      (∀ (i : Nat) (b : Nat), data[i]? = some b → b < 256 → r[i]? = some (if i = 6 then 4 * 16 + b % 16 else if i = 8 then 2 * 64 + b % 64 else b))) := by
  unfold uuidMake
  refine ⟨fun h => if_neg h, fun h => ?_⟩
  rw [if_pos h, if_pos h]
  refine ⟨rfl, _, rfl, by simp [setVersionAndVariant, h], ?_⟩
  intro i b hi hb
  have e6 : ∀ b < 256, (b &&& 0x0f) ||| 0x40 = 4 * 16 + b % 16 := by decide +kernel
  have e8 : ∀ b < 256, (b &&& 0x3f) ||| 0x80 = 2 * 64 + b % 64 := by decide +kernel
  simp only [if_true, setVersionAndVariant, List.getElem?_modify]
  by_cases i6 : i = 6
  · subst i6
    simp [hi, e6 b hb]
  · by_cases i8 : i = 8
    · subst i8
      simp [hi, e8 b hb]
    · simp [hi, Ne.symm i6, Ne.symm i8, i6, i8]

/-- UUIDs are ordered by the first byte that differs; exactly one of "less", "equal", "greater" holds. -/
theorem uuid_order : ∀ a b : List Nat, a.length = b.length →
    ((uuidLess a b = true ↔ ∃ (pre u v : List Nat) (x y : Nat), a = pre ++ x :: u ∧ b = pre ++ y :: v ∧ x < y) ∧ (uuidLess a b = false → uuidLess b a = false → a = b) ∧ ¬ (uuidLess a b = true ∧ uuidLess b a = true))
  | [], [], _ => by
    refine ⟨⟨(fun h => nomatch h), ?_⟩, fun _ _ => rfl, by simp [uuidLess]⟩
    rintro ⟨pre, u, v, x, y, h, -⟩
    simp at h
  | x :: xs, y :: ys, hl => by
    obtain ⟨i1, i2, i3⟩ := uuid_order xs ys (by simpa using hl)
    unfold uuidLess
    by_cases h1 : x < y
    · rw [if_pos h1]
      refine ⟨⟨fun _ => ⟨[], xs, ys, x, y, rfl, rfl, h1⟩, fun _ => rfl⟩, (fun h => nomatch h), ?_⟩
      rw [if_neg (by omega), if_pos h1]; simp
    · rw [if_neg h1]
      by_cases h2 : y < x
      · rw [if_pos h2, if_pos h2]
        refine ⟨⟨(fun h => nomatch h), ?_⟩, (fun _ h => nomatch h), by simp⟩
        rintro ⟨pre, u, v, p, q, e1, e2, h3⟩
        cases pre with
        | nil =>
          rw [List.nil_append] at e1 e2
          have := (List.cons.inj e1).1; have := (List.cons.inj e2).1; omega
        | cons c pre =>
          rw [List.cons_append] at e1 e2
          have := (List.cons.inj e1).1; have := (List.cons.inj e2).1; omega
      · have e : x = y := by omega
        rw [if_neg h2, if_neg h2, if_neg h1]
        subst e
        refine ⟨?_, fun a b => by rw [i2 a b], i3⟩
        rw [i1]
        constructor
        · rintro ⟨pre, u, v, p, q, e1, e2, h3⟩
          exact ⟨x :: pre, u, v, p, q, by rw [e1]; rfl, by rw [e2]; rfl, h3⟩
        · rintro ⟨pre, u, v, p, q, e1, e2, h3⟩
          cases pre with
          | nil =>
            rw [List.nil_append] at e1 e2
            have := (List.cons.inj e1).1; have := (List.cons.inj e2).1; omega
          | cons c pre =>
            rw [List.cons_append] at e1 e2
            exact ⟨pre, u, v, p, q, (List.cons.inj e1).2, (List.cons.inj e2).2, h3⟩

example : uuidFromText "00112233-4455-6677-8899-aAbBcCdDeEfF".toList = some [0, 17, 34, 51, 68, 85, 102, 119, 136, 153, 170, 187, 204, 221, 238, 255] ∧
    uuidFromText "00112233-4455-6677-8899+aabbccddeeff".toList = none ∧ uuidFromText "0x112233-4455-6677-8899-aabbccddeeff".toList = none ∧
    uuidToText [0, 17, 34, 51, 68, 85, 102, 119, 136, 153, 170, 187, 204, 221, 238, 255] = "00112233-4455-6677-8899-aabbccddeeff".toList := by decide +kernel

end Verif.Util
