import Verif.Text.Utf8Props
/-
Properties C49, C50, C51, C53.
-/
namespace Verif.Text
open Spec

theorem or_80 {x : Nat} (h : x < 64) : x ||| 0x80 = 0x80 + x := by
  rw [Nat.or_comm]; exact or_shift (a := 2) (i := 6) h
theorem or_c0 {x : Nat} (h : x < 64) : x ||| 0xc0 = 0xc0 + x := by
  rw [Nat.or_comm]; exact or_shift (a := 3) (i := 6) h
theorem or_e0 {x : Nat} (h : x < 32) : x ||| 0xe0 = 0xe0 + x := by
  rw [Nat.or_comm]; exact or_shift (a := 7) (i := 5) h
theorem or_f0 {x : Nat} (h : x < 16) : x ||| 0xf0 = 0xf0 + x := by
  rw [Nat.or_comm]; exact or_shift (a := 15) (i := 4) h
theorem mid6 (x : Nat) : (x &&& 0xfc0) >>> 6 = x / 64 % 64 := by
  rw [Nat.shiftRight_and_distrib, show 0xfc0 >>> 6 = 0x3f from rfl, and_3f, Nat.shiftRight_eq_div_pow]
theorem mid12 (x : Nat) : (x &&& 0x03f000) >>> 12 = x / 4096 % 64 := by
  rw [Nat.shiftRight_and_distrib, show 0x03f000 >>> 12 = 0x3f from rfl, and_3f, Nat.shiftRight_eq_div_pow]

theorem pack_encode {c : Nat} (h : c < 0x110000) (repl : Nat) : packUtf8 c repl = encode c := by
  unfold packUtf8 encode
  by_cases h1 : c < 0x80
  · rw [if_pos h1, if_pos h1]
  rw [if_neg h1, if_neg h1]
  by_cases h2 : c < 0x800
  · rw [if_pos h2, if_pos h2, Nat.shiftRight_eq_div_pow, and_3f, or_c0 (by omega), or_80 (by omega)]
    simp only [List.cons.injEq, and_true]; omega
  rw [if_neg h2, if_neg h2]
  by_cases h3 : c < 0x10000
  · rw [if_pos h3, if_pos h3, Nat.shiftRight_eq_div_pow, and_3f, mid6, or_e0 (by omega), or_80 (by omega), or_80 (by omega)]
    simp only [List.cons.injEq, and_true]; omega
  rw [if_neg h3, if_neg h3, if_pos h, Nat.shiftRight_eq_div_pow, and_3f, mid6, mid12, or_f0 (by omega), or_80 (by omega), or_80 (by omega), or_80 (by omega)]
  simp only [List.cons.injEq, and_true]; omega

/-! ### Unpacking the standard encodings -/

theorem or8 {a b : Nat} (h : b < 256) : (a <<< 8) ||| b = a * 256 + b := or_shift (i := 8) h

theorem unpack32be {c : Nat} (h : c < 0x110000) (r : List Nat) : unpackUtf32be (encode32be c ++ r) = (some c, r) := by
  simp only [encode32be, List.cons_append, List.nil_append, unpackUtf32be]
  rw [or8 (by omega), or8 (by omega), or8 (by omega)]
  have e : ((c / 16777216 * 256 + c / 65536 % 256) * 256 + c / 256 % 256) * 256 + c % 256 = c := by omega
  rw [e, if_pos h]

theorem unpack32le {c : Nat} (h : c < 0x110000) (r : List Nat) : unpackUtf32le (encode32le c ++ r) = (some c, r) := by
  simp only [encode32le, List.cons_append, List.nil_append, unpackUtf32le]
  have e : c % 256 ||| (c / 256 % 256) <<< 8 ||| (c / 65536 % 256) <<< 16 ||| (c / 16777216) <<< 24 = c := by
    rw [Nat.or_comm (c % 256), or8 (by omega), Nat.or_comm _ ((c / 65536 % 256) <<< 16), or_shift (i := 16) (by omega), Nat.or_comm _ ((c / 16777216) <<< 24),
      or_shift (i := 24) (by omega)]
    omega
  rw [e, if_pos h]

theorem unpack16be {c : Nat} (h : Scalar c) (r : List Nat) : unpackUtf16be (encode16be c ++ r) = (some (if c < 0x10000 then c else c - 0x10000), r) := by
  unfold Scalar at h
  unfold encode16be
  by_cases h1 : c < 0x10000
  · simp only [if_pos h1, List.cons_append, List.nil_append, unpackUtf16be]
    rw [if_pos (by omega), or8 (by omega), show c / 256 * 256 + c % 256 = c by omega]
  · simp only [if_neg h1, List.cons_append, List.nil_append, unpackUtf16be]
    rw [if_neg (by omega), if_neg (by omega), if_neg (by omega), and_03, and_03, Nat.or_assoc, Nat.or_assoc, or8 (by omega), or_shift (i := 10) (by omega), or_shift (i := 18) (by omega)]
    have e : (216 + (c - 65536) / 1024 / 256) % 4 * 2 ^ 18 + ((c - 65536) / 1024 % 256 * 2 ^ 10 + ((220 + (c - 65536) % 1024 / 256) % 4 * 256 + (c - 65536) % 1024 % 256)) = c - 0x10000 := by
      omega
    rw [e]

theorem unpack16le {c : Nat} (h : Scalar c) (r : List Nat) : unpackUtf16le (encode16le c ++ r) = (some (if c < 0x10000 then c else c - 0x10000), r) := by
  unfold Scalar at h
  unfold encode16le
  by_cases h1 : c < 0x10000
  · simp only [if_pos h1, List.cons_append, List.nil_append, unpackUtf16le]
    rw [if_pos (by omega), or8 (by omega), show c / 256 * 256 + c % 256 = c by omega]
  · simp only [if_neg h1, List.cons_append, List.nil_append, unpackUtf16le]
    rw [if_neg (by omega), if_neg (by omega), if_neg (by omega), and_03, and_03, Nat.or_assoc, Nat.or_assoc, or8 (by omega), or_shift (i := 10) (by omega), or_shift (i := 18) (by omega)]
    have e : (216 + (c - 65536) / 1024 / 256) % 4 * 2 ^ 18 + ((c - 65536) / 1024 % 256 * 2 ^ 10 + ((220 + (c - 65536) % 1024 / 256) % 4 * 256 + (c - 65536) % 1024 % 256)) = c - 0x10000 := by
      omega
    rw [e]

theorem unpack8 {c : Nat} (h : c < 0x110000) (r : List Nat) : unpackUtf8 (encode c ++ r) = (some c, r) := by
  unfold encode
  by_cases h1 : c < 0x80
  · simp only [if_pos h1, List.cons_append, List.nil_append, unpackUtf8]
    rw [if_pos (by omega)]
  simp only [if_neg h1]
  by_cases h2 : c < 0x800
  · simp only [if_pos h2, List.cons_append, List.nil_append, unpackUtf8]
    rw [if_neg (by omega), if_neg (by omega), if_pos (by omega), pay2, show (0xC0 + c / 64) % 32 * 64 + (0x80 + c % 64) % 64 = c by omega]
  simp only [if_neg h2]
  by_cases h3 : c < 0x10000
  · simp only [if_pos h3, List.cons_append, List.nil_append, unpackUtf8]
    rw [if_neg (by omega), if_neg (by omega), if_neg (by omega), if_pos (by omega), pay3,
      show (0xE0 + c / 4096) % 16 * 4096 + (0x80 + c / 64 % 64) % 64 * 64 + (0x80 + c % 64) % 64 = c by omega]
  simp only [if_neg h3, List.cons_append, List.nil_append, unpackUtf8]
  rw [if_neg (by omega), if_neg (by omega), if_neg (by omega), if_neg (by omega), if_pos (by omega), pay4,
    show (0xF0 + c / 262144) % 8 * 262144 + (0x80 + c / 4096 % 64) % 64 * 4096 + (0x80 + c / 64 % 64) % 64 * 64 + (0x80 + c % 64) % 64 = c by omega]

/-- Conversion of a text in an encoding whose characters the unpacking function reads as `f`. -/
theorem convert_spec {u : Unpack} {enc : Nat → List Nat} {f : Nat → Nat} {repl : Nat} : ∀ (cs : List Nat) (n : Nat), cs.length < n →
    (∀ c ∈ cs, enc c ≠ [] ∧ f c < 0x110000 ∧ ∀ r, u (enc c ++ r) = (some (f c), r)) → convert u repl n (cs.flatMap enc) = some (text (cs.map f)) := by
  intro cs
  induction cs with
  | nil => intro n hn _; cases n with
    | zero => simp at hn
    | succ n => simp [convert, text]
  | cons c cs ih =>
    intro n hn h
    cases n with
    | zero => simp at hn
    | succ n =>
      obtain ⟨h1, h2, h3⟩ := h c (by simp)
      rw [List.flatMap_cons, convert, if_neg (by simp [h1]), h3]
      simp only [Option.getD_some]
      rw [ih n (by simp at hn; omega) (fun d hd => h d (by simp [hd])), pack_encode h2]
      simp [text_cons]

theorem flatMap_length_ge {enc : Nat → List Nat} {cs : List Nat} (h : ∀ c ∈ cs, enc c ≠ []) : cs.length ≤ (cs.flatMap enc).length := by
  induction cs with
  | nil => simp
  | cons c cs ih =>
    have h1 := List.length_pos_iff.mpr (h c (by simp))
    have h2 := ih (fun d hd => h d (by simp [hd]))
    rw [List.flatMap_cons, List.length_append, List.length_cons]; omega

theorem enc16be_ne (c : Nat) : encode16be c ≠ [] := by unfold encode16be; split <;> simp
theorem enc16le_ne (c : Nat) : encode16le c ≠ [] := by unfold encode16le; split <;> simp

namespace Spec
/-- The encoded form of a text in each of the modelled encodings (ISO 10646 without a byte order mark is taken to be UTF-16BE by the library). -/
def encodeIn : Enc → Nat → List Nat
  | .latin1 => fun c => [c]
  | .iso10646 => encode16be
  | .utf8 => encode
  | .utf16be => encode16be
  | .utf16le => encode16le
  | .utf32be => encode32be
  | .utf32le => encode32le

/-- The characters an encoding can express. -/
def Expressible : Enc → Nat → Prop
  | .latin1, c => c < 256
  | _, c => Scalar c

/-- The characters for which the library's decoder is right: in UTF-16 only those of the basic multilingual plane. -/
def Supported : Enc → Nat → Prop
  | .latin1, c => c < 256
  | .iso10646, c => Scalar c ∧ c < 0x10000
  | .utf16be, c => Scalar c ∧ c < 0x10000
  | .utf16le, c => Scalar c ∧ c < 0x10000
  | _, c => Scalar c
end Spec

theorem unpackOf_spec {e : Enc} {c : Nat} (h : Spec.Supported e c) (r : List Nat) :
    encodeIn e c ≠ [] ∧ c < 0x110000 ∧ unpackOf e (encodeIn e c ++ r) = (some c, r) := by
  cases e with
  | latin1 => exact ⟨by simp [encodeIn], by simp only [Spec.Supported] at h; omega, rfl⟩
  | iso10646 =>
    refine ⟨enc16be_ne c, h.1.lt, ?_⟩
    have := unpack16be h.1 r
    rwa [if_pos h.2] at this
  | utf8 => exact ⟨encode_ne_nil c, h.lt, unpack8 h.lt r⟩
  | utf16be =>
    refine ⟨enc16be_ne c, h.1.lt, ?_⟩
    have := unpack16be h.1 r
    rwa [if_pos h.2] at this
  | utf16le =>
    refine ⟨enc16le_ne c, h.1.lt, ?_⟩
    have := unpack16le h.1 r
    rwa [if_pos h.2] at this
  | utf32be => exact ⟨by simp [encodeIn, encode32be], h.lt, unpack32be h.lt r⟩
  | utf32le => exact ⟨by simp [encodeIn, encode32le], h.lt, unpack32le h.lt r⟩

/-- C49 (all but supplementary characters in UTF-16). For every encoding (Latin-1, UTF-8, UTF-16BE/LE, UTF-32BE/LE) and every text of supported characters,
ToUtf8 of the encoded text is its UTF-8 encoding; nothing is replaced. Missing from the full claim: characters above U+FFFF in UTF-16 (refuted below). -/
theorem to_utf8_partial {e : Enc} (he : e ≠ .iso10646) {cs : List Nat} (h : ∀ c ∈ cs, Spec.Supported e c) (repl : Nat) :
    toUtf8 e (cs.flatMap (encodeIn e)) repl = some (text cs) := by
  unfold toUtf8
  by_cases h8 : e = .utf8
  · subst h8; rw [if_pos rfl]; rfl
  · rw [if_neg h8]
    unfold selectUnpack
    rw [if_neg he]
    simp only [List.drop_zero]
    have := convert_spec (u := unpackOf e) (enc := encodeIn e) (f := id) (repl := repl) cs ((cs.flatMap (encodeIn e)).length + 1)
      (by have := flatMap_length_ge (cs := cs) (enc := encodeIn e) (fun c hc => (unpackOf_spec (h c hc) []).1); omega)
      (fun c hc => ⟨(unpackOf_spec (h c hc) []).1, (unpackOf_spec (h c hc) []).2.1, fun r => (unpackOf_spec (h c hc) r).2.2⟩)
    rwa [List.map_id] at this

/-- What the code does with any UTF-16 text: characters above U+FFFF lose 0x10000. -/
theorem to_utf8_utf16 {cs : List Nat} (h : ∀ c ∈ cs, Scalar c) (repl : Nat) :
    toUtf8 .utf16be (cs.flatMap encode16be) repl = some (text (cs.map (fun c => if c < 0x10000 then c else c - 0x10000))) ∧
    toUtf8 .utf16le (cs.flatMap encode16le) repl = some (text (cs.map (fun c => if c < 0x10000 then c else c - 0x10000))) := by
  have hlt : ∀ c ∈ cs, (if c < 0x10000 then c else c - 0x10000) < 0x110000 := by
    intro c hc
    have := (h c hc).lt
    split <;> omega
  constructor
  · unfold toUtf8 selectUnpack
    rw [if_neg (by decide), if_neg (by decide)]
    simp only [List.drop_zero]
    exact convert_spec cs _ (by have := flatMap_length_ge (cs := cs) (fun c _ => enc16be_ne c); omega)
      (fun c hc => ⟨enc16be_ne c, hlt c hc, fun r => unpack16be (h c hc) r⟩)
  · unfold toUtf8 selectUnpack
    rw [if_neg (by decide), if_neg (by decide)]
    simp only [List.drop_zero]
    exact convert_spec cs _ (by have := flatMap_length_ge (cs := cs) (fun c _ => enc16le_ne c); omega)
      (fun c hc => ⟨enc16le_ne c, hlt c hc, fun r => unpack16le (h c hc) r⟩)

/-- C49 refuted for UTF-16: U+1F600, encoded D83D DE00, is converted to U+F600 (EF 98 80), because 0x10000 is not added to the value of a surrogate pair. -/
theorem utf16_surrogates_violated : Scalar 0x1F600 ∧ encode16be 0x1F600 = [0xD8, 0x3D, 0xDE, 0x00] ∧
    toUtf8 .utf16be [0xD8, 0x3D, 0xDE, 0x00] 0x3f = some [0xEF, 0x98, 0x80] ∧ text [0x1F600] = [0xF0, 0x9F, 0x98, 0x80] ∧ text [0xF600] = [0xEF, 0x98, 0x80] := by
  refine ⟨by unfold Scalar; omega, rfl, rfl, rfl, rfl⟩

/-- C49, byte order marks: ISO 10646 text which begins with a byte order mark is converted as text in the encoding announced by it, without the mark (for
UTF-16LE provided the first character is not U+0000, which is indistinguishable from a UTF-32LE mark). -/
theorem to_utf8_bom_partial {e : Enc} (he : e = .utf8 ∨ e = .utf16be ∨ e = .utf16le ∨ e = .utf32be ∨ e = .utf32le) {cs : List Nat} (h : ∀ c ∈ cs, Spec.Supported e c)
    (h0 : e = .utf16le → cs[0]? ≠ some 0) (repl : Nat) :
    toUtf8 .iso10646 (encodeIn e 0xFEFF ++ cs.flatMap (encodeIn e)) repl = some (text cs) := by
  have conv : ∀ n, cs.length < n → convert (unpackOf e) repl n (cs.flatMap (encodeIn e)) = some (text cs) := by
    intro n hn
    have := convert_spec (u := unpackOf e) (enc := encodeIn e) (f := id) (repl := repl) cs n hn
      (fun c hc => ⟨(unpackOf_spec (h c hc) []).1, (unpackOf_spec (h c hc) []).2.1, fun r => (unpackOf_spec (h c hc) r).2.2⟩)
    rwa [List.map_id] at this
  have hlen := flatMap_length_ge (cs := cs) (enc := encodeIn e) (fun c hc => (unpackOf_spec (h c hc) []).1)
  have sel : ∀ k, getEncoding (encodeIn e 0xFEFF ++ cs.flatMap (encodeIn e)) = some (e, k) → k = (encodeIn e 0xFEFF).length →
      toUtf8 .iso10646 (encodeIn e 0xFEFF ++ cs.flatMap (encodeIn e)) repl = some (text cs) := by
    intro k hg hk
    unfold toUtf8 selectUnpack
    rw [if_neg (by decide), if_pos rfl, hg]
    simp only []
    rw [hk, List.drop_left]
    exact conv _ (by rw [List.length_append]; omega)
  rcases he with rfl | rfl | rfl | rfl | rfl
  · refine sel 3 ?_ rfl
    rw [show encodeIn Enc.utf8 0xFEFF = [0xef, 0xbb, 0xbf] from rfl]
    unfold getEncoding
    simp
  · refine sel 2 ?_ rfl
    rw [show encodeIn Enc.utf16be 0xFEFF = [0xfe, 0xff] from rfl]
    unfold getEncoding
    simp
  · refine sel 2 ?_ rfl
    rw [show encodeIn Enc.utf16le 0xFEFF = [0xff, 0xfe] from rfl]
    unfold getEncoding
    rcases cs with _ | ⟨c, cs⟩
    · rfl
    · have hc := h c (by simp)
      have hc0 : c ≠ 0 := by intro h'; exact h0 rfl (by simp [h'])
      simp only [Spec.Supported] at hc
      have : encodeIn Enc.utf16le c = [c % 256, c / 256] := by simp [encodeIn, encode16le, hc.2]
      rw [List.flatMap_cons, this]
      have hno : ¬ (c % 256 = 0 ∧ c / 256 = 0) := by omega
      simp
      omega
  · refine sel 4 ?_ rfl
    rw [show encodeIn Enc.utf32be 0xFEFF = [0x00, 0x00, 0xfe, 0xff] from rfl]
    unfold getEncoding
    simp
  · refine sel 4 ?_ rfl
    rw [show encodeIn Enc.utf32le 0xFEFF = [0xff, 0xfe, 0x00, 0x00] from rfl]
    unfold getEncoding
    simp

/-! ### Comparison -/

theorem latin1_progress (a : Nat) (r : List Nat) : (unpackLatin1 (a :: r)).2.length < (a :: r).length := by simp [unpackLatin1]

theorem utf8_progress (a : Nat) (r : List Nat) : (unpackUtf8 (a :: r)).2.length < (a :: r).length := by
  simp only [unpackUtf8]
  by_cases h1 : a ≤ 0x7f
  · rw [if_pos h1]; simp
  rw [if_neg h1]
  by_cases h2 : a = 0xc0 ∨ a = 0xc1 ∨ a ≥ 0xf5
  · rw [if_pos h2]; simp
  rw [if_neg h2]
  rcases r with _ | ⟨b, r⟩
  · simp
  simp only []
  by_cases h3 : a ≥ 0xc2 ∧ a ≤ 0xdf
  · rw [if_pos h3]; simp; omega
  rw [if_neg h3]
  rcases r with _ | ⟨c, r⟩
  · simp
  simp only []
  by_cases h4 : a ≥ 0xe0 ∧ a ≤ 0xef
  · rw [if_pos h4]; simp; omega
  rw [if_neg h4]
  rcases r with _ | ⟨d, r⟩
  · simp
  simp only []
  split <;> simp <;> omega

theorem utf16be_progress (a : Nat) (r : List Nat) : (unpackUtf16be (a :: r)).2.length < (a :: r).length := by
  rcases r with _ | ⟨b, r⟩
  · simp [unpackUtf16be]
  simp only [unpackUtf16be]
  split
  · simp; omega
  split
  · simp; omega
  rcases r with _ | ⟨c, _ | ⟨d, r⟩⟩
  · simp
  · simp
  · simp only []; split <;> simp <;> omega

theorem utf16le_progress (a : Nat) (r : List Nat) : (unpackUtf16le (a :: r)).2.length < (a :: r).length := by
  rcases r with _ | ⟨b, r⟩
  · simp [unpackUtf16le]
  simp only [unpackUtf16le]
  split
  · simp; omega
  split
  · simp; omega
  rcases r with _ | ⟨c, _ | ⟨d, r⟩⟩
  · simp
  · simp
  · simp only []; split <;> simp <;> omega

theorem utf32be_progress (a : Nat) (r : List Nat) : (unpackUtf32be (a :: r)).2.length < (a :: r).length := by
  rcases r with _ | ⟨b, _ | ⟨c, _ | ⟨d, r⟩⟩⟩ <;> simp [unpackUtf32be]
  omega

theorem utf32le_progress (a : Nat) (r : List Nat) : (unpackUtf32le (a :: r)).2.length < (a :: r).length := by
  rcases r with _ | ⟨b, _ | ⟨c, _ | ⟨d, r⟩⟩⟩ <;> simp [unpackUtf32le]
  omega

theorem unpack_progress (e : Enc) {s : List Nat} (h : s ≠ []) : (unpackOf e s).2.length < s.length := by
  rcases s with _ | ⟨a, r⟩
  · exact absurd rfl h
  cases e
  · exact latin1_progress a r
  · exact utf16be_progress a r
  · exact utf8_progress a r
  · exact utf16be_progress a r
  · exact utf16le_progress a r
  · exact utf32be_progress a r
  · exact utf32le_progress a r

theorem select_eq (e : Enc) (s : List Nat) : ∃ e' k, selectUnpack e s = (unpackOf e', k) := by
  unfold selectUnpack
  by_cases h : e = .iso10646
  · rw [if_pos h]
    cases hg : getEncoding s with
    | none => exact ⟨e, 0, rfl⟩
    | some x => exact ⟨x.1, x.2, rfl⟩
  · rw [if_neg h]; exact ⟨e, 0, rfl⟩

/-- The number of a character for comparison: an invalid one comes just before character 0. -/
def charCode (c : Option Nat) : Int := (c.map (fun v : Nat => (v : Int))).getD (-1)

theorem asInt_eq (c : Option Nat) : asInt c = charCode c := by cases c <;> rfl

/-- The characters read by an unpacking function (at most `n`). -/
def chars (u : Unpack) : Nat → List Nat → List Int
  | 0, _ => []
  | n + 1, s => if s = [] then [] else charCode (u s).1 :: chars u n (u s).2

/-- Lexicographic comparison of character sequences, as a difference. -/
def lexDiff : List Int → List Int → Int
  | [], [] => 0
  | _ :: _, [] => 1
  | [], _ :: _ => -1
  | a :: l, b :: m => if a ≠ b then a - b else lexDiff l m

theorem compareLoop_spec (ea eb : Enc) : ∀ (n : Nat) (a b : List Nat) (m k : Nat), a.length < n → a.length ≤ m → b.length ≤ k →
    compareLoop (unpackOf ea) (unpackOf eb) n a b = some (lexDiff (chars (unpackOf ea) m a) (chars (unpackOf eb) k b)) := by
  intro n
  induction n with
  | zero => intro a b m k h; omega
  | succ n ih =>
    intro a b m k h hm hk
    unfold compareLoop
    by_cases ha : a = []
    · subst ha
      have : chars (unpackOf ea) m [] = [] := by cases m <;> simp [chars]
      rw [if_neg (by simp), this]
      by_cases hb : b = []
      · subst hb
        have : chars (unpackOf eb) k [] = [] := by cases k <;> simp [chars]
        rw [this]; simp [lexDiff]
      · obtain ⟨k', rfl⟩ : ∃ k', k = k' + 1 := ⟨k - 1, by have := List.length_pos_iff.mpr hb; omega⟩
        simp [chars, hb, lexDiff]
    · obtain ⟨m', rfl⟩ : ∃ m', m = m' + 1 := ⟨m - 1, by have := List.length_pos_iff.mpr ha; omega⟩
      by_cases hb : b = []
      · subst hb
        have : chars (unpackOf eb) k [] = [] := by cases k <;> simp [chars]
        rw [if_neg (by simp), this]; simp [chars, ha, lexDiff]
      · obtain ⟨k', rfl⟩ : ∃ k', k = k' + 1 := ⟨k - 1, by have := List.length_pos_iff.mpr hb; omega⟩
        rw [if_pos ⟨ha, hb⟩]
        have pa := unpack_progress ea ha
        have pb := unpack_progress eb hb
        simp only [chars, if_neg ha, if_neg hb, lexDiff]
        rw [asInt_eq, asInt_eq]
        by_cases hne : charCode (unpackOf ea a).1 ≠ charCode (unpackOf eb b).1
        · rw [if_pos hne, if_pos hne]
        · rw [if_neg hne, if_neg hne]
          exact ih _ _ _ _ (by omega) (by omega) (by omega)

theorem compare_eq (ea eb : Enc) (a b : List Nat) : ∃ ea' ka eb' kb, selectUnpack ea a = (unpackOf ea', ka) ∧ selectUnpack eb b = (unpackOf eb', kb) ∧
    compare ea a eb b = some (lexDiff (chars (unpackOf ea') a.length (a.drop ka)) (chars (unpackOf eb') b.length (b.drop kb))) := by
  obtain ⟨ea', ka, h1⟩ := select_eq ea a
  obtain ⟨eb', kb, h2⟩ := select_eq eb b
  refine ⟨ea', ka, eb', kb, h1, h2, ?_⟩
  unfold compare
  rw [h1, h2]
  exact compareLoop_spec ea' eb' _ _ _ _ _ (by rw [List.length_drop]; omega) (by rw [List.length_drop]; omega) (by rw [List.length_drop]; omega)

theorem lexDiff_swap : ∀ (l m : List Int), lexDiff l m = - lexDiff m l
  | [], [] => rfl
  | _ :: _, [] => rfl
  | [], _ :: _ => rfl
  | a :: l, b :: m => by
    simp only [lexDiff]
    by_cases h : a = b
    · subst h; simp [lexDiff_swap l m]
    · rw [if_pos h, if_pos (Ne.symm h)]; omega

theorem lexDiff_trans : ∀ (l m n : List Int), lexDiff l m ≤ 0 → lexDiff m n ≤ 0 → lexDiff l n ≤ 0
  | [], m, [], _, _ => by simp [lexDiff]
  | [], m, c :: n, _, _ => by simp [lexDiff]
  | a :: l, [], n, h1, _ => by simp [lexDiff] at h1
  | a :: l, b :: m, [], _, h2 => by simp [lexDiff] at h2
  | a :: l, b :: m, c :: n, h1, h2 => by
    simp only [lexDiff] at h1 h2 ⊢
    by_cases hab : a = b
    · subst hab
      simp only [ne_eq, not_true_eq_false, if_false] at h1
      by_cases hbc : a = c
      · subst hbc
        simp only [ne_eq, not_true_eq_false, if_false] at h2 ⊢
        exact lexDiff_trans l m n h1 h2
      · rw [if_pos hbc] at h2 ⊢; exact h2
    · rw [if_pos hab] at h1
      by_cases hbc : b = c
      · subst hbc; rw [if_pos hab]; exact h1
      · rw [if_pos hbc] at h2
        rw [if_pos (by omega)]; omega

theorem lexDiff_zero : ∀ (l m : List Int), lexDiff l m = 0 ↔ l = m
  | [], [] => by simp [lexDiff]
  | _ :: _, [] => by simp [lexDiff]
  | [], _ :: _ => by simp [lexDiff]
  | a :: l, b :: m => by
    simp only [lexDiff]
    by_cases h : a = b
    · subst h; simp [lexDiff_zero l m]
    · rw [if_pos h]
      simp only [List.cons.injEq, h, false_and, iff_false]
      omega

/-- C50. Comparison of any two byte strings in any encodings terminates; it is a total preorder: swapping the arguments negates the result, and "not greater" is
transitive. -/
theorem locale_compare_preorder (ea eb ec : Enc) (a b c : List Nat) :
    (∃ x, compare ea a eb b = some x ∧ compare eb b ea a = some (-x)) ∧
    (∀ x y, compare ea a eb b = some x → compare eb b ec c = some y → x ≤ 0 → y ≤ 0 → ∃ z, compare ea a ec c = some z ∧ z ≤ 0) := by
  obtain ⟨ea1, ka1, eb1, kb1, s1, s2, h1⟩ := compare_eq ea eb a b
  obtain ⟨eb2, kb2, ea2, ka2, s3, s4, h2⟩ := compare_eq eb ea b a
  obtain ⟨eb3, kb3, ec3, kc3, s5, s6, h3⟩ := compare_eq eb ec b c
  obtain ⟨ea4, ka4, ec4, kc4, s7, s8, h4⟩ := compare_eq ea ec a c
  have e1 : unpackOf ea1 = unpackOf ea2 ∧ ka1 = ka2 := by rw [s1] at s4; exact ⟨(Prod.ext_iff.mp s4).1, (Prod.ext_iff.mp s4).2⟩
  have e2 : unpackOf eb1 = unpackOf eb2 ∧ kb1 = kb2 := by rw [s2] at s3; exact ⟨(Prod.ext_iff.mp s3).1, (Prod.ext_iff.mp s3).2⟩
  have e3 : unpackOf ea1 = unpackOf ea4 ∧ ka1 = ka4 := by rw [s1] at s7; exact ⟨(Prod.ext_iff.mp s7).1, (Prod.ext_iff.mp s7).2⟩
  have e4 : unpackOf eb1 = unpackOf eb3 ∧ kb1 = kb3 := by rw [s2] at s5; exact ⟨(Prod.ext_iff.mp s5).1, (Prod.ext_iff.mp s5).2⟩
  have e5 : unpackOf ec3 = unpackOf ec4 ∧ kc3 = kc4 := by rw [s6] at s8; exact ⟨(Prod.ext_iff.mp s8).1, (Prod.ext_iff.mp s8).2⟩
  rw [h1, h2, h3, h4, ← e1.1, ← e1.2, ← e2.1, ← e2.2, ← e3.1, ← e3.2, ← e4.1, ← e4.2, ← e5.1, ← e5.2]
  refine ⟨⟨_, rfl, by rw [lexDiff_swap]⟩, ?_⟩
  intro x y hx hy hx0 hy0
  cases hx
  cases hy
  exact ⟨_, rfl, lexDiff_trans _ _ _ hx0 hy0⟩

theorem chars_encoded {e : Enc} : ∀ (cs : List Nat) (n : Nat), (cs.flatMap (encodeIn e)).length ≤ n → (∀ c ∈ cs, Spec.Supported e c) →
    chars (unpackOf e) n (cs.flatMap (encodeIn e)) = cs.map (fun c : Nat => (c : Int)) := by
  intro cs
  induction cs with
  | nil => intro n _ _; cases n <;> simp [chars]
  | cons c cs ih =>
    intro n hn h
    obtain ⟨h1, h2, h3⟩ := unpackOf_spec (h c (by simp)) (cs.flatMap (encodeIn e))
    have hpos := List.length_pos_iff.mpr h1
    rw [List.flatMap_cons] at hn ⊢
    rw [List.length_append] at hn
    obtain ⟨n', rfl⟩ : ∃ n', n = n' + 1 := ⟨n - 1, by omega⟩
    rw [chars, if_neg (by simp [h1]), h3, ih n' (by omega) (fun d hd => h d (by simp [hd]))]
    rfl

theorem lexDiff_lt : ∀ (l m : List Nat), lexDiff (l.map (fun c : Nat => (c : Int))) (m.map (fun c : Nat => (c : Int))) < 0 ↔ l < m
  | [], [] => by simp [lexDiff]
  | _ :: _, [] => by simp [lexDiff]
  | [], b :: m => by simp [lexDiff]
  | a :: l, b :: m => by
    simp only [lexDiff, List.map_cons]
    by_cases h : a = b
    · subst h
      simp only [ne_eq, not_true_eq_false, if_false, List.cons_lt_cons_iff, Nat.lt_irrefl, true_and, false_or]
      exact lexDiff_lt l m
    · rw [if_pos (by omega), List.cons_lt_cons_iff]
      constructor
      · intro h'; left; omega
      · rintro (h' | ⟨h', -⟩)
        · omega
        · exact absurd h' h

/-- C50. Two texts in any encodings (with supported characters) compare as their character sequences: less exactly if lexicographically smaller, equal exactly if
the same. -/
theorem locale_compare_exact {ea eb : Enc} (ha : ea ≠ .iso10646) (hb : eb ≠ .iso10646) {cs ds : List Nat} (h1 : ∀ c ∈ cs, Spec.Supported ea c) (h2 : ∀ d ∈ ds, Spec.Supported eb d) :
    ∃ x, compare ea (cs.flatMap (encodeIn ea)) eb (ds.flatMap (encodeIn eb)) = some x ∧ (x < 0 ↔ cs < ds) ∧ (x = 0 ↔ cs = ds) ∧ (0 < x ↔ ds < cs) := by
  have s1 : ∀ s, selectUnpack ea s = (unpackOf ea, 0) := fun s => by unfold selectUnpack; rw [if_neg ha]
  have s2 : ∀ s, selectUnpack eb s = (unpackOf eb, 0) := fun s => by unfold selectUnpack; rw [if_neg hb]
  refine ⟨lexDiff (cs.map (fun c : Nat => (c : Int))) (ds.map (fun c : Nat => (c : Int))), ?_, lexDiff_lt cs ds, ?_, ?_⟩
  · unfold compare
    rw [s1, s2]
    simp only [List.drop_zero]
    rw [compareLoop_spec ea eb _ _ _ _ _ (by omega) (Nat.le_refl _) (Nat.le_refl _), chars_encoded cs _ (Nat.le_refl _) h1, chars_encoded ds _ (Nat.le_refl _) h2]
  · rw [lexDiff_zero]
    constructor
    · intro h
      have := congrArg (List.map Int.toNat) h
      simpa [List.map_map, Function.comp_def] using this
    · rintro rfl; rfl
  · rw [lexDiff_swap, ← lexDiff_lt ds cs]; omega

/-! ### Code page 866 -/

/-- The character of a CP866 byte that is in the table. -/
def dec866 (c : Nat) : Nat := (unpackCp866 [c]).1.getD 0

/-- C51. Every byte string without the unsupported bytes B0–DF survives the conversion from code page 866 to UTF-8 and back. -/
theorem cp866_round_trip {s : List Nat} (h : ∀ b ∈ s, b < 0xB0 ∨ (0xE0 ≤ b ∧ b < 256)) (repl : Nat) :
    ∃ t, fromCp866 s repl = some t ∧ WellFormed t ∧ toCp866 (t.length + 1) t = some s := by
  have tab : ∀ b, b < 256 → (b < 0xB0 ∨ 0xE0 ≤ b) → Scalar (dec866 b) ∧ (unpackCp866 [b]).1 = some (dec866 b) ∧ packCp866 (some (dec866 b)) 0x3f = b := by
    unfold Scalar; decide +kernel
  have hb : ∀ b ∈ s, Scalar (dec866 b) ∧ (unpackCp866 [b]).1 = some (dec866 b) ∧ packCp866 (some (dec866 b)) 0x3f = b := by
    intro b hb; exact tab b (by have := h b hb; omega) (by have := h b hb; omega)
  refine ⟨text (s.map dec866), ?_, ⟨s.map dec866, ?_, rfl⟩, ?_⟩
  · unfold fromCp866
    have := convert_spec (u := unpackCp866) (enc := fun c => [c]) (f := dec866) (repl := repl) s (s.length + 1) (by omega)
      (fun c hc => ⟨by simp, (hb c hc).1.lt, fun r => by
        have h2 := (hb c hc).2.1
        simp only [unpackCp866] at h2
        simp only [List.cons_append, List.nil_append, unpackCp866]
        rw [h2]⟩)
    rwa [show s.flatMap (fun c => [c]) = s by simp] at this
  · intro c hc
    obtain ⟨b, hb', rfl⟩ := List.mem_map.mp hc
    exact (hb b hb').1
  · have key : ∀ (s : List Nat) (n : Nat), (∀ b ∈ s, Scalar (dec866 b) ∧ packCp866 (some (dec866 b)) 0x3f = b) → s.length < n →
        toCp866 n (text (s.map dec866)) = some s := by
      intro s
      induction s with
      | nil => intro n _ hn; cases n with
        | zero => simp at hn
        | succ n => simp [toCp866, text]
      | cons b s ih =>
        intro n hs hn
        cases n with
        | zero => simp at hn
        | succ n =>
          rw [List.map_cons, text_cons, toCp866, if_neg (by simp [encode_ne_nil]), unpack8 (hs b (by simp)).1.lt]
          simp only []
          rw [ih n (fun d hd => hs d (by simp [hd])) (by simp at hn; omega), (hs b (by simp)).2]
          rfl
    refine key s _ (fun b hb' => ⟨(hb b hb').1, (hb b hb').2.2⟩) ?_
    have := flatMap_length_ge (cs := s.map dec866) (enc := encode) (fun c _ => encode_ne_nil c)
    rw [List.length_map] at this
    unfold text; omega

/-- Whether code page 866, as the library supports it, has the byte. -/
def Spec.byte866 (b : Nat) : Prop := b < 0xB0 ∨ (0xE0 ≤ b ∧ b < 256)

theorem from866_one {b : Nat} (h : Spec.byte866 b) (repl : Nat) : Scalar (dec866 b) ∧ fromCp866 [b] repl = some (text [dec866 b]) ∧ packCp866 (some (dec866 b)) 0x3f = b := by
  have tab : ∀ b, b < 256 → (b < 0xB0 ∨ 0xE0 ≤ b) → Scalar (dec866 b) ∧ (unpackCp866 [b]).1 = some (dec866 b) ∧ packCp866 (some (dec866 b)) 0x3f = b := by
    unfold Scalar; decide +kernel
  have hb := tab b (by have := h; unfold Spec.byte866 at this; omega) (by have := h; unfold Spec.byte866 at this; omega)
  refine ⟨hb.1, ?_, hb.2.2⟩
  have := convert_spec (u := unpackCp866) (enc := fun c => [c]) (f := dec866) (repl := repl) [b] 2 (by simp)
    (fun c hc => ⟨by simp, by cases List.mem_singleton.mp hc; exact hb.1.lt, fun r => by
      cases List.mem_singleton.mp hc
      have h2 := hb.2.1
      simp only [unpackCp866] at h2
      simp only [List.cons_append, List.nil_append, unpackCp866]
      rw [h2]⟩)
  simpa [fromCp866] using this

theorem encode_inj {c d : Nat} (hc : Scalar c) (hd : Scalar d) (h : text [c] = text [d]) : c = d := by
  have h1 := unpack8 hc.lt []
  have h2 := unpack8 hd.lt []
  have h' : encode c = encode d := by simpa [text] using h
  rw [h', h2] at h1
  simpa using h1.symm

theorem pack866 {c : Nat} : (Spec.byte866 (packCp866 (some c) 0x3f) ∧ dec866 (packCp866 (some c) 0x3f) = c) ∨ packCp866 (some c) 0x3f = 0x3f := by
  simp only [packCp866]
  by_cases h1 : c < 0x80
  · refine .inl ?_
    rw [if_pos h1]
    exact ⟨.inl (by omega), by simp [dec866, unpackCp866, h1]⟩
  rw [if_neg h1]
  by_cases h2 : c ≥ 0x410 ∧ c ≤ 0x43f
  · refine .inl ?_
    rw [if_pos h2]
    refine ⟨.inl (by omega), ?_⟩
    simp only [dec866, unpackCp866]
    rw [if_neg (by omega), if_pos (by omega), Option.getD_some]
    omega
  rw [if_neg h2]
  by_cases h3 : c ≥ 0x440 ∧ c ≤ 0x44f
  · refine .inl ?_
    rw [if_pos h3]
    refine ⟨.inr (by omega), ?_⟩
    simp only [dec866, unpackCp866]
    rw [if_neg (by omega), if_neg (by omega), if_pos (by omega), Option.getD_some]
    omega
  rw [if_neg h3]
  have ht : ∀ c ∈ tableF0, Spec.byte866 ((packCp866Table c).getD 0x3f) ∧ dec866 ((packCp866Table c).getD 0x3f) = c := by
    unfold Spec.byte866; decide +kernel
  by_cases hc : c ∈ tableF0
  · exact .inl (ht c hc)
  · right
    simp only [tableF0, List.mem_cons, List.not_mem_nil, or_false, not_or] at hc
    obtain ⟨a0, a1, a2, a3, a4, a5, a6, a7, a8, a9, a10, a11, a12, a13, a14, a15⟩ := hc
    unfold packCp866Table
    rw [if_neg a0, if_neg a1, if_neg a2, if_neg a3, if_neg a4, if_neg a5, if_neg a6, if_neg a7, if_neg a8, if_neg a9, if_neg a10, if_neg a11, if_neg a12, if_neg a13, if_neg a14,
      if_neg a15]
    rfl

/-- C51. `ToCodePage(866)` turns every character into one byte: the byte of the code page that stands for it, and a question mark exactly for the characters the code page does not have. -/
theorem to_cp866_exact {cs : List Nat} (h : ∀ c ∈ cs, Scalar c) :
    ∃ s, toCp866 ((text cs).length + 1) (text cs) = some s ∧ s.length = cs.length ∧ ∀ (i c b : Nat), cs[i]? = some c → s[i]? = some b →
      (Spec.byte866 b ∧ ∀ repl, fromCp866 [b] repl = some (text [c])) ∨
      (b = 0x3f ∧ ∀ b' repl, Spec.byte866 b' → fromCp866 [b'] repl ≠ some (text [c])) := by
  have key : ∀ (cs : List Nat) (n : Nat), (∀ c ∈ cs, Scalar c) → cs.length < n → toCp866 n (text cs) = some (cs.map (fun c => packCp866 (some c) 0x3f)) := by
    intro cs
    induction cs with
    | nil => intro n _ hn; cases n with
      | zero => simp at hn
      | succ n => simp [toCp866, text]
    | cons c cs ih =>
      intro n hs hn
      cases n with
      | zero => simp at hn
      | succ n =>
        rw [text_cons, toCp866, if_neg (by simp [encode_ne_nil]), unpack8 (hs c (by simp)).lt]
        simp only []
        rw [ih n (fun d hd => hs d (by simp [hd])) (by simp at hn; omega)]
        rfl
  have hlen := flatMap_length_ge (cs := cs) (enc := encode) (fun c _ => encode_ne_nil c)
  refine ⟨_, key cs _ h (by unfold text; omega), by simp, ?_⟩
  intro i c b hc hb
  have hcs : Scalar c := h c (List.mem_of_getElem? hc)
  rw [List.getElem?_map, hc] at hb
  simp only [Option.map_some, Option.some.injEq] at hb
  by_cases hx : ∃ b', Spec.byte866 b' ∧ dec866 b' = c
  · obtain ⟨b', h1, h2⟩ := hx
    have := from866_one h1
    refine .inl ?_
    have hbb : b = b' := by rw [← hb, ← h2]; exact (this 0).2.2
    subst hbb
    exact ⟨h1, fun repl => by rw [(this repl).2.1, h2]⟩
  · right
    refine ⟨?_, ?_⟩
    · cases pack866 (c := c) with
      | inl h' => exact absurd ⟨_, h'⟩ hx
      | inr h' => rw [← hb]; exact h'
    · intro b' repl hb' e
      have := from866_one hb' repl
      rw [this.2.1] at e
      exact hx ⟨b', hb', encode_inj this.1 hcs (by simpa using e)⟩

example : toCp866 30 (text [0x41, 0x80, 0x2116, 0x20AC, 0x44F]) = some [0x41, 0x3f, 0xFC, 0x3f, 0xEF] := by decide +kernel

/-! ### Lower case -/

theorem lower_cons (b : Nat) (rest : List Nat) (h : ¬ b = 0xd0) : utf8ToLower (b :: rest) =
    if b ≥ 0x41 ∧ b ≤ 0x5a then (utf8ToLower rest).map (fun r => (b + 0x61 - 0x41) :: r) else (utf8ToLower rest).map (fun r => b :: r) := by
  rw [utf8ToLower.eq_def]
  simp only [if_neg h]

theorem lower_d0 (b1 : Nat) (rest : List Nat) : utf8ToLower (0xd0 :: b1 :: rest) = (utf8ToLower rest).map (fun r =>
    ((0xd0 ||| (lowerCyrillic (((0xd0 &&& 0x1f) <<< 6) ||| (b1 &&& 0x3f)) >>> 6)) % 256) ::
      (((lowerCyrillic (((0xd0 &&& 0x1f) <<< 6) ||| (b1 &&& 0x3f)) &&& 0x3f) ||| 0x80) % 256) :: r) := by
  rw [utf8ToLower.eq_def]
  simp only [show ¬ (0xd0 ≥ 0x41 ∧ 0xd0 ≤ 0x5a) by omega, if_false, if_true]


namespace Spec
/-- The simple lower case mapping of the ICU-less build: ASCII A–Z and U+0401–U+042F. -/
def lower (c : Nat) : Nat :=
  if 0x41 ≤ c ∧ c ≤ 0x5A then c + 0x20 else if 0x410 ≤ c ∧ c ≤ 0x42F then c + 0x20 else if 0x401 ≤ c ∧ c ≤ 0x40F then c + 0x50 else c
end Spec

theorem lower_skip (l r : List Nat) (h : ∀ b ∈ l, ¬ (0x41 ≤ b ∧ b ≤ 0x5A) ∧ b ≠ 0xd0) : utf8ToLower (l ++ r) = (utf8ToLower r).map (fun x => l ++ x) := by
  induction l with
  | nil => simp only [List.nil_append]; cases utf8ToLower r <;> rfl
  | cons b l ih =>
    have hb := h b (by simp)
    have ih' := ih (fun d hd => h d (by simp [hd]))
    rw [List.cons_append, lower_cons _ _ hb.2, if_neg hb.1, ih']
    cases utf8ToLower r <;> rfl

/-- C53. Utf8ToLower of a well-formed text is the text with every character mapped to lower case (A–Z, the Cyrillic capital letters from U+0401 to U+042F);
it never fails on well-formed text and leaves all other characters unchanged. -/
theorem utf8_to_lower {cs : List Nat} (h : ∀ c ∈ cs, Scalar c) : utf8ToLower (text cs) = .ok (text (cs.map Spec.lower)) := by
  induction cs with
  | nil => rfl
  | cons c cs ih =>
    have ih' := ih (fun d hd => h d (by simp [hd]))
    have hc := (h c (by simp)).lt
    rw [List.map_cons, text_cons, text_cons]
    by_cases hA : 0x41 ≤ c ∧ c ≤ 0x5A
    · have e1 : encode c = [c] := by unfold encode; rw [if_pos (by omega)]
      have e2 : Spec.lower c = c + 0x20 := by unfold Spec.lower; rw [if_pos hA]
      have e3 : encode (c + 0x20) = [c + 0x20] := by unfold encode; rw [if_pos (by omega)]
      rw [e1, e2, e3, List.cons_append, List.nil_append, lower_cons _ _ (by omega), if_pos hA, ih']
      simp only [Except.map, List.cons_append, List.nil_append]
      rw [show c + 0x61 - 0x41 = c + 0x20 by omega]
    · by_cases hD : 0x400 ≤ c ∧ c < 0x440
      · have e1 : encode c = [0xd0, 0x80 + c % 64] := by
          unfold encode; rw [if_neg (by omega), if_pos (by omega)]; simp only [List.cons.injEq, and_true]; omega
        rw [e1, List.cons_append, List.cons_append, List.nil_append, lower_d0, ih', pay2, show 0xd0 % 32 * 64 + (0x80 + c % 64) % 64 = c by omega]
        have e2 : lowerCyrillic c = Spec.lower c := by unfold lowerCyrillic Spec.lower; rw [if_neg hA]
        have e3 : 0x401 ≤ Spec.lower c + 1 ∧ Spec.lower c < 0x460 := by
          unfold Spec.lower; rw [if_neg hA]
          split
          · omega
          · split <;> omega
        rw [e2]
        generalize Spec.lower c = d at e3 ⊢
        have e4 : encode d = [0xC0 + d / 64, 0x80 + d % 64] := by unfold encode; rw [if_neg (by omega), if_pos (by omega)]
        have e5 : ∀ d, d < 0x460 → 0x400 ≤ d → (0xd0 ||| (d >>> 6)) % 256 = 0xC0 + d / 64 ∧ ((d &&& 0x3f) ||| 0x80) % 256 = 0x80 + d % 64 := by decide +kernel
        obtain ⟨f1, f2⟩ := e5 d (by omega) (by omega)
        simp only [Except.map]
        rw [f1, f2, e4]
        rfl
      · have e2 : Spec.lower c = c := by unfold Spec.lower; rw [if_neg hA, if_neg (by omega), if_neg (by omega)]
        rw [e2, lower_skip, ih']
        · rfl
        · intro b hb
          unfold encode at hb
          by_cases h1 : c < 0x80
          · rw [if_pos h1] at hb; simp only [List.mem_singleton] at hb; omega
          rw [if_neg h1] at hb
          by_cases h2 : c < 0x800
          · rw [if_pos h2] at hb; simp only [List.mem_cons, List.not_mem_nil, or_false] at hb; omega
          rw [if_neg h2] at hb
          by_cases h3 : c < 0x10000
          · rw [if_pos h3] at hb; simp only [List.mem_cons, List.not_mem_nil, or_false] at hb; omega
          rw [if_neg h3] at hb; simp only [List.mem_cons, List.not_mem_nil, or_false] at hb; omega

/-- U+0400 (Ѐ) is not lowered although U+0450 is its lower case: the mapping above is not the Unicode one there. -/
theorem utf8_to_lower_0400 : utf8ToLower (text [0x400]) = .ok (text [0x400]) ∧ utf8ToLower (text [0x401]) = .ok (text [0x451]) := by
  refine ⟨rfl, rfl⟩

/-! Non-vacuity. -/
example : toUtf8 .utf32le (([0x61, 0x1F600] : List Nat).flatMap encode32le) 0x3f = some (text [0x61, 0x1F600]) ∧
    toUtf8 .utf16le [0x61, 0x00, 0xAC, 0x20, 0x00] 0x3f = some (text [0x61, 0x20AC, 0x3f]) ∧
    compare .utf8 (text [0x61, 0x20AC]) .utf16be [0x00, 0x61, 0x20, 0xAD] = some (-1) ∧
    fromCp866 [0x41, 0x80, 0xEF, 0xFC] 0x3f = some (text [0x41, 0x410, 0x44F, 0x2116]) ∧
    utf8ToLower (text [0x41, 0x416, 0x44F, 0x20AC]) = .ok (text [0x61, 0x436, 0x44F, 0x20AC]) := by
  refine ⟨?_, ?_, ?_, ?_, ?_⟩ <;> rfl

/-- A character is read from UTF-8 only where a character can begin: never from a stray continuation byte or a byte that no encoding contains. -/
theorem utf8_unpack_lead {b : Nat} {r : List Nat} {c : Nat} (h : (unpackUtf8 (b :: r)).1 = some c) : b ≤ 0x7f ∨ (0xc2 ≤ b ∧ b ≤ 0xf4) := by
  simp only [unpackUtf8] at h
  by_cases h1 : b ≤ 0x7f
  · exact Or.inl h1
  · right
    rw [if_neg h1] at h
    by_cases h2 : b = 0xc0 ∨ b = 0xc1 ∨ b ≥ 0xf5
    · rw [if_pos h2] at h; cases h
    · rw [if_neg h2] at h
      cases r with
      | nil => cases h
      | cons c1 r1 =>
        simp only [] at h
        by_cases h3 : b ≥ 0xc2 ∧ b ≤ 0xdf
        · omega
        · rw [if_neg h3] at h
          cases r1 with
          | nil => cases h
          | cons c2 r2 =>
            simp only [] at h
            by_cases h4 : b ≥ 0xe0 ∧ b ≤ 0xef
            · omega
            · rw [if_neg h4] at h
              cases r2 with
              | nil => cases h
              | cons c3 r3 =>
                simp only [] at h
                by_cases h5 : b ≥ 0xf0 ∧ b ≤ 0xf4
                · omega
                · rw [if_neg h5] at h; cases h

example : (unpackUtf8 [0xd0, 0x90]).1 = some 0x410 ∧ (unpackUtf8 [0x90, 0x90, 0x90, 0x90]).1 = none := by decide

end Verif.Text
