import Verif.Str.Hex

/-! C76: hexadecimal text. -/

namespace Verif.Str

/-- The value of a hexadecimal digit, by the alphabet (specification). -/
def hexDigitValue (c : Char) : Option Nat :=
  "0123456789abcdef".toList.idxOf? c <|> "0123456789ABCDEF".toList.idxOf? c

/-- The number a string denotes in base 16 (specification); `none` if some character is not a digit. -/
def hexNumber (cs : List Char) : Option Nat :=
  cs.foldl (fun a c => a.bind fun a => (hexDigitValue c).map fun d => a * 16 + d) (some 0)

/-- The characters accepted by the code are the digits, and their values agree. -/
theorem hexVal_spec (c : Char) : hexDigitValue c = if isHexChar c then some (hexVal c) else none := by
  by_cases h : isHexChar c = true
  · rw [if_pos h]
    simp only [isHexChar, Bool.or_eq_true, Bool.and_eq_true, decide_eq_true_eq] at h
    have hc : c = Char.ofNat c.toNat := (Char.ofNat_toNat c).symm
    generalize c.toNat = n at *
    subst hc
    have : n = 48 ∨ n = 49 ∨ n = 50 ∨ n = 51 ∨ n = 52 ∨ n = 53 ∨ n = 54 ∨ n = 55 ∨ n = 56 ∨ n = 57 ∨
      n = 65 ∨ n = 66 ∨ n = 67 ∨ n = 68 ∨ n = 69 ∨ n = 70 ∨ n = 97 ∨ n = 98 ∨ n = 99 ∨ n = 100 ∨ n = 101 ∨ n = 102 := by omega
    rcases this with h|h|h|h|h|h|h|h|h|h|h|h|h|h|h|h|h|h|h|h|h|h <;> subst h <;> decide
  · rw [if_neg h]
    have hn : c ∉ "0123456789abcdef".toList ∧ c ∉ "0123456789ABCDEF".toList := by
      constructor
      · intro hm
        apply h
        have : ∀ x ∈ "0123456789abcdef".toList, isHexChar x = true := by decide
        exact this c hm
      · intro hm
        apply h
        have : ∀ x ∈ "0123456789ABCDEF".toList, isHexChar x = true := by decide
        exact this c hm
    simp only [hexDigitValue, List.idxOf?_eq_none_iff.mpr hn.1, List.idxOf?_eq_none_iff.mpr hn.2]
    rfl

theorem hexVal_lt {c : Char} (h : isHexChar c = true) : hexVal c < 16 := by
  simp only [isHexChar, Bool.or_eq_true, Bool.and_eq_true, decide_eq_true_eq] at h
  have hc : c = Char.ofNat c.toNat := (Char.ofNat_toNat c).symm
  generalize c.toNat = n at *
  subst hc
  have : n = 48 ∨ n = 49 ∨ n = 50 ∨ n = 51 ∨ n = 52 ∨ n = 53 ∨ n = 54 ∨ n = 55 ∨ n = 56 ∨ n = 57 ∨
      n = 65 ∨ n = 66 ∨ n = 67 ∨ n = 68 ∨ n = 69 ∨ n = 70 ∨ n = 97 ∨ n = 98 ∨ n = 99 ∨ n = 100 ∨ n = 101 ∨ n = 102 := by omega
  rcases this with h|h|h|h|h|h|h|h|h|h|h|h|h|h|h|h|h|h|h|h|h|h <;> subst h <;> decide

/-- The number of a string of accepted characters. -/
def hexFold (a : Nat) (cs : List Char) : Nat := cs.foldl (fun a c => a * 16 + hexVal c) a

theorem hexNumber_some (cs : List Char) (h : cs.all isHexChar = true) : ∀ a,
    cs.foldl (fun a c => a.bind fun a => (hexDigitValue c).map fun d => a * 16 + d) (some a) = some (hexFold a cs) := by
  induction cs with
  | nil => intro a; rfl
  | cons c cs ih =>
    intro a
    simp only [List.all_cons, Bool.and_eq_true] at h
    have hc := hexVal_spec c
    rw [if_pos h.1] at hc
    simp only [List.foldl_cons, hexFold, hc, Option.bind_some, Option.map_some]
    exact ih h.2 _

theorem hexNumber_none_fold (cs : List Char) :
    cs.foldl (fun a c => a.bind fun a => (hexDigitValue c).map fun d => a * 16 + d) none = none := by
  induction cs with
  | nil => rfl
  | cons c cs ih => simpa using ih

theorem hexNumber_none (cs : List Char) (h : cs.all isHexChar = false) : ∀ a,
    cs.foldl (fun a c => a.bind fun a => (hexDigitValue c).map fun d => a * 16 + d) (some a) = none := by
  induction cs with
  | nil => simp at h
  | cons c cs ih =>
    intro a
    have hd := hexVal_spec c
    simp only [List.foldl_cons, Option.bind_some]
    cases hc : isHexChar c with
    | true =>
      rw [hc, if_pos rfl] at hd
      simp only [hd, Option.map_some]
      simp only [List.all_cons, hc, Bool.true_and] at h
      exact ih h _
    | false =>
      rw [hc] at hd
      simp only [Bool.false_eq_true, if_false] at hd
      simp only [hd, Option.map_none]
      exact hexNumber_none_fold cs

theorem hexFold_ge (cs : List Char) : ∀ a, a ≤ hexFold a cs := by
  induction cs with
  | nil => intro a; exact Nat.le_refl _
  | cons c cs ih =>
    intro a
    have := ih (a * 16 + hexVal c)
    simp only [hexFold, List.foldl_cons] at *
    omega

theorem or_digit {a d : Nat} (h : d < 16) : (a <<< 4) ||| d = a * 16 + d := by
  rw [Nat.shiftLeft_eq, Nat.mul_comm]
  exact (Nat.two_pow_add_eq_or_of_lt (i := 4) (by omega) a).symm

theorem fromHexLoop_spec {hi : Nat} (hhi : hi % 16 = 15) (cs : List Char) (h : cs.all isHexChar = true) : ∀ a, a ≤ hi →
    fromHexLoop hi false cs a = if hexFold a cs ≤ hi then some (hexFold a cs) else none := by
  induction cs with
  | nil => intro a ha; simp [fromHexLoop, hexFold, ha]
  | cons c cs ih =>
    intro a ha
    simp only [List.all_cons, Bool.and_eq_true] at h
    have hd := hexVal_lt h.1
    have hs : hi >>> 4 = hi / 16 := by rw [Nat.shiftRight_eq_div_pow]
    simp only [fromHexLoop, hs, or_digit hd]
    have hge := hexFold_ge cs (a * 16 + hexVal c)
    have he : hexFold a (c :: cs) = hexFold (a * 16 + hexVal c) cs := rfl
    rw [he]
    by_cases hle : a ≤ hi / 16
    · rw [if_pos hle]
      exact ih h.2 _ (by omega)
    · rw [if_neg hle]
      symm
      exact if_neg (by omega)

/-- C76.  `FromHex<T>`: the empty string is an argument error, a string with a character that is not a
hexadecimal digit is a format error, and otherwise the result is the number if `T` can hold it and
a range error if not.  (`hi % 16 = 15` holds for the greatest value of every integer type.) -/
theorem fromHex_spec {hi : Nat} (hhi : hi % 16 = 15) (str : List Char) :
    fromHex hi str = if str = [] then .argumentError else
      match hexNumber str with
      | none => .formatError
      | some v => if v ≤ hi then .ok v else .rangeError := by
  cases str with
  | nil => rfl
  | cons c cs =>
    simp only [fromHex, List.isEmpty_cons, Bool.false_eq_true, if_false, reduceCtorEq]
    cases h : (c :: cs).all isHexChar with
    | false =>
      rw [hexNumber, hexNumber_none _ h]
      rfl
    | true =>
      rw [hexNumber, hexNumber_some _ h]
      simp only [if_true]
      have h' := h
      simp only [List.all_cons, Bool.and_eq_true] at h'
      have hd := hexVal_lt h'.1
      have e : fromHexLoop hi true (c :: cs) 0 = if hexFold 0 (c :: cs) ≤ hi then some (hexFold 0 (c :: cs)) else none := by
        simp only [fromHexLoop, Nat.zero_or]
        rw [fromHexLoop_spec hhi cs h'.2 _ (by omega)]
        have : hexFold 0 (c :: cs) = hexFold (hexVal c) cs := by simp [hexFold]
        rw [this]
      rw [e]
      split <;> rename_i heq
      · split at heq
        · injection heq with heq; subst heq; rw [if_pos (by assumption)]
        · cases heq
      · split at heq
        · cases heq
        · rw [if_neg (by assumption)]

example : fromHex 255 "fF".toList = .ok 255 ∧ fromHex 255 "100".toList = .rangeError ∧ fromHex 255 "0000ff".toList = .ok 255 ∧
    fromHex 255 "fg".toList = .formatError := by decide +kernel

theorem hexChar_spec (cap : Bool) {d : Nat} (h : d < 16) : isHexChar (hexChar cap d) = true ∧ hexVal (hexChar cap d) = d ∧
    (hexChar cap d = '0' ↔ d = 0) := by
  have : d = 0 ∨ d = 1 ∨ d = 2 ∨ d = 3 ∨ d = 4 ∨ d = 5 ∨ d = 6 ∨ d = 7 ∨ d = 8 ∨ d = 9 ∨ d = 10 ∨ d = 11 ∨ d = 12 ∨ d = 13 ∨ d = 14 ∨ d = 15 := by omega
  rcases this with h|h|h|h|h|h|h|h|h|h|h|h|h|h|h|h <;> subst h <;> cases cap <;> decide

theorem hexFold_append (a : Nat) (xs ys : List Char) : hexFold a (xs ++ ys) = hexFold (hexFold a xs) ys := by
  simp [hexFold]

theorem toHexLoop_length_le (mw start : Nat) (cap : Bool) (v : Nat) (left : Nat) : ∀ (seen : Bool),
    (toHexLoop mw start cap v left seen).length ≤ left := by
  induction left with
  | zero => intro seen; exact Nat.le_refl _
  | succ left ih =>
    intro seen
    have := ih (seen || (v >>> (left * 4)) &&& 0xf != 0)
    simp only [toHexLoop]
    split
    · simp only [List.length_cons]; omega
    · omega

/-- The loop emits the digits of the number; `width` is the wanted width. -/
theorem toHexLoop_spec (mw width : Nat) (hw : width ≤ mw) (cap : Bool) (v : Nat) (left : Nat) : ∀ (seen : Bool), left ≤ mw →
    (seen = false → v < 16 ^ left) →
    (∀ a, hexFold a (toHexLoop mw (mw - width) cap v left seen)
      = a * 16 ^ (toHexLoop mw (mw - width) cap v left seen).length + v % 16 ^ left) ∧
    (toHexLoop mw (mw - width) cap v left seen).all isHexChar = true ∧
    min (max 1 width) left ≤ (toHexLoop mw (mw - width) cap v left seen).length ∧
    (seen = true → (toHexLoop mw (mw - width) cap v left seen).length = left) ∧
    (seen = false → max 1 width < (toHexLoop mw (mw - width) cap v left seen).length →
      (toHexLoop mw (mw - width) cap v left seen).head? ≠ some '0') := by
  induction left with
  | zero =>
    intro seen _ _
    simp only [toHexLoop]
    refine ⟨fun a => ?_, rfl, by simp, fun _ => rfl, fun _ h => ?_⟩
    · simp [hexFold, Nat.mod_one]
    · simp at h
  | succ left ih =>
    intro seen hl hv
    have hdig : (v >>> (left * 4)) &&& 0xf = v / 16 ^ left % 16 := by
      have e1 : v >>> (left * 4) = v / 16 ^ left := by
        rw [Nat.shiftRight_eq_div_pow, Nat.mul_comm, Nat.pow_mul]
      have e2 : ∀ x : Nat, x &&& 0xf = x % 16 := fun x => Nat.and_two_pow_sub_one_eq_mod x 4
      rw [e1, e2]
    have hlt : v / 16 ^ left % 16 < 16 := Nat.mod_lt _ (by omega)
    have hmod : v % 16 ^ (left + 1) = v / 16 ^ left % 16 * 16 ^ left + v % 16 ^ left := by
      rw [Nat.pow_succ, Nat.mod_mul]
      rw [Nat.mul_comm, Nat.add_comm]
    have hvd : seen = false → v / 16 ^ left % 16 = v / 16 ^ left := by
      intro hs
      apply Nat.mod_eq_of_lt
      have := hv hs
      rw [Nat.pow_succ] at this
      exact Nat.div_lt_of_lt_mul (by rw [Nat.mul_comm] at this; rw [Nat.mul_comm]; exact this)
    obtain ⟨i1, i2, i3, i4, i5⟩ := ih (seen || (v >>> (left * 4)) &&& 0xf != 0) (by omega) (by
      intro hs
      rw [hdig] at hs
      simp only [Bool.or_eq_false_iff, bne_eq_false_iff_eq] at hs
      have := hvd hs.1
      rw [hs.2] at this
      have hp : 0 < 16 ^ left := Nat.pow_pos (by omega)
      rcases Nat.div_eq_zero_iff.mp this.symm with h | h
      · omega
      · exact h)
    simp only [toHexLoop]
    generalize hL : toHexLoop mw (mw - width) cap v left (seen || (v >>> (left * 4)) &&& 0xf != 0) = L at *
    generalize hS : (seen || (v >>> (left * 4)) &&& 0xf != 0) = seen' at *
    rw [hdig] at hS ⊢
    have hch := hexChar_spec cap hlt
    by_cases hc : (seen' || decide (mw - (left + 1) ≥ mw - width) || decide (left = 0)) = true
    · rw [if_pos hc]
      refine ⟨fun a => ?_, ?_, ?_, ?_, ?_⟩
      · have : hexFold a (hexChar cap (v / 16 ^ left % 16) :: L) = hexFold (a * 16 + v / 16 ^ left % 16) L := by
          simp [hexFold, hch.2.1]
        rw [this, i1, hmod]
        have hlen : L.length = left ∨ (v / 16 ^ left % 16 = 0) := by
          cases hs' : seen' with
          | true => exact Or.inl (i4 hs')
          | false =>
            right
            rw [hs'] at hS
            simp only [Bool.or_eq_false_iff, bne_eq_false_iff_eq] at hS
            exact hS.2
        rcases hlen with h | h
        · rw [List.length_cons, h, Nat.pow_succ, Nat.add_mul]
          rw [Nat.mul_assoc, Nat.mul_comm 16]
          omega
        · rw [h, List.length_cons, Nat.pow_succ]
          simp only [Nat.add_zero, Nat.zero_mul, Nat.zero_add]
          rw [Nat.mul_assoc, Nat.mul_comm 16]
      · simp [hch.1, i2]
      · simp only [List.length_cons]; omega
      · intro hs
        simp only [List.length_cons]
        rw [i4 (by rw [← hS, hs]; rfl)]
      · intro hs hlen
        simp only [List.head?_cons, ne_eq, Option.some.injEq]
        rw [hch.2.2]
        intro h0
        have hs' : seen' = false := by rw [← hS, hs, h0]; rfl
        rw [hs'] at hc
        simp only [Bool.false_or, Bool.or_eq_true, decide_eq_true_eq] at hc
        simp only [List.length_cons] at hlen
        have hLl : L.length ≤ left := by
          rw [← hL]
          exact toHexLoop_length_le _ _ _ _ _ _
        omega
    · rw [if_neg hc]
      simp only [Bool.or_eq_true, decide_eq_true_eq, not_or, Bool.not_eq_true] at hc
      obtain ⟨⟨hs', hwid⟩, hl0⟩ := hc
      have hS2 := hS
      rw [hs'] at hS2
      simp only [Bool.or_eq_false_iff, bne_eq_false_iff_eq] at hS2
      refine ⟨fun a => ?_, i2, ?_, ?_, ?_⟩
      · rw [i1, hmod, hS2.2]; omega
      · omega
      · intro hs; rw [hS2.1] at hs; cases hs
      · intro _; exact i5 hs'

theorem hexFold_zeros (n : Nat) : hexFold 0 (List.replicate n '0') = 0 := by
  induction n with
  | zero => rfl
  | succ n ih =>
    rw [List.replicate_succ]
    have : hexFold 0 ('0' :: List.replicate n '0') = hexFold 0 (List.replicate n '0') := by
      simp only [hexFold, List.foldl_cons]; rfl
    rw [this, ih]

/-- C76.  `ToHex(value, width)` of a value of `bytes` bytes: a non-empty string of digits that denotes the
value, at least `width` wide, and with no leading zero unless the width (or the value zero) demands it. -/
theorem toHex_spec {bytes v width : Nat} {cap : Bool} (hb : 0 < bytes) (hv : v < 256 ^ bytes) :
    hexNumber (toHex bytes v width cap) = some v ∧ max 1 width ≤ (toHex bytes v width cap).length ∧
    (max 1 width < (toHex bytes v width cap).length → (toHex bytes v width cap).head? ≠ some '0') := by
  have hv' : v < 16 ^ (bytes * 2) := by
    rw [Nat.mul_comm, Nat.pow_mul]; exact hv
  by_cases h : width > bytes * 2
  · obtain ⟨i1, i2, i3, _, _⟩ := toHexLoop_spec (bytes * 2) (bytes * 2) (Nat.le_refl _) cap v (bytes * 2) false (Nat.le_refl _) (fun _ => hv')
    have hle := toHexLoop_length_le (bytes * 2) (bytes * 2 - bytes * 2) cap v (bytes * 2) false
    rw [Nat.sub_self] at i1 i2 i3 hle
    simp only [toHex, if_pos h]
    have hlen : (List.replicate (width - bytes * 2) '0' ++ toHexLoop (bytes * 2) 0 cap v (bytes * 2) false).length = width := by
      rw [List.length_append, List.length_replicate]; omega
    refine ⟨?_, by omega, fun hc => absurd hc (by omega)⟩
    rw [hexNumber, hexNumber_some, hexFold_append, hexFold_zeros, i1, Nat.mod_eq_of_lt hv', Nat.zero_mul, Nat.zero_add]
    rw [List.all_append, i2, Bool.and_true, List.all_eq_true]
    intro x hx
    rw [List.eq_of_mem_replicate hx]; rfl
  · obtain ⟨i1, i2, i3, _, i5⟩ := toHexLoop_spec (bytes * 2) width (by omega) cap v (bytes * 2) false (Nat.le_refl _) (fun _ => hv')
    simp only [toHex, if_neg h]
    refine ⟨?_, by omega, i5 rfl⟩
    rw [hexNumber, hexNumber_some _ i2, i1, Nat.mod_eq_of_lt hv', Nat.zero_mul, Nat.zero_add]

example : toHex 4 0 0 false = "0".toList ∧ toHex 4 0xbeef 0 true = "BEEF".toList ∧ toHex 1 0xa 4 false = "000a".toList := by decide +kernel

/-- C76.  `FromHex(ToHex(v))` is `v`, for every value of the type, width and letter case. -/
theorem fromHex_toHex {bytes v width hi : Nat} {cap : Bool} (hb : 0 < bytes) (hv : v < 256 ^ bytes) (hh : v ≤ hi) (hhi : hi % 16 = 15) :
    fromHex hi (toHex bytes v width cap) = .ok v := by
  obtain ⟨h1, h2, _⟩ := toHex_spec (width := width) (cap := cap) hb hv
  have hne : toHex bytes v width cap ≠ [] := by
    intro h; rw [h] at h2; simp at h2
  rw [fromHex_spec hhi, if_neg hne, h1]
  simp only []
  rw [if_pos hh]

example : fromHex 65535 (toHex 2 0xbeef 0 true) = .ok 0xbeef := by decide +kernel

theorem toHex_byte {b : Nat} (hb : b < 256) (cap : Bool) : ∃ x y, toHex 1 b 2 cap = [x, y] ∧ fromHex 255 [x, y] = .ok b ∧ y ≠ 'x' := by
  obtain ⟨h1, h2, h3⟩ := toHex_spec (bytes := 1) (v := b) (width := 2) (cap := cap) (by omega) hb
  have hr := fromHex_toHex (bytes := 1) (v := b) (width := 2) (cap := cap) (hi := 255) (by omega) hb (by omega) (by omega)
  have hl : (toHex 1 b 2 cap).length ≤ 2 := by
    have : ¬ 2 > 1 * 2 := by omega
    simp only [toHex, if_neg this]
    exact toHexLoop_length_le _ _ _ _ _ _
  match hL : toHex 1 b 2 cap with
  | [] => rw [hL] at h2; simp at h2
  | [_] => rw [hL] at h2; simp at h2
  | [x, y] =>
    rw [hL] at hr
    refine ⟨x, y, rfl, hr, ?_⟩
    intro hy
    subst hy
    have hx : isHexChar 'x' = false := by decide
    rw [fromHex] at hr
    simp only [List.isEmpty_cons, List.all_cons, hx, Bool.false_and, Bool.and_false, Bool.false_eq_true, if_false] at hr
    cases hr
  | _ :: _ :: _ :: _ => rw [hL] at hl; simp at hl

theorem fromHexPairs_toHex (cap : Bool) (bs : List Nat) (hb : ∀ b ∈ bs, b < 256) :
    fromHexPairs (bs.flatMap (fun b => toHex 1 b 2 cap)) = some bs ∧
    (bs.flatMap (fun b => toHex 1 b 2 cap)).length = 2 * bs.length := by
  induction bs with
  | nil => exact ⟨rfl, rfl⟩
  | cons b bs ih =>
    obtain ⟨x, y, he, hr, _⟩ := toHex_byte (hb b (by simp)) cap
    obtain ⟨i1, i2⟩ := ih (fun c hc => hb c (by simp [hc]))
    simp only [List.flatMap_cons, he, List.cons_append, List.nil_append, fromHexPairs, hr, i1]
    refine ⟨by simp, ?_⟩
    simp only [List.length_cons, i2]; omega

theorem fromHexBytes_prefix (cs : List Char) : fromHexBytes ('0' :: 'x' :: cs) = fromHexBody cs := rfl

theorem fromHexBytes_plain (cs : List Char) (h : cs[1]? ≠ some 'x') : fromHexBytes cs = fromHexBody cs := by
  unfold fromHexBytes
  split
  · simp at h
  · rfl

/-- C76.  A byte array written with `ToHex` is read back by `FromHex<ByteArray>`, with or without the "0x"
prefix, in either letter case. -/
theorem bytes_roundtrip (bs : List Nat) (hb : ∀ b ∈ bs, b < 256) (cap : Bool) :
    fromHexBytes (toHexBytes bs 0 cap) = some bs ∧ fromHexBytes ("0x".toList ++ toHexBytes bs 0 cap) = some bs := by
  obtain ⟨h1, h2⟩ := fromHexPairs_toHex cap bs hb
  have hbody : fromHexBody (toHexBytes bs 0 cap) = some bs := by
    have e : toHexBytes bs 0 cap = bs.flatMap (fun b => toHex 1 b 2 cap) := by
      simp [toHexBytes]
    rw [e]
    unfold fromHexBody
    rw [if_neg (by omega)]
    exact h1
  refine ⟨?_, ?_⟩
  · rw [fromHexBytes_plain _ ?_, hbody]
    cases bs with
    | nil => simp [toHexBytes]
    | cons b bs =>
      obtain ⟨x, y, he, _, hy⟩ := toHex_byte (hb b (by simp)) cap
      simp only [toHexBytes, Nat.zero_sub, List.replicate_zero, List.nil_append, List.flatMap_cons, he]
      simpa using hy
  · exact (fromHexBytes_prefix _).trans hbody

example : fromHexBytes (toHexBytes [0xde, 0xad, 0x05] 0 true) = some [0xde, 0xad, 0x05] ∧
    toHexBytes [0xde, 0xad, 0x05] 0 true = "DEAD05".toList := by decide +kernel

theorem fromHexPairs_zeros (m : Nat) (cs : List Char) :
    fromHexPairs (List.replicate (2 * m) '0' ++ cs) = (fromHexPairs cs).map (List.replicate m 0 ++ ·) := by
  induction m with
  | zero => simp
  | succ m ih =>
    have hz : fromHex 255 ['0', '0'] = .ok 0 := rfl
    have e : List.replicate (2 * (m + 1)) '0' ++ cs = '0' :: '0' :: (List.replicate (2 * m) '0' ++ cs) := by
      rw [show 2 * (m + 1) = 2 * m + 1 + 1 by omega, List.replicate_succ, List.replicate_succ]; rfl
    rw [e, fromHexPairs, hz]
    simp only [ih]
    cases fromHexPairs cs <;> rfl

/-- C76.  A byte array written with `ToHex` to a width is padded with zero digits in front: `ToHex(data, 2 * w)` reads as the
data after zero bytes, and has at least `2 * w` digits. -/
theorem bytes_padded (bs : List Nat) (hb : ∀ b ∈ bs, b < 256) (cap : Bool) (w : Nat) :
    fromHexBytes ("0x".toList ++ toHexBytes bs (2 * w) cap) = some (List.replicate (w - bs.length) 0 ++ bs) ∧
      (toHexBytes bs (2 * w) cap).length = max (2 * w) (2 * bs.length) := by
  obtain ⟨h1, h2⟩ := fromHexPairs_toHex cap bs hb
  have hl : (toHexBytes bs (2 * w) cap).length = max (2 * w) (2 * bs.length) := by
    unfold toHexBytes
    rw [List.length_append, List.length_replicate, h2]; omega
  refine ⟨?_, hl⟩
  refine (fromHexBytes_prefix (toHexBytes bs (2 * w) cap)).trans ?_
  unfold fromHexBody
  rw [if_neg (by omega)]
  unfold toHexBytes
  rw [show 2 * w - bs.length * 2 = 2 * (w - bs.length) by omega, fromHexPairs_zeros, h1]; rfl

example : toHexBytes [0xab] 6 false = "0000ab".toList := by decide +kernel

/-- The number of a byte string, first byte highest (specification). -/
def bytesNumber (bs : List Nat) : Nat := bs.foldl (fun a b => a * 256 + b) 0

theorem fromHex_pair (a b : Char) (ha : isHexChar a = true) (hb : isHexChar b = true) :
    fromHex 255 [a, b] = .ok ((hexVal a * 16 + hexVal b : Nat) : Int) ∧ hexVal a * 16 + hexVal b < 256 := by
  have h1 := hexVal_lt ha
  have h2 := hexVal_lt hb
  refine ⟨?_, by omega⟩
  rw [fromHex_spec (by omega), if_neg (by simp), hexNumber, hexNumber_some _ (by simp [ha, hb])]
  have e : hexFold 0 [a, b] = hexVal a * 16 + hexVal b := by simp [hexFold]
  rw [e]
  simp only []
  rw [if_pos (by omega)]

theorem fromHexPairs_value (n : Nat) : ∀ (cs : List Char), cs.length = 2 * n → cs.all isHexChar = true → ∃ bs, fromHexPairs cs = some bs ∧ bs.length = n ∧
    (∀ b ∈ bs, b < 256) ∧ ∀ a, bs.foldl (fun a b => a * 256 + b) a = hexFold a cs := by
  induction n with
  | zero =>
    intro cs hl _
    obtain rfl := List.length_eq_zero_iff.mp hl
    exact ⟨[], rfl, rfl, by simp, fun a => rfl⟩
  | succ n ih =>
    intro cs hl hc
    match cs, hl, hc with
    | x :: y :: cs, hl, hc =>
      simp only [List.all_cons, Bool.and_eq_true] at hc
      obtain ⟨h1, h2⟩ := fromHex_pair x y hc.1 hc.2.1
      obtain ⟨bs, i1, i2, i3, i4⟩ := ih cs (by simp only [List.length_cons] at hl; omega) hc.2.2
      refine ⟨(hexVal x * 16 + hexVal y) :: bs, ?_, by simp [i2], ?_, ?_⟩
      · simp only [fromHexPairs, h1, i1, Option.map_some]
        rw [Int.toNat_natCast]
      · intro b hb
        rcases List.mem_cons.mp hb with h | h
        · omega
        · exact i3 b h
      · intro a
        rw [List.foldl_cons, i4]
        have : a * 256 + (hexVal x * 16 + hexVal y) = (a * 16 + hexVal x) * 16 + hexVal y := by omega
        rw [this]
        rfl
    | [_], hl, _ => simp at hl; omega

theorem fromHexPairs_refused (n : Nat) : ∀ (cs : List Char), cs.length = 2 * n → cs.all isHexChar = false → fromHexPairs cs = none := by
  induction n with
  | zero =>
    intro cs hl hc
    obtain rfl := List.length_eq_zero_iff.mp hl
    simp at hc
  | succ n ih =>
    intro cs hl hc
    match cs, hl, hc with
    | x :: y :: cs, hl, hc =>
      have hl' : cs.length = 2 * n := by simp only [List.length_cons] at hl; omega
      cases hxy : ([x, y].all isHexChar) with
      | false =>
        simp only [fromHexPairs, fromHex, hxy]
        rfl
      | true =>
        have hc' : cs.all isHexChar = false := by
          simp only [List.all_cons, List.all_nil, Bool.and_true] at hxy
          simp only [List.all_cons] at hc
          rw [← Bool.and_assoc, hxy, Bool.true_and] at hc
          exact hc
        simp only [fromHexPairs, ih cs hl' hc']
        split <;> rfl
    | [_], hl, _ => simp at hl; omega

theorem fromHexBody_value (cs : List Char) (v : Nat) (h : hexNumber cs = some v) : ∃ bs, fromHexBody cs = some bs ∧
    bs.length = (cs.length + 1) / 2 ∧ (∀ b ∈ bs, b < 256) ∧ bytesNumber bs = v := by
  have hall : cs.all isHexChar = true := by
    cases hc : cs.all isHexChar with
    | true => rfl
    | false => rw [hexNumber, hexNumber_none _ hc] at h; cases h
  rw [hexNumber, hexNumber_some _ hall] at h
  injection h with h
  unfold fromHexBody
  by_cases hp : cs.length % 2 = 1
  · rw [if_pos hp]
    match cs, hp, hall, h with
    | x :: cs, hp, hall, h =>
      simp only [List.all_cons, Bool.and_eq_true] at hall
      simp only [List.length_cons] at hp ⊢
      have hx := hexVal_lt hall.1
      have h1 : fromHex 255 [x] = .ok ((hexVal x : Nat) : Int) := by
        rw [fromHex_spec (by omega), if_neg (by simp), hexNumber, hexNumber_some _ (by simp [hall.1])]
        have e : hexFold 0 [x] = hexVal x := by simp [hexFold]
        rw [e]
        simp only []
        rw [if_pos (by omega)]
      obtain ⟨bs, i1, i2, i3, i4⟩ := fromHexPairs_value (cs.length / 2) cs (by omega) hall.2
      refine ⟨hexVal x :: bs, ?_, ?_, ?_, ?_⟩
      · simp only [h1, i1, Option.map_some]
        rw [Int.toNat_natCast]
      · simp only [List.length_cons, i2]; omega
      · intro b hb
        rcases List.mem_cons.mp hb with h | h
        · omega
        · exact i3 b h
      · rw [bytesNumber, List.foldl_cons, i4, ← h]
        simp [hexFold]
  · rw [if_neg hp]
    obtain ⟨bs, i1, i2, i3, i4⟩ := fromHexPairs_value (cs.length / 2) cs (by omega) hall
    exact ⟨bs, i1, by omega, i3, by rw [bytesNumber, i4, h]⟩

theorem fromHexBody_refused (cs : List Char) (h : hexNumber cs = none) : fromHexBody cs = none := by
  have hall : cs.all isHexChar = false := by
    cases hc : cs.all isHexChar with
    | false => rfl
    | true => rw [hexNumber, hexNumber_some _ hc] at h; cases h
  unfold fromHexBody
  by_cases hp : cs.length % 2 = 1
  · rw [if_pos hp]
    match cs, hp, hall with
    | x :: cs, hp, hall =>
      simp only [List.length_cons] at hp
      cases hx : ([x].all isHexChar) with
      | false =>
        simp only [fromHex, hx]
        rfl
      | true =>
        have hc' : cs.all isHexChar = false := by
          simp only [List.all_cons, List.all_nil, Bool.and_true] at hx
          simp only [List.all_cons, hx, Bool.true_and] at hall
          exact hall
        simp only [fromHexPairs_refused (cs.length / 2) cs (by omega) hc']
        split <;> rfl
  · rw [if_neg hp]
    exact fromHexPairs_refused (cs.length / 2) cs (by omega) hall

/-- C76.  `FromHex<ByteArray>` of any text after an optional "0x": if all characters are digits, the bytes whose
number is that of the text, as many as the digits need (an odd first digit is a byte of its own);
otherwise it throws. -/
theorem fromHexBytes_spec (cs : List Char) :
    fromHexBytes ("0x".toList ++ cs) = fromHexBody cs ∧ (cs.take 2 ≠ "0x".toList → fromHexBytes cs = fromHexBody cs) ∧
    (∀ v, hexNumber cs = some v → ∃ bs, fromHexBody cs = some bs ∧
      bs.length = (cs.length + 1) / 2 ∧ (∀ b ∈ bs, b < 256) ∧ bytesNumber bs = v) ∧
    (hexNumber cs = none → fromHexBody cs = none) := by
  refine ⟨rfl, fun h => ?_, fromHexBody_value cs, fromHexBody_refused cs⟩
  unfold fromHexBytes
  split
  · exact absurd rfl h
  · rfl

example : fromHexBytes "0xabc".toList = some [0xa, 0xbc] ∧ hexNumber "abc".toList = some 0xabc ∧ fromHexBytes "abcg".toList = none := by
  decide +kernel

/-- C76.  `ShortHexDump(ptr, size, limit)` shows the first `limit` bytes, two digits or more each, and marks with
dots that there are more. -/
theorem shortHexDump_spec (data : List Nat) (limit : Nat) :
    shortHexDump data limit = "{ ".toList ++ (data.take limit).flatMap (fun b => toHex 4 b 2 false ++ [' '])
      ++ (if limit < data.length then "... }".toList else "}".toList) := by
  unfold shortHexDump
  by_cases h : limit < data.length
  · have e : min data.length limit = limit := by omega
    rw [e, if_pos h, if_pos h]
    simp
  · have e : min data.length limit = data.length := by omega
    rw [e, if_neg h, if_neg (by omega)]
    rw [List.take_of_length_le (Nat.le_refl _), List.take_of_length_le (by omega)]
    simp

example : shortHexDump [1, 2, 255] 2 = "{ 01 02 ... }".toList := by decide +kernel

/-- C76.  The overload for containers loses the mark: whatever is left out, it prints the same as a container that
ends at the limit. -/
theorem shortHexDumpOf_violated (data more : List Nat) (limit : Nat) (h : data.length = limit) :
    shortHexDumpOf (data ++ more) limit = shortHexDumpOf data limit ∧
    (more ≠ [] → shortHexDump (data ++ more) limit ≠ shortHexDump data limit) := by
  refine ⟨?_, fun hm => ?_⟩
  · unfold shortHexDumpOf
    have e1 : min limit (data ++ more).length = limit := by rw [List.length_append]; omega
    have e2 : min limit data.length = limit := by omega
    rw [e1, e2, ← h, List.take_left, List.take_of_length_le (Nat.le_refl _)]
  · have hl : 0 < more.length := List.length_pos_iff.mpr hm
    rw [shortHexDump_spec, shortHexDump_spec, if_pos (by rw [List.length_append]; omega), if_neg (by omega)]
    rw [← h, List.take_left, List.take_of_length_le (Nat.le_refl _)]
    intro hc
    have := List.append_cancel_left hc
    exact absurd this (by decide)

example : shortHexDumpOf [1, 2, 255] 2 = "{ 01 02 }".toList := by decide +kernel

end Verif.Str
