import Verif.Str.Stream
import Verif.Str.IntsProps
import Verif.Inplace.Lemmas
/-
What a user of string_ostream relies on: it holds the texts of what was inserted since it was last cleared, one after another, whatever their lengths.
-/
namespace Verif.Str.Stream
open Verif.Inplace (Rep)

/-- `text` is the usual decimal notation of `v`: digits without superfluous zeros, and `-` before them if it is negative. -/
def Decimal (v : Int) (text : List Char) : Prop :=
  ∃ ds : List Char, text = (if v < 0 then '-' :: ds else ds) ∧ ds ≠ [] ∧ (∀ c ∈ ds, '0' ≤ c ∧ c ≤ '9') ∧
    ds.foldl (fun n c => n * 10 + (c.toNat - 48)) 0 = v.natAbs ∧ (ds.head? = some '0' → ds = ['0'])

/-- The integer types. -/
def intTypes : List (IntTy × Nat × Bool) := [(s8, 8, true), (u8, 8, false), (s16, 16, true), (u16, 16, false), (s32, 32, true), (u32, 32, false), (s64, 64, true), (u64, 64, false)]

/-- The text of a value (specification). -/
inductive Shows (null : List Char) : Val → List Char → Prop
  | yes : Shows null (.bool true) "true".toList
  | no : Shows null (.bool false) "false".toList
  | chr (c : Char) : Shows null (.chr c) [c]
  | signed {t : IntTy} {bits : Nat} {v : Int} {text : List Char} : (t, bits, true) ∈ intTypes → -(2 ^ (bits - 1)) ≤ v → v < 2 ^ (bits - 1) → Decimal v text → Shows null (.int t v) text
  | unsigned {t : IntTy} {bits : Nat} {v : Int} {text : List Char} : (t, bits, false) ∈ intTypes → 0 ≤ v → v < 2 ^ bits → Decimal v text → Shows null (.int t v) text
  | text (s : List Char) : Shows null (.text s) s
  | cstr (s rest : List Char) : (∀ c ∈ s, c.toNat ≠ 0) → Shows null (.cstr (some (s ++ Char.ofNat 0 :: rest))) s
  | null : null.length < 32 → Shows null (.cstr none) null
  | printed (s : List Char) : s.length < 32 → Shows null (.printed s) s

/-- What a history leaves in the stream (specification). -/
inductive Written (null : List Char) : List Op → List Char → Prop
  | new : Written null [] []
  | insert {ops : List Op} {s t : List Char} {v : Val} : Written null ops s → Shows null v t → Written null (ops ++ [.insert v]) (s ++ t)
  | clear {ops : List Op} {s : List Char} : Written null ops s → Written null (ops ++ [.clear]) []

theorem digit_char {c : Char} (h : isDigit c = true) : '0' ≤ c ∧ c ≤ '9' := by
  simp only [isDigit, Bool.and_eq_true, decide_eq_true_eq] at h
  rw [Char.le_def, Char.le_def, UInt32.le_iff_toNat_le, UInt32.le_iff_toNat_le]
  exact h

theorem decimal_nat : ∀ (ds : List Char) (n : Nat), ds.all isDigit = true →
    ds.foldl (fun a c => a * 10 + digitVal c) (n : Int) = ((ds.foldl (fun n c => n * 10 + (c.toNat - 48)) n : Nat) : Int)
  | [], n, _ => rfl
  | c :: ds, n, h => by
    simp only [List.all_cons, Bool.and_eq_true] at h
    have hc := h.1
    simp only [isDigit, Bool.and_eq_true, decide_eq_true_eq] at hc
    simp only [List.foldl_cons]
    rw [← decimal_nat ds _ h.2]
    congr 1
    simp only [digitVal]
    omega

/-- Two decimal notations of a number are the same. -/
theorem digits_unique : ∀ (n : Nat) (a b : List Char), a.length = n → (∀ c ∈ a, '0' ≤ c ∧ c ≤ '9') → (∀ c ∈ b, '0' ≤ c ∧ c ≤ '9') → b.length = n →
    a.foldl (fun n c => n * 10 + (c.toNat - 48)) 0 = b.foldl (fun n c => n * 10 + (c.toNat - 48)) 0 → a = b
  | 0, a, b, ha, _, _, hb, _ => by
    rw [List.length_eq_zero_iff.mp ha, List.length_eq_zero_iff.mp hb]
  | n + 1, a, b, ha, h1, h2, hb, he => by
    have hane : a ≠ [] := by intro h; rw [h] at ha; simp at ha
    have hbne : b ≠ [] := by intro h; rw [h] at hb; simp at hb
    have ea := List.dropLast_concat_getLast hane
    have eb := List.dropLast_concat_getLast hbne
    rw [← ea, ← eb] at he
    simp only [List.foldl_append, List.foldl_cons, List.foldl_nil] at he
    have d : ∀ c : Char, '0' ≤ c ∧ c ≤ '9' → 48 ≤ c.toNat ∧ c.toNat ≤ 57 := by
      intro c hc
      rw [Char.le_def, Char.le_def, UInt32.le_iff_toNat_le, UInt32.le_iff_toNat_le] at hc
      exact hc
    have da := d _ (h1 _ (List.getLast_mem hane))
    have db := d _ (h2 _ (List.getLast_mem hbne))
    have hlast : a.getLast hane = b.getLast hbne := by
      apply Char.toNat_inj.mp
      omega
    have hinit := digits_unique n a.dropLast b.dropLast (by simp [ha]) (fun c hc => h1 c (List.dropLast_subset _ hc)) (fun c hc => h2 c (List.dropLast_subset _ hc)) (by simp [hb]) (by omega)
    rw [← ea, ← eb, hinit, hlast]

theorem digits_bounds : ∀ (ds : List Char) (n : Nat), (∀ c ∈ ds, '0' ≤ c ∧ c ≤ '9') →
    n * 10 ^ ds.length ≤ ds.foldl (fun n c => n * 10 + (c.toNat - 48)) n ∧ ds.foldl (fun n c => n * 10 + (c.toNat - 48)) n < (n + 1) * 10 ^ ds.length
  | [], n, _ => by simp
  | c :: ds, n, h => by
    have hc := h c List.mem_cons_self
    rw [Char.le_def, Char.le_def, UInt32.le_iff_toNat_le, UInt32.le_iff_toNat_le] at hc
    have hc' : 48 ≤ c.toNat ∧ c.toNat ≤ 57 := hc
    obtain ⟨h1, h2⟩ := digits_bounds ds (n * 10 + (c.toNat - 48)) (fun c hc => h c (List.mem_cons_of_mem _ hc))
    simp only [List.foldl_cons, List.length_cons, Nat.pow_succ]
    constructor
    · refine Nat.le_trans ?_ h1
      rw [Nat.mul_comm (10 ^ ds.length) 10, ← Nat.mul_assoc]
      exact Nat.mul_le_mul_right _ (by omega)
    · refine Nat.lt_of_lt_of_le h2 ?_
      rw [Nat.mul_comm (10 ^ ds.length) 10, ← Nat.mul_assoc]
      exact Nat.mul_le_mul_right _ (by omega)

theorem digits_length {a b : List Char} (h1 : ∀ c ∈ a, '0' ≤ c ∧ c ≤ '9') (h2 : ∀ c ∈ b, '0' ≤ c ∧ c ≤ '9') (ha : a ≠ []) (hb : b ≠ [])
    (hz : b.head? = some '0' → b = ['0'])
    (he : a.foldl (fun n c => n * 10 + (c.toNat - 48)) 0 = b.foldl (fun n c => n * 10 + (c.toNat - 48)) 0) : b.length ≤ a.length := by
  apply Decidable.byContradiction
  intro hlt
  have hal := List.length_pos_iff.mpr ha
  have hua := (digits_bounds a 0 h1).2
  cases b with
  | nil => exact hb rfl
  | cons c cs =>
    by_cases hc0 : c = '0'
    · have := hz (by rw [hc0]; rfl)
      rw [this] at hlt
      simp only [List.length_cons, List.length_nil] at hlt
      omega
    · have hc := h2 c List.mem_cons_self
      rw [Char.le_def, Char.le_def, UInt32.le_iff_toNat_le, UInt32.le_iff_toNat_le] at hc
      have hc' : 48 ≤ c.toNat ∧ c.toNat ≤ 57 := hc
      have hne : c.toNat ≠ 48 := by
        intro h
        exact hc0 (Char.toNat_inj.mp h)
      have hlb := (digits_bounds cs (0 * 10 + (c.toNat - 48)) (fun c hc => h2 c (List.mem_cons_of_mem _ hc))).1
      rw [he] at hua
      simp only [List.foldl_cons] at hua
      simp only [List.length_cons] at hlt
      rw [show (0 : Nat) + 1 = 1 from rfl, Nat.one_mul] at hua
      have h10 : 10 ^ a.length ≤ 10 ^ cs.length := Nat.pow_le_pow_right (by omega) (by omega)
      have h3 : 1 * 10 ^ cs.length ≤ (0 * 10 + (c.toNat - 48)) * 10 ^ cs.length := Nat.mul_le_mul_right _ (by omega)
      rw [Nat.one_mul] at h3
      exact absurd (Nat.lt_of_lt_of_le hua (Nat.le_trans h10 (Nat.le_trans h3 hlb))) (Nat.lt_irrefl _)

/-- C185.  The specification is unambiguous: a number has one decimal notation. -/
theorem decimal_unique {v : Int} {a b : List Char} (ha : Decimal v a) (hb : Decimal v b) : a = b := by
  obtain ⟨da, ea, na, ca, va, za⟩ := ha
  obtain ⟨db, eb, nb, cb, vb, zb⟩ := hb
  have he := va.trans vb.symm
  have l1 := digits_length ca cb na nb zb he
  have l2 := digits_length cb ca nb na za he.symm
  rw [ea, eb, digits_unique _ da db rfl ca cb (by omega) he]

theorem decimal_of_spec {v : Int} {ds : List Char} (hne : ds ≠ []) (hd : ds.all isDigit = true) (hv : decimal ds = v.natAbs) (hz : ds.head? = some '0' → ds = ['0']) :
    Decimal v (if v < 0 then '-' :: ds else ds) := by
  refine ⟨ds, rfl, hne, fun c hc => digit_char (List.all_eq_true.mp hd c hc), ?_, hz⟩
  have := decimal_nat ds 0 hd
  unfold decimal at hv
  simp only [Int.ofNat_zero] at this
  have h2 : ((ds.foldl (fun n c => n * 10 + (c.toNat - 48)) 0 : Nat) : Int) = (v.natAbs : Int) := by rw [← this, ← hv]
  exact_mod_cast h2

theorem insertInt_text {t : IntTy} {v : Int} {text : List Char} (h : toText t v = some text) {buf : Inplace.Vec Char} {s : List Char} (hr : Rep capacity buf s) :
    ∃ buf', insertInt buf t v = some buf' ∧ Rep capacity buf' (s ++ text) := by
  unfold toText at h
  unfold insertInt
  by_cases hv : v < 0
  · rw [if_pos hv] at h ⊢
    obtain ⟨ds, h1, h2⟩ := Option.map_eq_some_iff.mp h
    obtain ⟨b1, p1, r1⟩ := Inplace.rep_push hr '-'
    obtain ⟨b2, p2, r2⟩ := Inplace.pushAll_spec ds r1
    rw [p1, h1]
    exact ⟨b2, p2, by rw [← h2]; simpa using r2⟩
  · rw [if_neg hv] at h ⊢
    obtain ⟨b2, p2, r2⟩ := Inplace.pushAll_spec text hr
    rw [h]
    exact ⟨b2, p2, r2⟩

theorem insertChars_spec : ∀ (s rest : List Char) {buf : Inplace.Vec Char} {l : List Char}, (∀ c ∈ s, c.toNat ≠ 0) → Rep capacity buf l →
    ∃ buf', insertChars buf (s ++ Char.ofNat 0 :: rest) = some buf' ∧ Rep capacity buf' (l ++ s)
  | [], rest, buf, l, _, hr => ⟨buf, by simp [insertChars], by simpa using hr⟩
  | c :: s, rest, buf, l, h, hr => by
    obtain ⟨b1, p1, r1⟩ := Inplace.rep_push hr c
    obtain ⟨b2, p2, r2⟩ := insertChars_spec s rest (fun c hc => h c (List.mem_cons_of_mem _ hc)) r1
    refine ⟨b2, ?_, by simpa using r2⟩
    simp only [List.cons_append, insertChars]
    rw [if_neg (h c List.mem_cons_self), p1]
    exact p2

theorem int_text {t : IntTy} (hm : t ∈ [s8, u8, s16, u16, s32, u32, s64, u64]) {v : Int} {text : List Char} (h1 : t.lo ≤ v) (h2 : v ≤ t.hi) (hd : Decimal v text) :
    toText t v = some text := by
  obtain ⟨ho, hb⟩ := int_types_ok t hm
  obtain ⟨ds, a, b, c, d, e⟩ := toText_spec ho hb h1 h2
  rw [a, decimal_unique hd (decimal_of_spec b c d e)]

theorem insert_spec {null : List Char} {v : Val} {text : List Char} (h : Shows null v text) {buf : Inplace.Vec Char} {s : List Char} (hr : Rep capacity buf s) :
    ∃ buf', insert null buf v = some buf' ∧ Rep capacity buf' (s ++ text) := by
  cases h with
  | yes => exact Inplace.pushAll_spec _ hr
  | no => exact Inplace.pushAll_spec _ hr
  | chr c => exact Inplace.rep_push hr c
  | @signed t bits v text hm h1 h2 hd =>
    refine insertInt_text (int_text ?_ ?_ ?_ hd) hr <;>
      (simp only [intTypes, List.mem_cons, Prod.mk.injEq, List.not_mem_nil, or_false] at hm
       rcases hm with h|h|h|h|h|h|h|h <;> obtain ⟨e1, e2, e3⟩ := h <;> first | (cases e3; done) | (subst e1; subst e2; first | decide | (simp [s8, s16, s32, s64] at h1 h2 ⊢; omega)))
  | @unsigned t bits v text hm h1 h2 hd =>
    refine insertInt_text (int_text ?_ ?_ ?_ hd) hr <;>
      (simp only [intTypes, List.mem_cons, Prod.mk.injEq, List.not_mem_nil, or_false] at hm
       rcases hm with h|h|h|h|h|h|h|h <;> obtain ⟨e1, e2, e3⟩ := h <;> first | (cases e3; done) | (subst e1; subst e2; first | decide | (simp [u8, u16, u32, u64] at h1 h2 ⊢; omega)))
  | text => exact Inplace.pushAll_spec _ hr
  | cstr s rest hs => exact insertChars_spec _ rest hs hr
  | null hl => exact (by simp only [insert, insertPrinted]; rw [if_pos hl]; exact Inplace.pushAll_spec _ hr)
  | printed s hl => exact (by simp only [insert, insertPrinted]; rw [if_pos hl]; exact Inplace.pushAll_spec _ hr)

theorem run_append (null : List Char) : ∀ (a b : List Op) (buf : Inplace.Vec Char), run null buf (a ++ b) = (run null buf a).bind (fun buf' => run null buf' b)
  | [], b, buf => rfl
  | .insert v :: a, b, buf => by
    simp only [List.cons_append, run]
    cases insert null buf v with
    | none => rfl
    | some buf' => exact run_append null a b buf'
  | .clear :: a, b, buf => by
    simp only [List.cons_append, run]
    cases Inplace.clear buf with
    | none => rfl
    | some buf' => exact run_append null a b buf'

theorem run_spec {null : List Char} {ops : List Op} {s : List Char} (h : Written null ops s) : ∃ buf, run null init ops = some buf ∧ Rep capacity buf s := by
  induction h with
  | new => exact ⟨_, rfl, Inplace.rep_fresh capacity⟩
  | insert _ hv ih =>
    obtain ⟨b, h1, h2⟩ := ih
    obtain ⟨b', h3, h4⟩ := insert_spec hv h2
    exact ⟨b', by rw [run_append, h1]; simp only [Option.bind_some, run, h3], h4⟩
  | clear _ ih =>
    obtain ⟨b, h1, h2⟩ := ih
    refine ⟨_, by rw [run_append, h1]; simp only [Option.bind_some, run, Inplace.clear_spec h2], Inplace.rep_fresh capacity⟩

/-- C185.  After every history of inserting and clearing `str()` is the texts of the values inserted since the last clear, one after another, whatever
their number and lengths; `empty()` says whether that is nothing.  What `snprintf` writes for floating point numbers and pointers is shorter than the
32 characters of its buffer (`%.16Lg`, `%.16g`, `%.7g` and `%p` write at most 24), characters given as a pointer are terminated. -/
theorem text_written_partial {null : List Char} {ops : List Op} {s : List Char} (h : Written null ops s) :
    ∃ buf, run null init ops = some buf ∧ str buf = some (s.map some) ∧ (empty buf = true ↔ s = []) := by
  obtain ⟨b, h1, h2⟩ := run_spec h
  refine ⟨b, h1, Inplace.iterate_spec h2, ?_⟩
  unfold empty
  rw [h2.length, beq_iff_eq, List.length_eq_zero_iff]

/-- C185.  Every value of every integer type has a text, so every history of such values is covered. -/
theorem integers_shown {null : List Char} {t : IntTy} (hm : t ∈ [s8, u8, s16, u16, s32, u32, s64, u64]) {v : Int} (h1 : t.lo ≤ v) (h2 : v ≤ t.hi) :
    ∃ text, Decimal v text ∧ Shows null (.int t v) text := by
  obtain ⟨ho, hb⟩ := int_types_ok t hm
  obtain ⟨ds, a, b, c, d, e⟩ := toText_spec ho hb h1 h2
  refine ⟨_, decimal_of_spec b c d e, ?_⟩
  simp only [List.mem_cons, List.not_mem_nil, or_false] at hm
  rcases hm with h|h|h|h|h|h|h|h <;> subst h
  · exact .signed (bits := 8) (by decide) (by simpa [s8] using h1) (by simp [s8] at h2 ⊢; omega) (decimal_of_spec b c d e)
  · exact .unsigned (bits := 8) (by decide) (by simpa [u8] using h1) (by simp [u8] at h2 ⊢; omega) (decimal_of_spec b c d e)
  · exact .signed (bits := 16) (by decide) (by simpa [s16] using h1) (by simp [s16] at h2 ⊢; omega) (decimal_of_spec b c d e)
  · exact .unsigned (bits := 16) (by decide) (by simpa [u16] using h1) (by simp [u16] at h2 ⊢; omega) (decimal_of_spec b c d e)
  · exact .signed (bits := 32) (by decide) (by simpa [s32] using h1) (by simp [s32] at h2 ⊢; omega) (decimal_of_spec b c d e)
  · exact .unsigned (bits := 32) (by decide) (by simpa [u32] using h1) (by simp [u32] at h2 ⊢; omega) (decimal_of_spec b c d e)
  · exact .signed (bits := 64) (by decide) (by simpa [s64] using h1) (by simp [s64] at h2 ⊢; omega) (decimal_of_spec b c d e)
  · exact .unsigned (bits := 64) (by decide) (by simpa [u64] using h1) (by simp [u64] at h2 ⊢; omega) (decimal_of_spec b c d e)

/-- C185 does not hold for characters without a terminator: the memory is read past its end. -/
theorem unterminated_violated (null : List Char) (s : List Char) (h : ∀ c ∈ s, c.toNat ≠ 0) : run null init [.insert (.cstr (some s))] = none := by
  have : ∀ (s : List Char) (buf : Inplace.Vec Char), (∀ c ∈ s, c.toNat ≠ 0) → insertChars buf s = none := by
    intro s
    induction s with
    | nil => intro _ _; rfl
    | cons c s ih =>
      intro buf h
      simp only [insertChars]
      rw [if_neg (h c List.mem_cons_self)]
      cases Inplace.pushBack buf c with
      | none => rfl
      | some b => exact ih b (fun c hc => h c (List.mem_cons_of_mem _ hc))
  simp only [run, insert, this s init h]

/-- A history that meets the hypotheses, and what the model gives. -/
example : Written "(nil)".toList [.insert (.bool true), .insert (.chr ' '), .insert (.int s8 (-128)), .insert (.cstr none)] "true -128(nil)".toList :=
  .insert (s := "true -128".toList) (.insert (s := "true ".toList) (.insert (s := "true".toList) (.insert (s := []) .new .yes) (.chr ' '))
    (.signed (bits := 8) (by decide) (by decide) (by decide) ⟨"128".toList, by decide, by decide, by decide, by decide, by decide⟩)) (.null (by decide))

end Verif.Str.Stream
