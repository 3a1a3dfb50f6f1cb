import Verif.Text.Lemmas
/-
Properties C31, C32 and C52.
-/
namespace Verif.Text
open Spec

namespace Spec

/-- A cursor over a sequence of characters: what a UTF-8 range over the encoded text should do. The cursor position is an index. -/
def step (cs : List Nat) (k : Nat) : Op → Nat × Out
  | .get => (k, match cs[k]? with
    | some c => .value c
    | none => .throws .logic)
  | .next => if k < cs.length then (k + 1, .unit) else (k, .throws .logic)
  | .prev => if k = 0 then (k, .throws .logic) else (k - 1, .unit)
  | .first => (0, .unit)
  | .last => (cs.length - 1, .unit)
  | .valid => (k, .bool (decide (k < cs.length)))

def run (cs : List Nat) : Nat → List Op → List Out
  | _, [] => []
  | k, op :: ops => (step cs k op).2 :: run cs (step cs k op).1 ops

end Spec

theorem get_posOf {cs : List Nat} {k : Nat} (h : ∀ c ∈ cs, Scalar c) (hk : k < cs.length) : get (text cs) (posOf cs k) = .ok cs[k] := by
  obtain ⟨r, h1, h2⟩ := at_posOf h hk
  rw [get_drop, h1, get_shape h2]

theorem next_posOf {cs : List Nat} {k : Nat} (h : ∀ c ∈ cs, Scalar c) (hk : k < cs.length) : next (text cs) (posOf cs k) = (posOf cs (k + 1), none) := by
  obtain ⟨r, h1, h2⟩ := at_posOf h hk
  rw [next_drop, h1, next_shape h2, posOf_succ hk]

theorem prev_posOf {cs : List Nat} {k : Nat} (h : ∀ c ∈ cs, Scalar c) (hk : k < cs.length) : prev (text cs) (posOf cs (k + 1)) = (posOf cs k, none) := by
  obtain ⟨r, h1, h2⟩ := at_posOf h hk
  rw [posOf_succ hk]
  exact prev_shape h1 h2

theorem step_spec {cs : List Nat} {k : Nat} (h : ∀ c ∈ cs, Scalar c) (hk : k ≤ cs.length) (op : Op) :
    (step (text cs) (posOf cs k) op).2 = (Spec.step cs k op).2 ∧ (step (text cs) (posOf cs k) op).1 = posOf cs (Spec.step cs k op).1 ∧ (Spec.step cs k op).1 ≤ cs.length := by
  cases op with
  | get =>
    simp only [step, Spec.step]
    refine ⟨?_, by first | rfl | trivial, hk⟩
    by_cases hk' : k < cs.length
    · rw [get_posOf h hk', List.getElem?_eq_getElem hk']
    · have : k = cs.length := by omega
      subst this
      rw [get_drop, drop_posOf, List.drop_length, List.getElem?_eq_none (Nat.le_refl _)]; rfl
  | next =>
    simp only [step, Spec.step]
    by_cases hk' : k < cs.length
    · rw [next_posOf h hk', if_pos hk']; exact ⟨rfl, rfl, hk'⟩
    · have : k = cs.length := by omega
      subst this
      rw [next_drop, drop_posOf, List.drop_length, if_neg (by omega)]
      exact ⟨rfl, rfl, Nat.le_refl _⟩
  | prev =>
    simp only [step, Spec.step]
    by_cases h0 : k = 0
    · subst h0; rw [if_pos rfl]; exact ⟨rfl, rfl, Nat.zero_le _⟩
    · obtain ⟨j, rfl⟩ : ∃ j, k = j + 1 := ⟨k - 1, by omega⟩
      rw [prev_posOf h (by omega), if_neg h0]
      exact ⟨rfl, rfl, by simp; omega⟩
  | first => exact ⟨rfl, rfl, Nat.zero_le _⟩
  | last =>
    simp only [step, Spec.step, last]
    by_cases h0 : cs.length = 0
    · have : cs = [] := List.length_eq_zero_iff.mp h0
      subst this; exact ⟨rfl, rfl, Nat.le_refl _⟩
    · have hp : prev (text cs) (text cs).length = (posOf cs (cs.length - 1), none) := by
        have := prev_posOf h (k := cs.length - 1) (by omega)
        rwa [show cs.length - 1 + 1 = cs.length by omega, posOf_length] at this
      have hne : (text cs).length ≠ 0 := by
        have := posOf_lt (cs := cs) (k := 0) (by omega)
        omega
      rw [if_pos hne, hp]
      exact ⟨rfl, rfl, by simp⟩
  | valid =>
    simp only [step, Spec.step, Out.bool.injEq, decide_eq_decide]
    refine ⟨?_, by first | rfl | trivial, hk⟩
    constructor
    · intro hne
      by_cases hk' : k < cs.length
      · exact hk'
      · have : k = cs.length := by omega
        subst this
        exact absurd (posOf_length cs) hne
    · intro hk'
      have := posOf_lt hk'
      omega

/-- C31. For every sequence of scalar values and every program of Get, Next, Prev, First, Last and Valid: the UTF-8 range over the encoded text answers as a
cursor over the sequence (the characters in order, forward and backward steps moving by exactly one character, an exception exactly when leaving the text). -/
theorem utf8_range_refines {cs : List Nat} (h : ∀ c ∈ cs, Scalar c) (ops : List Op) : run (text cs) 0 ops = Spec.run cs 0 ops := by
  have key : ∀ (ops : List Op) (k : Nat), k ≤ cs.length → run (text cs) (posOf cs k) ops = Spec.run cs k ops := by
    intro ops
    induction ops with
    | nil => intro k _; rfl
    | cons op ops ih =>
      intro k hk
      obtain ⟨h1, h2, h3⟩ := step_spec h hk op
      simp only [run, Spec.run]
      rw [h1, h2, ih _ h3]
  exact key ops 0 (Nat.zero_le _)

/-- C31. In every byte string, well-formed or not: a step forward and a step backward are inverse to each other whenever they succeed. -/
theorem utf8_steps_inverse {s : List Nat} (hB : Bytes s) {p q : Nat} (hq : q ≤ s.length) : next s p = (q, none) ↔ prev s q = (p, none) := by
  constructor
  · intro h
    obtain ⟨l, r, v, h1, h2, rfl⟩ := (next_ok_iff hB p q).mp h
    exact prev_shape h1 h2
  · intro h
    obtain ⟨l, r, v, h1, h2, rfl⟩ := shape_of_prev hB hq h
    exact (next_ok_iff hB p _).mpr ⟨l, r, v, h1, h2, rfl⟩

/-- C31. Exactly the sequences consisting of a lead byte and the right number of continuation bytes are accepted by Get, and Next accepts exactly what Get
accepts. Every other sequence (stray continuation byte, C0, C1, F5–FF, missing continuation bytes) is rejected with an exception. -/
theorem utf8_get_exact {s : List Nat} (hB : Bytes s) (p : Nat) :
    (∀ v, get s p = .ok v ↔ ∃ l r, s.drop p = l ++ r ∧ Shape l v) ∧ ((next s p).2 = none ↔ ∃ v, get s p = .ok v) ∧
    (∀ q, next s p = (q, none) → p < q ∧ q ≤ p + 4 ∧ q ≤ s.length) := by
  refine ⟨fun v => get_ok_iff hB p v, ?_, ?_⟩
  · constructor
    · intro h
      obtain ⟨l, r, v, h1, h2, -⟩ := (next_ok_iff hB p (next s p).1).mp (Prod.ext rfl h)
      exact ⟨v, (get_ok_iff hB p v).mpr ⟨l, r, h1, h2⟩⟩
    · rintro ⟨v, h⟩
      obtain ⟨l, r, h1, h2⟩ := (get_ok_iff hB p v).mp h
      rw [(next_ok_iff hB p (p + l.length)).mpr ⟨l, r, v, h1, h2, rfl⟩]
  · intro q h
    obtain ⟨l, r, v, h1, h2, rfl⟩ := (next_ok_iff hB p q).mp h
    have := h2.length_pos
    have hl := congrArg List.length h1
    rw [List.length_drop, List.length_append] at hl
    omega

/-- C31. A stray continuation byte or an impossible lead byte is rejected. -/
theorem utf8_bad_lead {s : List Nat} {p c : Nat} (hc : s[p]? = some c) (hb : (0x80 ≤ c ∧ c < 0xC2) ∨ (0xF5 ≤ c ∧ c < 256)) :
    get s p = .error .malformed ∧ (next s p).2 = some .malformed := by
  have hbad : badLead c = true := by rw [badLead_eq (by omega), decide_eq_true_eq]; omega
  unfold get next
  simp only [hc]
  have h7 : ¬ c ≤ 0x7f := by omega
  simp only [if_neg h7, if_pos hbad]
  exact ⟨trivial, trivial⟩

/-! ### Validation -/

/-- The pieces of a string. -/
def Pieces (s : List Nat) : Prop := ∃ ls : List (List Nat), s = ls.flatten ∧ ∀ l ∈ ls, ∃ v, Shape l v

theorem shape_unique {l l' r r' : List Nat} {v v' : Nat} (h : Shape l v) (h' : Shape l' v') (e : l ++ r = l' ++ r') : l = l' ∧ r = r' ∧ v = v' := by
  have h1 := next_shape h (r := r)
  have h2 := next_shape h' (r := r')
  have h3 := get_shape h (r := r)
  have h4 := get_shape h' (r := r')
  rw [e] at h1 h3
  rw [h1] at h2
  rw [h3] at h4
  have hl : l.length = l'.length := (Prod.ext_iff.mp h2).1
  obtain ⟨a, b⟩ := List.append_inj e hl
  exact ⟨a, b, by cases h4; rfl⟩

theorem count_spec {s : List Nat} (hB : Bytes s) : ∀ (n p res : Nat), p ≤ s.length → s.length < p + n →
    ((∃ ls : List (List Nat), s.drop p = ls.flatten ∧ (∀ l ∈ ls, ∃ v, Shape l v) ∧ count s n p res = some (.ok (res + ls.length))) ∨
      (∃ e, count s n p res = some (.error e)) ∧ ¬ Pieces (s.drop p)) := by
  intro n
  induction n with
  | zero => intro p res h1 h2; omega
  | succ n ih =>
    intro p res h1 h2
    unfold count
    by_cases hp : p = s.length
    · left
      rw [if_pos hp]
      exact ⟨[], by rw [hp, List.drop_length]; rfl, by simp, rfl⟩
    · rw [if_neg hp]
      cases hn : (next s p).2 with
      | some e =>
        simp only []
        right
        refine ⟨⟨e, rfl⟩, ?_⟩
        rintro ⟨ls, h3, h4⟩
        have hne : s.drop p ≠ [] := by
          intro h0
          have := congrArg List.length h0
          rw [List.length_drop] at this
          simp at this; omega
        rcases ls with _ | ⟨l, ls⟩
        · exact hne h3
        · obtain ⟨v, hv⟩ := h4 l (by simp)
          rw [next_drop, h3, List.flatten_cons, next_shape hv] at hn
          simp at hn
      | none =>
        simp only []
        obtain ⟨l, r, v, h3, h4, h5⟩ := (next_ok_iff hB p (next s p).1).mp (Prod.ext rfl hn)
        have hr : s.drop (next s p).1 = r := by
          rw [h5, ← List.drop_drop, h3]; exact List.drop_left
        have hl := congrArg List.length h3
        rw [List.length_drop, List.length_append] at hl
        have := h4.length_pos
        rcases ih (next s p).1 (res + 1) (by omega) (by omega) with ⟨ls, g1, g2, g3⟩ | ⟨g1, g2⟩
        · left
          refine ⟨l :: ls, ?_, ?_, ?_⟩
          · rw [h3, List.flatten_cons, ← g1, hr]
          · intro m hm
            rcases List.mem_cons.mp hm with rfl | hm
            · exact ⟨v, h4⟩
            · exact g2 m hm
          · rw [g3, List.length_cons]; congr 2; omega
        · right
          refine ⟨g1, ?_⟩
          rintro ⟨ls, g3, g4⟩
          rcases ls with _ | ⟨l', ls⟩
          · rw [h3] at g3
            have h0 := congrArg List.length g3
            rw [List.length_append] at h0
            simp only [List.flatten_nil, List.length_nil] at h0
            omega
          · obtain ⟨v', hv'⟩ := g4 l' (by simp)
            rw [h3, List.flatten_cons] at g3
            obtain ⟨-, e2, -⟩ := shape_unique h4 hv' g3
            exact g2 ⟨ls, by rw [hr, e2], fun m hm => g4 m (by simp [hm])⟩

/-- C32. Utf8Validate always answers; it accepts exactly the concatenations of sequences of a lead byte with the right number of continuation bytes. -/
theorem utf8_validate_exact {s : List Nat} (hB : Bytes s) : (utf8Validate s = some true ↔ Pieces s) ∧ (utf8Validate s = some false ↔ ¬ Pieces s) := by
  rcases count_spec hB (s.length + 1) 0 0 (Nat.zero_le _) (by omega) with ⟨ls, h1, h2, h3⟩ | ⟨⟨e, h1⟩, h2⟩
  · have hp : Pieces s := ⟨ls, h1, h2⟩
    have : utf8Validate s = some true := by unfold utf8Validate utf8Strlen; rw [h3]; rfl
    rw [this]
    simp [hp]
  · rw [List.drop_zero] at h2
    have : utf8Validate s = some false := by unfold utf8Validate utf8Strlen; rw [h1]; rfl
    rw [this]
    simp [h2]

theorem text_flatten (cs : List Nat) : text cs = (cs.map encode).flatten := by simp [text, List.flatMap]

/-- C32, one direction in full: every well-formed text is accepted, and Utf8Strlen returns the number of its characters. -/
theorem utf8_validate_complete {cs : List Nat} (h : ∀ c ∈ cs, Scalar c) : utf8Validate (text cs) = some true ∧ utf8Strlen (text cs) = some (.ok cs.length) := by
  have hB := text_bytes h
  have key : ∀ (ls : List (List Nat)) (cs : List Nat), (∀ c ∈ cs, Scalar c) → (∀ l ∈ ls, ∃ v, Shape l v) → ls.flatten = text cs → ls.length = cs.length := by
    intro ls
    induction ls with
    | nil =>
      intro cs _ _ he
      rcases cs with _ | ⟨c, cs⟩
      · rfl
      · rw [text_cons] at he
        exact absurd (List.append_eq_nil_iff.mp he.symm).1 (encode_ne_nil c)
    | cons l ls ih =>
      intro cs hcs hls he
      obtain ⟨v, hv⟩ := hls l (by simp)
      rcases cs with _ | ⟨c, cs⟩
      · simp only [text, List.flatMap_nil, List.flatten_cons, List.append_eq_nil_iff] at he
        rw [he.1] at hv; cases hv
      · rw [text_cons, List.flatten_cons] at he
        obtain ⟨-, e2, -⟩ := shape_unique hv (encode_shape (hcs c (by simp)).lt) he
        simp only [List.length_cons]
        rw [ih cs (fun d hd => hcs d (by simp [hd])) (fun m hm => hls m (by simp [hm])) e2]
  have hp : Pieces (text cs) := by
    refine ⟨cs.map encode, text_flatten cs, ?_⟩
    intro l hl
    obtain ⟨c, hc, rfl⟩ := List.mem_map.mp hl
    exact ⟨c, encode_shape (h c hc).lt⟩
  refine ⟨(utf8_validate_exact hB).1.mpr hp, ?_⟩
  rcases count_spec hB ((text cs).length + 1) 0 0 (Nat.zero_le _) (by omega) with ⟨ls, h1, h2, h3⟩ | ⟨-, h2⟩
  · unfold utf8Strlen
    rw [h3, Nat.zero_add, key ls cs h h2 h1.symm]
  · exact absurd hp h2

/-- C32, the other direction as far as it holds: an accepted string is well-formed, or it contains an overlong form, an encoded surrogate or a value above
U+10FFFF. Missing from the full claim: those are accepted (`utf8_validate_violated`). -/
theorem utf8_validate_partial {s : List Nat} (hB : Bytes s) (h : utf8Validate s = some true) :
    WellFormed s ∨ ∃ a l b v, s = a ++ l ++ b ∧ Shape l v ∧ Lenient l := by
  obtain ⟨ls, rfl, h2⟩ := (utf8_validate_exact hB).1.mp h
  clear hB h
  induction ls with
  | nil => left; exact ⟨[], by simp, rfl⟩
  | cons l ls ih =>
    obtain ⟨v, hv⟩ := h2 l (by simp)
    by_cases hl : Lenient l
    · right; exact ⟨[], l, ls.flatten, v, by simp, hv, hl⟩
    · obtain ⟨hs, he⟩ := shape_encode hv hl
      rcases ih (fun m hm => h2 m (by simp [hm])) with ⟨cs, g1, g2⟩ | ⟨a, l', b, v', g1, g2, g3⟩
      · left
        refine ⟨v :: cs, ?_, ?_⟩
        · intro c hc
          rcases List.mem_cons.mp hc with rfl | hc
          · exact hs
          · exact g1 c hc
        · rw [List.flatten_cons, text_cons, ← he, g2]
      · right
        exact ⟨l ++ a, l', b, v', by rw [List.flatten_cons, g1]; simp, g2, g3⟩

theorem wellFormed_head {l r : List Nat} {v : Nat} (h : WellFormed (l ++ r)) (hv : Shape l v) : Scalar v ∧ l = encode v := by
  obtain ⟨cs, h1, h2⟩ := h
  rcases cs with _ | ⟨c, cs⟩
  · simp only [text, List.flatMap_nil, List.append_eq_nil_iff] at h2
    rw [h2.1] at hv; cases hv
  · rw [text_cons] at h2
    have hc := h1 c (by simp)
    obtain ⟨e1, -, e3⟩ := shape_unique hv (encode_shape hc.lt) h2
    rw [e3]
    exact ⟨hc, e1.trans (by rfl)⟩

/-- C32 refuted: an overlong three-byte form, an overlong four-byte form, an encoded surrogate and a value above U+10FFFF are accepted although they are not
well-formed. -/
theorem utf8_validate_violated :
    (utf8Validate [0xE0, 0x80, 0x80] = some true ∧ ¬ WellFormed [0xE0, 0x80, 0x80]) ∧
    (utf8Validate [0xF0, 0x80, 0x80, 0x80] = some true ∧ ¬ WellFormed [0xF0, 0x80, 0x80, 0x80]) ∧
    (utf8Validate [0xED, 0xA0, 0x80] = some true ∧ ¬ WellFormed [0xED, 0xA0, 0x80]) ∧
    (utf8Validate [0xF4, 0x90, 0x80, 0x80] = some true ∧ ¬ WellFormed [0xF4, 0x90, 0x80, 0x80]) := by
  refine ⟨⟨rfl, ?_⟩, ⟨rfl, ?_⟩, ⟨rfl, ?_⟩, ⟨rfl, ?_⟩⟩
  · intro h
    have := wellFormed_head (l := [0xE0, 0x80, 0x80]) (r := []) h (.three (by decide) (by decide) (by decide) (by decide) (by decide) (by decide))
    exact absurd this.2 (by decide)
  · intro h
    have := wellFormed_head (l := [0xF0, 0x80, 0x80, 0x80]) (r := []) h (.four (by decide) (by decide) (by decide) (by decide) (by decide) (by decide) (by decide) (by decide))
    exact absurd this.2 (by decide)
  · intro h
    have := wellFormed_head (l := [0xED, 0xA0, 0x80]) (r := []) h (.three (by decide) (by decide) (by decide) (by decide) (by decide) (by decide))
    have h1 := this.1
    unfold Scalar at h1; omega
  · intro h
    have := wellFormed_head (l := [0xF4, 0x90, 0x80, 0x80]) (r := []) h (.four (by decide) (by decide) (by decide) (by decide) (by decide) (by decide) (by decide) (by decide))
    have h1 := this.1
    unfold Scalar at h1; omega

/-! ### Substrings -/

theorem posOf_mono {cs : List Nat} : ∀ {j k : Nat}, j ≤ k → k ≤ cs.length → posOf cs j ≤ posOf cs k := by
  intro j k
  induction k with
  | zero => intro h _; have : j = 0 := by omega
            subst this; exact Nat.le_refl _
  | succ k ih =>
    intro h hk
    by_cases e : j = k + 1
    · subst e; exact Nat.le_refl _
    · have := ih (by omega) (by omega)
      rw [posOf_succ (by omega)]; omega

theorem posOf_ge {cs : List Nat} : ∀ {k : Nat}, k ≤ cs.length → k ≤ posOf cs k := by
  intro k
  induction k with
  | zero => intro _; exact Nat.zero_le _
  | succ k ih =>
    intro h
    have := ih (by omega)
    have h1 := List.length_pos_iff.mpr (encode_ne_nil cs[k])
    rw [posOf_succ (by omega)]; omega

theorem slice_text {cs : List Nat} {j k : Nat} (hjk : j ≤ k) :
    ((text cs).drop (posOf cs j)).take (posOf cs k - posOf cs j) = text ((cs.drop j).take (k - j)) := by
  rw [drop_posOf]
  have e : text (cs.drop j) = text ((cs.drop j).take (k - j)) ++ text ((cs.drop j).drop (k - j)) := by rw [← text_append, List.take_append_drop]
  have hl : (text ((cs.drop j).take (k - j))).length = posOf cs k - posOf cs j := by
    have : cs.take k = cs.take j ++ (cs.drop j).take (k - j) := by
      rw [← List.take_add, show j + (k - j) = k by omega]
    unfold posOf
    rw [this, text_append, List.length_append]; omega
  rw [e, ← hl]
  exact List.take_left

theorem skip_spec (by_ : Bool) {cs : List Nat} (h : ∀ c ∈ cs, Scalar c) (pos : Nat) : ∀ (n k : Nat), k ≤ cs.length → pos < n + k →
    (k = 0 ∨ (if by_ then k - 1 else posOf cs (k - 1)) < pos) →
    (∃ j, k ≤ j ∧ j ≤ cs.length ∧ pos ≤ (if by_ then j else posOf cs j) ∧ (j = 0 ∨ (if by_ then j - 1 else posOf cs (j - 1)) < pos) ∧
      skipLoop by_ (text cs) pos n k (posOf cs k) = some (.ok (posOf cs j))) ∨
    ((if by_ then cs.length else posOf cs cs.length) < pos ∧ skipLoop by_ (text cs) pos n k (posOf cs k) = some (.error .logic)) := by
  intro n
  induction n with
  | zero =>
    intro k hk hn hprev
    exfalso
    have h1 : k - 1 ≤ posOf cs (k - 1) := posOf_ge (by omega)
    rcases hprev with h0 | h0
    · omega
    · revert h0; split <;> intro h0 <;> omega
  | succ n ih =>
    intro k hk hn hprev
    unfold skipLoop
    by_cases hlt : (if by_ then k else posOf cs k) < pos
    · rw [if_pos hlt]
      by_cases hk' : k < cs.length
      · rw [next_posOf h hk']
        simp only []
        rcases ih (k + 1) hk' (by omega) (Or.inr hlt) with ⟨j, g1, g2, g3, g4, g5⟩ | ⟨g1, g2⟩
        · left; exact ⟨j, by omega, g2, g3, g4, g5⟩
        · right; exact ⟨g1, g2⟩
      · have : k = cs.length := by omega
        subst this
        right
        refine ⟨hlt, ?_⟩
        rw [next_drop, drop_posOf, List.drop_length]; rfl
    · rw [if_neg hlt]
      left
      exact ⟨k, Nat.le_refl _, hk, by omega, hprev, rfl⟩

theorem take_spec (by_ : Bool) {cs : List Nat} (h : ∀ c ∈ cs, Scalar c) (cnt j : Nat) : ∀ (n i : Nat), j + i ≤ cs.length → cs.length < n + (j + i) →
    (if by_ then i else posOf cs (j + i) - posOf cs j) ≤ cnt →
    ∃ k, j + i ≤ k ∧ k ≤ cs.length ∧ (if by_ then k - j else posOf cs k - posOf cs j) ≤ cnt ∧
      (k = cs.length ∨ cnt < (if by_ then k + 1 - j else posOf cs (k + 1) - posOf cs j)) ∧
      takeLoop by_ (text cs) (posOf cs j) cnt n i (posOf cs (j + i)) (posOf cs (j + i)) = some (.ok (posOf cs k)) := by
  intro n
  induction n with
  | zero => intro i h1 h2; omega
  | succ n ih =>
    intro i h1 h2 h3
    unfold takeLoop
    by_cases hk : j + i < cs.length
    · rw [if_pos (by have := posOf_lt hk; omega), next_posOf h hk]
      simp only []
      by_cases hgt : (if by_ then i + 1 else posOf cs (j + i + 1) - posOf cs j) > cnt
      · rw [if_pos hgt]
        refine ⟨j + i, Nat.le_refl _, h1, ?_, Or.inr ?_, rfl⟩
        · rwa [show j + i - j = i by omega]
        · rwa [show j + i + 1 - j = i + 1 by omega]
      · rw [if_neg hgt]
        obtain ⟨k, g1, g2, g3, g4, g5⟩ := ih (i + 1) (by omega) (by omega) (by simpa [Nat.add_assoc] using hgt)
        exact ⟨k, by omega, g2, g3, g4, g5⟩
    · have e : j + i = cs.length := by omega
      rw [if_neg (by rw [e, posOf_length]; simp)]
      refine ⟨j + i, Nat.le_refl _, h1, ?_, Or.inl e, rfl⟩
      rwa [show j + i - j = i by omega]

/-- C52, by characters: for every text, position and count the substring is the encoding of those characters; a position beyond the end throws. -/
theorem utf8_substring_symbols {cs : List Nat} (h : ∀ c ∈ cs, Scalar c) (pos : Nat) (cnt : Option Nat) :
    utf8Substring true (text cs) pos cnt = some (if pos ≤ cs.length then .ok (text (match cnt with
      | none => cs.drop pos
      | some n => (cs.drop pos).take n)) else .error .logic) := by
  unfold utf8Substring
  rcases skip_spec true h pos (pos + 1) 0 (Nat.zero_le _) (by omega) (Or.inl rfl) with ⟨j, g1, g2, g3, g4, g5⟩ | ⟨g1, g2⟩
  · rw [posOf_zero] at g5
    rw [g5]
    have hj : j = pos := by
      simp only [if_true] at g3 g4
      omega
    subst hj
    rw [if_pos g2]
    cases cnt with
    | none => simp only []; rw [drop_posOf]
    | some n =>
      simp only []
      obtain ⟨k, f1, f2, f3, f4, f5⟩ := take_spec true h n j ((text cs).length + 1) 0 (by omega) (by have := posOf_ge (cs := cs) (Nat.le_refl _); rw [posOf_length] at this; omega) (by simp)
      simp only [Nat.add_zero] at f5 f1
      rw [f5]
      simp only []
      rw [slice_text f1]
      congr 3
      simp only [if_true] at f3 f4
      rcases f4 with f4 | f4
      · rw [List.take_of_length_le (by rw [List.length_drop]; omega), List.take_of_length_le (by rw [List.length_drop]; omega)]
      · rw [show k - j = n by omega]
  · rw [posOf_zero] at g2
    rw [g2, if_neg (by simpa using g1)]

/-- C52, by bytes: the result consists of whole characters; it starts at the first character boundary at or after byte `pos` and is the longest run of whole
characters of at most `cnt` bytes. A position beyond the end throws. -/
theorem utf8_substring_bytes {cs : List Nat} (h : ∀ c ∈ cs, Scalar c) (pos cnt : Nat) :
    (pos ≤ (text cs).length ∧ ∃ a m b, cs = a ++ m ++ b ∧ utf8Substring false (text cs) pos (some cnt) = some (.ok (text m)) ∧
      utf8Substring false (text cs) pos none = some (.ok (text (m ++ b))) ∧
      pos ≤ (text a).length ∧ (∀ a' c, a = a' ++ [c] → (text a').length < pos) ∧
      (text m).length ≤ cnt ∧ (∀ c b', b = c :: b' → cnt < (text (m ++ [c])).length)) ∨
    ((text cs).length < pos ∧ utf8Substring false (text cs) pos (some cnt) = some (.error .logic) ∧ utf8Substring false (text cs) pos none = some (.error .logic)) := by
  unfold utf8Substring
  rcases skip_spec false h pos (pos + 1) 0 (Nat.zero_le _) (by omega) (Or.inl rfl) with ⟨j, g1, g2, g3, g4, g5⟩ | ⟨g1, g2⟩
  · left
    rw [posOf_zero] at g5
    rw [g5]
    simp only []
    simp only [Bool.false_eq_true, if_false] at g3 g4
    obtain ⟨k, f1, f2, f3, f4, f5⟩ := take_spec false h cnt j ((text cs).length + 1) 0 (by omega) (by have := posOf_ge (cs := cs) (Nat.le_refl _); rw [posOf_length] at this; omega) (by simp)
    simp only [Nat.add_zero] at f5 f1
    simp only [Bool.false_eq_true, if_false] at f3 f4
    rw [f5]
    simp only []
    have hle : posOf cs j ≤ (text cs).length := by rw [← posOf_length]; exact posOf_mono g2 (Nat.le_refl _)
    have hsplit : cs.drop j = (cs.drop j).take (k - j) ++ cs.drop k := by
      have := (List.take_append_drop (k - j) (cs.drop j)).symm
      rwa [List.drop_drop, show j + (k - j) = k by omega] at this
    refine ⟨by omega, cs.take j, (cs.drop j).take (k - j), cs.drop k, ?_, ?_, ?_, g3, ?_, ?_, ?_⟩
    · rw [List.append_assoc, ← hsplit, List.take_append_drop]
    · rw [slice_text f1]
    · rw [← hsplit, drop_posOf]
    · intro a' c ha
      rcases g4 with g4 | g4
      · subst g4; simp at ha
      · have : a' = cs.take (j - 1) := by
          have hl := congrArg List.length ha
          rw [List.length_take, List.length_append, List.length_singleton, Nat.min_eq_left g2] at hl
          have := congrArg (List.take (j - 1)) ha
          rw [List.take_take, Nat.min_eq_left (by omega), List.take_append_of_le_length (by omega), List.take_of_length_le (l := a') (by omega)] at this
          exact this.symm
        rw [this]; exact g4
    · have hl := congrArg List.length (slice_text (cs := cs) f1)
      rw [← hl, List.length_take]
      omega
    · intro c b' hb
      rcases f4 with f4 | f4
      · rw [f4, List.drop_length] at hb; cases hb
      · have hk : k < cs.length := by
          have := congrArg List.length hb
          rw [List.length_drop, List.length_cons] at this; omega
        have hc : cs[k] = c := by
          rw [List.drop_eq_getElem_cons hk] at hb
          exact (List.cons.inj hb).1
        have e : (cs.drop j).take (k - j) ++ [c] = (cs.drop j).take (k + 1 - j) := by
          rw [show k + 1 - j = (k - j) + 1 by omega, List.take_succ_eq_append_getElem (by rw [List.length_drop]; omega), List.getElem_drop]
          congr 2
          rw [← hc]; congr 1; omega
        rw [e]
        have hl := congrArg List.length (slice_text (cs := cs) (j := j) (k := k + 1) (by omega))
        rw [← hl, List.length_take, List.length_drop]
        have := posOf_mono (cs := cs) (j := k + 1) (k := cs.length) (by omega) (Nat.le_refl _)
        rw [posOf_length] at this
        omega
  · right
    rw [posOf_zero] at g2
    rw [g2]
    simp only [Bool.false_eq_true, if_false] at g1
    rw [posOf_length] at g1
    exact ⟨g1, rfl, rfl⟩

/-! Non-vacuity: "aж€😀". -/
example : (∀ c ∈ [0x61, 0x436, 0x20AC, 0x1F600], Scalar c) ∧ text [0x61, 0x436, 0x20AC, 0x1F600] = [0x61, 0xD0, 0xB6, 0xE2, 0x82, 0xAC, 0xF0, 0x9F, 0x98, 0x80] ∧
    run (text [0x61, 0x436, 0x20AC, 0x1F600]) 0 [.next, .next, .get, .next, .next, .valid, .next, .prev, .prev, .prev, .get, .last, .get] =
      [.unit, .unit, .value 0x20AC, .unit, .unit, .bool false, .throws .logic, .unit, .unit, .unit, .value 0x436, .unit, .value 0x1F600] := by
  refine ⟨?_, rfl, by decide +kernel⟩
  intro c hc
  simp only [List.mem_cons, List.not_mem_nil, or_false] at hc
  unfold Scalar
  omega

example : utf8Validate [0x61, 0xD0] = some false ∧ utf8Substring true (text [0x61, 0x436, 0x20AC, 0x1F600]) 1 (some 2) = some (.ok (text [0x436, 0x20AC])) ∧
    utf8Substring false (text [0x61, 0x436, 0x20AC, 0x1F600]) 2 (some 6) = some (.ok (text [0x20AC])) := by refine ⟨?_, ?_, ?_⟩ <;> rfl

end Verif.Text
