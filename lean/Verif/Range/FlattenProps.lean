import Verif.Range.BasicProps
/-
`Flatten` and `Concat`.
-/
namespace Verif.Range

variable {σ τ α β γ : Type}

/-- The elements of part `k`. -/
def part (ms : List (List α)) (k : Nat) : List α := ms[k]?.getD []

/-- How many elements are before part `k`. -/
def off (ms : List (List α)) (k : Nat) : Nat := (ms.take k).flatten.length

theorem off_zero (ms : List (List α)) : off ms 0 = 0 := rfl

theorem off_succ (ms : List (List α)) (k : Nat) : off ms (k + 1) = off ms k + (part ms k).length := by
  unfold off part
  rw [List.take_succ, List.flatten_append, List.length_append]
  cases ms[k]? <;> simp

theorem off_mono (ms : List (List α)) {i j : Nat} (h : i ≤ j) : off ms i ≤ off ms j := by
  induction j with
  | zero => rw [show i = 0 by omega]; exact Nat.le_refl _
  | succ j ih =>
    by_cases e : i = j + 1
    · rw [e]; exact Nat.le_refl _
    · rw [off_succ]; have := ih (by omega); omega

theorem off_full (ms : List (List α)) {k : Nat} (h : ms.length ≤ k) : off ms k = ms.flatten.length := by
  unfold off; rw [List.take_of_length_le h]

theorem off_le (ms : List (List α)) (k : Nat) : off ms k ≤ ms.flatten.length := by
  rw [← off_full ms (Nat.le_refl _)]
  by_cases h : k ≤ ms.length
  · exact off_mono ms h
  · rw [off_full ms (k := k) (by omega), off_full ms (Nat.le_refl _)]; exact Nat.le_refl _

theorem off_lt (ms : List (List α)) {k j : Nat} (h : j < (part ms k).length) : off ms k + j < ms.flatten.length := by
  have := off_le ms (k + 1)
  rw [off_succ] at this
  omega

theorem off_inj (ms : List (List α)) {k j k' j' : Nat} (h : j < (part ms k).length) (h' : j' < (part ms k').length) (e : off ms k + j = off ms k' + j') : k = k' := by
  rcases Nat.lt_trichotomy k k' with c | c | c
  · have := off_mono ms (show k + 1 ≤ k' by omega); rw [off_succ] at this; omega
  · exact c
  · have := off_mono ms (show k' + 1 ≤ k by omega); rw [off_succ] at this; omega

theorem off_get (ms : List (List α)) {k j : Nat} (h : j < (part ms k).length) : ms.flatten[off ms k + j]? = some (part ms k)[j] := by
  induction ms generalizing k with
  | nil => simp [part] at h
  | cons m ms ih =>
    cases k with
    | zero =>
      have h' : j < m.length := by simpa [part] using h
      simp only [off_zero, Nat.zero_add, List.flatten_cons]
      rw [List.getElem?_append_left h', List.getElem?_eq_getElem h']
      rfl
    | succ k =>
      have e : off (m :: ms) (k + 1) = m.length + off ms k := by simp [off]
      rw [e, List.flatten_cons, Nat.add_assoc, List.getElem?_append_right (by omega), Nat.add_sub_cancel_left]
      exact ih (k := k) h

theorem off_part (ms : List (List α)) {i : Nat} (h : i < ms.flatten.length) : ∃ k j, k < ms.length ∧ j < (part ms k).length ∧ i = off ms k + j := by
  induction ms generalizing i with
  | nil => simp at h
  | cons m ms ih =>
    by_cases c : i < m.length
    · exact ⟨0, i, by simp, c, by rw [off_zero]; omega⟩
    · rw [List.flatten_cons, List.length_append] at h
      obtain ⟨k, j, h1, h2, h3⟩ := ih (i := i - m.length) (by omega)
      refine ⟨k + 1, j, by rw [List.length_cons]; omega, h2, ?_⟩
      have e : off (m :: ms) (k + 1) = m.length + off ms k := by simp [off]
      omega

/-- The ranges `ts` are at their first elements, and `ms` are their elements. -/
structure Parts (Q : Rng τ α) (rep : Nat → τ → Nat → Prop) (ts : List τ) (ms : List (List α)) : Prop where
  length : ms.length = ts.length
  start : ∀ {k : Nat} (h : k < ts.length), rep k ts[k] 0
  fwd : ∀ {k}, k < ts.length → Fwd Q (rep k) (part ms k)

/-! ### Flatten -/

def flattenRep (rep : σ → Nat → Prop) (rep' : Nat → τ → Nat → Prop) (ts : List τ) (ms : List (List α)) (s : σ × Option τ) (i : Nat) : Prop :=
  (s.2 = none ∧ rep s.1 ts.length ∧ i = ms.flatten.length) ∨
  ∃ k j t, s.2 = some t ∧ k < ts.length ∧ rep s.1 k ∧ rep' k t j ∧ j < (part ms k).length ∧ i = off ms k + j

section
variable {R : Rng σ τ} {rep : σ → Nat → Prop} {ts : List τ} {Q : Rng τ α} {rep' : Nat → τ → Nat → Prop} {ms : List (List α)}

theorem flatNext_spec (L : Fwd R rep ts) (P : Parts Q rep' ts ms) (n : Nat) {s : σ} {k : Nat} (h : rep s k) (hn : ts.length - k < n) :
    ∃ t, flatNext R Q n s = some t ∧ flattenRep rep rep' ts ms t (off ms k) := by
  induction n generalizing s k with
  | zero => omega
  | succ n ih =>
    simp only [flatNext, L.valid h]
    by_cases c : k < ts.length
    · obtain ⟨t, h1, h2⟩ := L.get h c
      simp only [c, decide_true, if_true, h1, (P.fwd c).valid (P.start c)]
      by_cases e : 0 < (part ms k).length
      · simp only [e, decide_true, if_true]
        exact ⟨_, rfl, .inr ⟨k, 0, ts[k], rfl, c, h2, P.start c, e, rfl⟩⟩
      · simp only [e, decide_false, Bool.false_eq_true, if_false]
        obtain ⟨u, h3, h4⟩ := L.next h2 c
        obtain ⟨v, h5, h6⟩ := ih h4 (by omega)
        refine ⟨v, by simp only [h3, Option.bind_some]; exact h5, ?_⟩
        rw [off_succ, show (part ms k).length = 0 by omega] at h6
        exact h6
    · simp only [c, decide_false, Bool.false_eq_true, if_false]
      have := L.le h
      have e : k = ts.length := by omega
      exact ⟨_, rfl, .inl ⟨rfl, by rw [← e]; exact h, by rw [e, ← P.length, off_full ms (Nat.le_refl _)]⟩⟩

theorem flatten_new (L : Fwd R rep ts) (P : Parts Q rep' ts ms) {fuel : Nat} (hf : ts.length < fuel) {s : σ} {k : Nat} (h : rep s k) :
    ∃ t, flattenNew fuel R Q s = some t ∧ flattenRep rep rep' ts ms t (off ms k) := flatNext_spec L P fuel h (by omega)

/-- **C87.**  `Flatten` shows the elements of the ranges, one range after the other; empty ones are skipped. -/
theorem flatten_fwd (L : Fwd R rep ts) (P : Parts Q rep' ts ms) {fuel : Nat} (hf : ts.length < fuel) :
    Fwd (flatten fuel R Q) (flattenRep rep rep' ts ms) ms.flatten where
  le := by
    rintro s i (⟨_, _, h⟩ | ⟨k, j, t, _, _, _, _, h1, h2⟩)
    · omega
    · have := off_lt ms h1; omega
  valid := by
    rintro s i (⟨h1, _, h⟩ | ⟨k, j, t, h0, _, _, _, h1, h2⟩)
    · simp only [flatten, h1, h, Nat.lt_irrefl, decide_false, Option.isSome_none]
    · have := off_lt ms h1; simp only [flatten, h0, h2, this, decide_true, Option.isSome_some]
  get := by
    rintro s i (⟨h1, _, h⟩ | ⟨k, j, t, h0, hk, hr, hq, h1, h2⟩) hi
    · omega
    · subst h2
      obtain ⟨u, h3, h4⟩ := (P.fwd hk).get hq h1
      have e := off_get ms h1
      rw [List.getElem?_eq_getElem hi] at e
      refine ⟨(s.1, some u), ?_, .inr ⟨k, j, u, rfl, hk, hr, h4, h1, rfl⟩⟩
      simp only [flatten, h0, Option.bind_some, h3, Option.map_some]
      rw [Option.some.inj e]
  equals := by
    rintro s t i j (⟨h1, h2, h3⟩ | ⟨k, j, u, h0, hk, hr, hq, h1, h2⟩) (⟨g1, g2, g3⟩ | ⟨k', j', u', g0, gk, gr, gq, g1, g2⟩)
    · simp only [flatten, h1, g1, optEquals, L.equals h2 g2, h3, g3, decide_true, Bool.and_self]
    · have := off_lt ms g1
      simp only [flatten, h1, g0, optEquals, Bool.and_false]
      symm; rw [decide_eq_false_iff_not]; omega
    · have := off_lt ms h1
      simp only [flatten, h0, g1, optEquals, Bool.and_false]
      symm; rw [decide_eq_false_iff_not]; omega
    · simp only [flatten, h0, g0, optEquals, L.equals hr gr]
      by_cases e : k = k'
      · subst e
        simp only [decide_true, Bool.true_and, (P.fwd hk).equals hq gq]
        rw [Bool.eq_iff_iff, decide_eq_true_iff, decide_eq_true_iff]; omega
      · simp only [e, decide_false, Bool.false_and]
        symm; rw [decide_eq_false_iff_not]
        intro c
        exact e (off_inj ms h1 g1 (by omega))
  first := by
    have key : ∀ {u : σ} {k : Nat}, rep u k → ∃ t, (R.first u).bind (flatNext R Q fuel) = some t ∧ flattenRep rep rep' ts ms t 0 := by
      intro u k hu
      obtain ⟨v, h1, h2⟩ := L.first hu
      obtain ⟨w, h3, h4⟩ := flatNext_spec L P fuel h2 (by omega)
      exact ⟨w, by rw [h1]; exact h3, h4⟩
    rintro s i (⟨_, h, _⟩ | ⟨k, j, t, _, _, h, _, _, _⟩)
    · exact key h
    · exact key h
  next := by
    rintro s i (⟨h1, _, h⟩ | ⟨k, j, t, h0, hk, hr, hq, h1, h2⟩) hi
    · omega
    · obtain ⟨u, h3, h4⟩ := (P.fwd hk).next hq h1
      simp only [flatten, h0, Option.bind_some, h3, (P.fwd hk).valid h4]
      by_cases c : j + 1 < (part ms k).length
      · simp only [c, decide_true, Bool.not_true, Bool.false_eq_true, if_false]
        exact ⟨_, rfl, .inr ⟨k, j + 1, u, rfl, hk, hr, h4, c, by omega⟩⟩
      · simp only [c, decide_false, Bool.not_false, if_true]
        obtain ⟨v, h5, h6⟩ := L.next hr hk
        obtain ⟨w, h7, h8⟩ := flatNext_spec L P fuel h6 (by omega)
        refine ⟨w, by rw [h5]; exact h7, ?_⟩
        rw [off_succ] at h8
        rw [show i + 1 = off ms k + (part ms k).length by omega]
        exact h8

theorem flatPrevLoop_spec (L : Fwd R rep ts) (B : Bwd R rep ts) (P : Parts Q rep' ts ms) (PB : ∀ {k}, k < ts.length → Bwd Q (rep' k) (part ms k))
    (n : Nat) {s : σ} {k : Nat} (h : rep s k) (hk : k < ts.length) (hn : k < n) (hs : 0 < off ms (k + 1)) :
    ∃ t, flatPrevLoop R Q n s = some t ∧ flattenRep rep rep' ts ms t (off ms (k + 1) - 1) := by
  induction n generalizing s k with
  | zero => omega
  | succ n ih =>
    obtain ⟨t, h1, h2⟩ := L.get h hk
    obtain ⟨u, h3, h4⟩ := (PB hk).last (P.start hk)
    simp only [flatPrevLoop, h1, h3, Option.bind_some, (P.fwd hk).valid h4]
    rw [off_succ] at hs ⊢
    by_cases c : 0 < (part ms k).length
    · rw [show decide ((part ms k).length - 1 < (part ms k).length) = true by rw [decide_eq_true_iff]; omega]
      simp only [if_true]
      exact ⟨_, rfl, .inr ⟨k, (part ms k).length - 1, u, rfl, hk, h2, h4, by omega, by omega⟩⟩
    · rw [show decide ((part ms k).length - 1 < (part ms k).length) = false by rw [decide_eq_false_iff_not]; omega]
      simp only [Bool.false_eq_true, if_false]
      obtain ⟨f, h5, h6⟩ := L.first h2
      have h0 : k ≠ 0 := by intro z; subst z; rw [off_zero] at hs; omega
      obtain ⟨v, h7, h8⟩ := B.prev h2 (by omega) hk
      have e : off ms (k - 1 + 1) = off ms k + (part ms k).length := by rw [show k - 1 + 1 = k by omega]; omega
      obtain ⟨w, h9, h10⟩ := ih h8 (by omega) (by omega) (by rw [e]; exact hs)
      rw [e] at h10
      refine ⟨w, ?_, h10⟩
      simp only [h5, Option.bind_some, L.equals h2 h6, h0, decide_false, Bool.false_eq_true, if_false, h7]
      exact h9

theorem flatPrev_spec (L : Fwd R rep ts) (B : Bwd R rep ts) (P : Parts Q rep' ts ms) (PB : ∀ {k}, k < ts.length → Bwd Q (rep' k) (part ms k))
    {n : Nat} {s : σ} {k : Nat} (h : rep s k) (hk : k < ts.length) (hn : k < n) (hs : 0 < off ms (k + 1)) :
    ∃ t, flatPrev R Q n s = some t ∧ flattenRep rep rep' ts ms t (off ms (k + 1) - 1) := by
  unfold flatPrev
  rw [L.valid h, if_pos (by rw [decide_eq_true_iff]; exact hk)]
  exact flatPrevLoop_spec L B P PB n h hk hn hs

/-- **C87.**  Backward, unless there are ranges but all of them are empty. -/
theorem flatten_bwd_partial (L : Fwd R rep ts) (B : Bwd R rep ts) (P : Parts Q rep' ts ms) (PB : ∀ {k}, k < ts.length → Bwd Q (rep' k) (part ms k))
    (hne : ms.flatten ≠ [] ∨ ts = []) {fuel : Nat} (hf : ts.length < fuel) : Bwd (flatten fuel R Q) (flattenRep rep rep' ts ms) ms.flatten where
  last := by
    have key : ∀ {u : σ} {k : Nat}, rep u k → ∃ t, (R.last u).bind (flatPrev R Q fuel) = some t ∧ flattenRep rep rep' ts ms t (ms.flatten.length - 1) := by
      intro u k hu
      obtain ⟨v, h1, h2⟩ := B.last hu
      rw [h1, Option.bind_some]
      rcases hne with h | h
      · have hp := List.length_pos_iff.2 h
        have ht : 0 < ts.length := by
          rcases Nat.eq_zero_or_pos ts.length with z | z
          · have := P.length
            rw [z, List.length_eq_zero_iff] at this
            rw [this] at hp; simp at hp
          · exact z
        have e : off ms (ts.length - 1 + 1) = ms.flatten.length := by
          rw [show ts.length - 1 + 1 = ts.length by omega, ← P.length, off_full ms (Nat.le_refl _)]
        have := flatPrev_spec L B P PB h2 (show ts.length - 1 < ts.length by omega) (show _ < fuel by omega) (by rw [e]; exact hp)
        rw [e] at this
        exact this
      · have hm : ms = [] := by have := P.length; rw [h] at this; exact List.length_eq_zero_iff.1 this
        refine ⟨(v, none), ?_, .inl ⟨rfl, ?_, ?_⟩⟩
        · unfold flatPrev
          rw [L.valid h2, if_neg (by rw [decide_eq_true_iff, h]; simp)]
        · rw [h] at h2 ⊢; exact h2
        · rw [hm]; rfl
    rintro s i (⟨_, h, _⟩ | ⟨k, j, t, _, _, h, _, _, _⟩)
    · exact key h
    · exact key h
  prev := by
    rintro s i (⟨h1, _, h⟩ | ⟨k, j, t, h0, hk, hr, hq, h1, h2⟩) hpos hi
    · omega
    · obtain ⟨f, g1, g2⟩ := (P.fwd hk).first hq
      simp only [flatten, h0, Option.bind_some, g1, (P.fwd hk).equals hq g2]
      by_cases z : j = 0
      · simp only [z, decide_true, Bool.not_true, Bool.false_eq_true, if_false]
        obtain ⟨g, g3, g4⟩ := L.first hr
        have hk0 : k ≠ 0 := by intro e; subst e; rw [off_zero] at h2; omega
        obtain ⟨v, g5, g6⟩ := B.prev hr (by omega) hk
        simp only [g3, Option.bind_some, L.equals hr g4, hk0, decide_false, Bool.not_false, if_true, g5]
        have e : k - 1 + 1 = k := by omega
        have := flatPrev_spec L B P PB g6 (show k - 1 < ts.length by omega) (show _ < fuel by omega) (by rw [e]; omega)
        rw [e] at this
        rw [h2, z, Nat.add_zero]
        exact this
      · simp only [z, decide_false, Bool.not_false, if_true]
        obtain ⟨u, g3, g4⟩ := (PB hk).prev hq (by omega) h1
        simp only [g3, Option.map_some]
        exact ⟨_, rfl, .inr ⟨k, j - 1, u, rfl, hk, hr, g4, by omega, by omega⟩⟩

end

/-- The hypotheses are met: three ranges, the second one empty, in one container. -/
theorem flatten_example : Parts (iterRange [4, 5, 6]) (fun k => iterRep [0, 2, 2][k]! [2, 2, 3][k]!) [⟨0, 0, 2⟩, ⟨2, 2, 2⟩, ⟨2, 2, 3⟩] [[4, 5], [], [6]] where
  length := rfl
  start := by
    intro k h
    match k, h with
    | 0, _ => exact ⟨rfl, rfl, rfl, by decide⟩
    | 1, _ => exact ⟨rfl, rfl, rfl, by decide⟩
    | 2, _ => exact ⟨rfl, rfl, rfl, by decide⟩
  fwd := by
    intro k h
    match k, h with
    | 0, _ => exact iter_fwd (b := 0) (e := 2) (by decide) (by decide)
    | 1, _ => exact iter_fwd (b := 2) (e := 2) (by decide) (by decide)
    | 2, _ => exact iter_fwd (b := 2) (e := 3) (by decide) (by decide)

theorem flatten_example_bwd {k : Nat} (h : k < 3) : Bwd (iterRange [4, 5, 6]) (iterRep [0, 2, 2][k]! [2, 2, 3][k]!) (part [[4, 5], [], [6]] k) := by
  match k, h with
  | 0, _ => exact iter_bwd (b := 0) (e := 2) (by decide) (by decide)
  | 1, _ => exact iter_bwd (b := 2) (e := 2) (by decide) (by decide)
  | 2, _ => exact iter_bwd (b := 2) (e := 3) (by decide) (by decide)

example : ∃ rep, Bwd (flatten 9 (iterRange [(⟨0, 0, 2⟩ : Iter), ⟨2, 2, 2⟩, ⟨2, 2, 3⟩]) (iterRange [4, 5, 6])) rep [4, 5, 6] :=
  ⟨_, flatten_bwd_partial (ts := [⟨0, 0, 2⟩, ⟨2, 2, 2⟩, ⟨2, 2, 3⟩]) (iter_fwd (b := 0) (e := 3) (by decide) (by decide)) (iter_bwd (b := 0) (e := 3) (by decide) (by decide)) flatten_example
    (fun h => flatten_example_bwd h) (.inl (by decide)) (by decide)⟩

/-- **C87 violated.**  If all the ranges are empty, `begin()` (behind the last range) and `end()` (at the first range) of `Flatten` are not equal: `for` over
it calls `Get` and throws. -/
theorem flatten_for_violated : ∃ (s b e : Iter × Option Iter),
    flattenRep (iterRep 0 1) (fun _ => iterRep 0 0) [⟨0, 0, 0⟩] ([[]] : List (List Nat)) s 0 ∧
    begin (flatten 9 (iterRange [(⟨0, 0, 0⟩ : Iter)]) (iterRange ([] : List Nat))) s = some b ∧
    rangeEnd (flatten 9 (iterRange [(⟨0, 0, 0⟩ : Iter)]) (iterRange ([] : List Nat))) s = some e ∧
    (flatten 9 (iterRange [(⟨0, 0, 0⟩ : Iter)]) (iterRange ([] : List Nat))).equals b e = false ∧
    (flatten 9 (iterRange [(⟨0, 0, 0⟩ : Iter)]) (iterRange ([] : List Nat))).get b = none :=
  ⟨(⟨0, 1, 1⟩, none), (⟨0, 1, 1⟩, none), (⟨0, 0, 1⟩, none), .inl ⟨rfl, ⟨rfl, rfl, rfl, by decide⟩, rfl⟩, by decide +kernel, by decide +kernel, by decide +kernel, by decide +kernel⟩

/-- **C87 violated.**  `Flatten` cannot step back from its end. -/
theorem flatten_prevEnd_violated (fuel : Nat) (R : Rng σ τ) (Q : Rng τ α) (s : σ) : (flatten fuel R Q).prev (s, none) = none := rfl

/-! ### Concat -/

def concatRep (rep : Nat → σ → Nat → Prop) (ts : List σ) (ms : List (List α)) (s : ConcatSt σ) (i : Nat) : Prop :=
  s.ranges = ts ∧ ((s.current = none ∧ i = ms.flatten.length) ∨
    ∃ k j t, s.current = some (k, t) ∧ k < ts.length ∧ rep k t j ∧ j < (part ms k).length ∧ i = off ms k + j)

section
variable {R : Rng σ α} {rep : Nat → σ → Nat → Prop} {ts : List σ} {ms : List (List α)}

theorem concatForward_spec (P : Parts R rep ts ms) (k : Nat) : concatRep rep ts ms ⟨ts, concatForward R k (ts.drop k)⟩ (off ms k) := by
  induction n : ts.length - k generalizing k with
  | zero =>
    have hk : ts.length ≤ k := by omega
    refine ⟨rfl, .inl ⟨?_, off_full ms (by have := P.length; omega)⟩⟩
    simp only [List.drop_of_length_le hk, concatForward]
  | succ n ih =>
    have hk : k < ts.length := by omega
    simp only [List.drop_eq_getElem_cons hk, concatForward, (P.fwd hk).valid (P.start hk)]
    by_cases e : 0 < (part ms k).length
    · simp only [e, decide_true, if_true]
      exact ⟨rfl, .inr ⟨k, 0, ts[k], rfl, hk, P.start hk, e, rfl⟩⟩
    · simp only [e, decide_false, Bool.false_eq_true, if_false]
      have := ih (k + 1) (by omega)
      rw [off_succ, show (part ms k).length = 0 by omega] at this
      exact this

theorem concat_new (P : Parts R rep ts ms) : concatRep rep ts ms (concatNew R ts) 0 := concatForward_spec P 0

theorem allEqual_self (P : Parts R rep ts ms) : allEqual R ts ts = true := by
  have key : ∀ k, allEqual R (ts.drop k) (ts.drop k) = true := by
    intro k
    induction n : ts.length - k generalizing k with
    | zero => simp only [List.drop_of_length_le (show ts.length ≤ k by omega), allEqual]
    | succ n ih =>
      have hk : k < ts.length := by omega
      simp only [List.drop_eq_getElem_cons hk, allEqual, (P.fwd hk).equals (P.start hk) (P.start hk), decide_true, Bool.true_and]
      exact ih (k + 1) (by omega)
  exact key 0

/-- **C87.**  `Concat` of ranges at their first elements shows the elements of the ranges, one range after the other. -/
theorem concat_fwd (P : Parts R rep ts ms) : Fwd (concat R) (concatRep rep ts ms) ms.flatten where
  le := by
    rintro s i ⟨_, ⟨_, h⟩ | ⟨k, j, t, _, _, _, h1, h2⟩⟩
    · omega
    · have := off_lt ms h1; omega
  valid := by
    rintro s i ⟨_, ⟨h1, h⟩ | ⟨k, j, t, h0, _, _, h1, h2⟩⟩
    · simp only [concat, h1, h, Nat.lt_irrefl, decide_false, Option.isSome_none]
    · have := off_lt ms h1; simp only [concat, h0, h2, this, decide_true, Option.isSome_some]
  get := by
    rintro s i ⟨hr, ⟨_, h⟩ | ⟨k, j, t, h0, hk, hq, h1, h2⟩⟩ hi
    · omega
    · subst h2
      obtain ⟨u, h3, h4⟩ := (P.fwd hk).get hq h1
      have e := off_get ms h1
      rw [List.getElem?_eq_getElem hi] at e
      refine ⟨{ s with current := some (k, u) }, ?_, hr, .inr ⟨k, j, u, rfl, hk, h4, h1, rfl⟩⟩
      simp only [concat, h0, Option.bind_some, h3, Option.map_some]
      rw [Option.some.inj e]
  equals := by
    rintro s t i j ⟨hr, ⟨h1, h3⟩ | ⟨k, j, u, h0, hk, hq, h1, h2⟩⟩ ⟨gr, ⟨g1, g3⟩ | ⟨k', j', u', g0, gk, gq, g1, g2⟩⟩ <;>
      simp only [concat, hr, gr, allEqual_self P, Bool.true_and]
    · simp only [h1, g1, currentEquals, h3, g3, decide_true]
    · have := off_lt ms g1
      simp only [h1, g0, currentEquals]
      symm; rw [decide_eq_false_iff_not]; omega
    · have := off_lt ms h1
      simp only [h0, g1, currentEquals]
      symm; rw [decide_eq_false_iff_not]; omega
    · simp only [h0, g0, currentEquals]
      by_cases e : k = k'
      · subst e
        simp only [beq_self_eq_true, Bool.true_and, (P.fwd hk).equals hq gq]
        rw [Bool.eq_iff_iff, decide_eq_true_iff, decide_eq_true_iff]; omega
      · rw [show (k == k') = false by rw [beq_eq_false_iff_ne]; exact e, Bool.false_and]
        symm; rw [decide_eq_false_iff_not]
        intro c
        exact e (off_inj ms h1 g1 (by omega))
  first := by
    rintro s i ⟨hr, _⟩
    refine ⟨_, rfl, ?_⟩
    have := concat_new P
    simp only [hr]
    exact this
  next := by
    rintro s i ⟨hr, ⟨_, h⟩ | ⟨k, j, t, h0, hk, hq, h1, h2⟩⟩ hi
    · omega
    · obtain ⟨u, h3, h4⟩ := (P.fwd hk).next hq h1
      simp only [concat, h0, Option.bind_some, h3, Option.map_some, (P.fwd hk).valid h4]
      by_cases c : j + 1 < (part ms k).length
      · simp only [c, decide_true, if_true]
        exact ⟨_, rfl, hr, .inr ⟨k, j + 1, u, rfl, hk, h4, c, by omega⟩⟩
      · simp only [c, decide_false, Bool.false_eq_true, if_false]
        refine ⟨_, rfl, ?_⟩
        have := concatForward_spec P (k + 1)
        rw [off_succ] at this
        rw [show i + 1 = off ms k + (part ms k).length by omega, hr]
        exact this

theorem concatBackward_spec (P : Parts R rep ts ms) (PB : ∀ {k}, k < ts.length → Bwd R (rep k) (part ms k)) {k : Nat} (hk : k ≤ ts.length) (hs : 0 < off ms k) :
    ∃ c, concatBackward R (ts.take k).reverse = some c ∧ concatRep rep ts ms ⟨ts, c⟩ (off ms k - 1) := by
  induction k with
  | zero => rw [off_zero] at hs; omega
  | succ k ih =>
    rw [List.take_succ_eq_append_getElem (by omega), List.reverse_append, List.reverse_cons, List.reverse_nil, List.nil_append, List.singleton_append]
    obtain ⟨u, h3, h4⟩ := (PB (show k < ts.length by omega)).last (P.start (by omega))
    simp only [concatBackward, h3, Option.bind_some, (P.fwd (show k < ts.length by omega)).valid h4, List.length_reverse, List.length_take]
    rw [off_succ] at hs ⊢
    by_cases c : 0 < (part ms k).length
    · rw [show decide ((part ms k).length - 1 < (part ms k).length) = true by rw [decide_eq_true_iff]; omega]
      simp only [if_true]
      refine ⟨_, rfl, rfl, .inr ⟨k, (part ms k).length - 1, u, ?_, by omega, h4, by omega, by omega⟩⟩
      rw [Nat.min_eq_left (by omega)]
    · rw [show decide ((part ms k).length - 1 < (part ms k).length) = false by rw [decide_eq_false_iff_not]; omega]
      simp only [Bool.false_eq_true, if_false]
      have := ih (by omega) (by omega)
      rw [show off ms k + (part ms k).length = off ms k by omega]
      exact this

theorem concatBackward_empty (P : Parts R rep ts ms) (PB : ∀ {k}, k < ts.length → Bwd R (rep k) (part ms k)) {k : Nat} (hk : k ≤ ts.length) (hs : off ms k = 0) :
    concatBackward R (ts.take k).reverse = some none := by
  induction k with
  | zero => rfl
  | succ k ih =>
    rw [List.take_succ_eq_append_getElem (by omega), List.reverse_append, List.reverse_cons, List.reverse_nil, List.nil_append, List.singleton_append]
    obtain ⟨u, h3, h4⟩ := (PB (show k < ts.length by omega)).last (P.start (by omega))
    simp only [concatBackward, h3, Option.bind_some, (P.fwd (show k < ts.length by omega)).valid h4]
    rw [off_succ] at hs
    rw [show decide ((part ms k).length - 1 < (part ms k).length) = false by rw [decide_eq_false_iff_not]; omega]
    simp only [Bool.false_eq_true, if_false]
    exact ih (by omega) (by omega)

/-- **C87.**  Backward. -/
theorem concat_bwd (P : Parts R rep ts ms) (PB : ∀ {k}, k < ts.length → Bwd R (rep k) (part ms k)) : Bwd (concat R) (concatRep rep ts ms) ms.flatten where
  last := by
    rintro s i ⟨hr, _⟩
    have e : off ms ts.length = ms.flatten.length := off_full ms (by have := P.length; omega)
    simp only [concat, hr]
    by_cases z : ms.flatten.length = 0
    · have := concatBackward_empty P PB (Nat.le_refl ts.length) (by omega)
      rw [List.take_length] at this
      rw [this]
      exact ⟨_, rfl, rfl, .inl ⟨rfl, by omega⟩⟩
    · obtain ⟨c, h1, h2⟩ := concatBackward_spec P PB (Nat.le_refl ts.length) (by omega)
      rw [List.take_length] at h1
      rw [h1]
      refine ⟨_, rfl, ?_⟩
      rw [e] at h2
      exact h2
  prev := by
    rintro s i ⟨hr, ⟨_, h⟩ | ⟨k, j, t, h0, hk, hq, h1, h2⟩⟩ hpos hi
    · omega
    · obtain ⟨f, g1, g2⟩ := (P.fwd hk).first hq
      simp only [concat, h0, Option.bind_some, g1, (P.fwd hk).equals hq g2]
      by_cases z : j = 0
      · simp only [z, decide_true, if_true, hr]
        obtain ⟨c, g3, g4⟩ := concatBackward_spec P PB (k := k) (by omega) (by omega)
        rw [g3]
        refine ⟨_, rfl, ?_⟩
        rw [h2, z, Nat.add_zero]
        exact g4
      · simp only [z, decide_false, Bool.false_eq_true, if_false]
        obtain ⟨u, g3, g4⟩ := (PB hk).prev hq (by omega) h1
        simp only [g3, Option.map_some]
        exact ⟨_, rfl, hr, .inr ⟨k, j - 1, u, rfl, hk, g4, by omega, by omega⟩⟩

end

example : ∃ rep, Bwd (concat (iterRange [4, 5, 6])) rep [4, 5, 6] := ⟨_, concat_bwd flatten_example (fun h => flatten_example_bwd h)⟩

/-- **C87 violated.**  `Concat` cannot step back from its end. -/
theorem concat_prevEnd_violated (R : Rng σ α) (rs : List σ) : (concat R).prev ⟨rs, none⟩ = none := rfl

/-- **C87 violated.**  A range that is not at its first element (here: at the second of two) is shown from where it is forward, but from its first element
backward: `Prev` at the first element of the concatenation goes on to an element that the forward iteration does not show. -/
theorem concat_advanced_violated :
    forEach (concat (iterRange [4, 5])) 9 (concatNew (iterRange [4, 5]) [⟨0, 1, 2⟩]) = some [5] ∧
    ∃ t, (concat (iterRange [4, 5])).prev (concatNew (iterRange [4, 5]) [⟨0, 1, 2⟩]) = some t ∧ ∃ u, (concat (iterRange [4, 5])).get t = some (4, u) :=
  ⟨by decide +kernel, ⟨[⟨0, 1, 2⟩], some (0, ⟨0, 0, 2⟩)⟩, rfl, _, rfl⟩

end Verif.Range
