import Verif.Range.BasicProps
/-
C87: `Filter` and `OfType`.
-/
namespace Verif.Range

variable {σ τ α β γ : Type}

/-- How many of the first `j` elements are shown. -/
def shown (c : α → Option β) (l : List α) (j : Nat) : Nat := ((l.take j).filterMap c).length

theorem shown_succ {c : α → Option β} {l : List α} {j : Nat} (h : j < l.length) : shown c l (j + 1) = shown c l j + if (c l[j]).isSome then 1 else 0 := by
  unfold shown
  rw [List.take_succ_eq_append_getElem h, List.filterMap_append, List.length_append]
  cases e : c l[j] <;> simp [List.filterMap_cons, e]

theorem shown_full {c : α → Option β} {l : List α} {j : Nat} (h : l.length ≤ j) : shown c l j = (l.filterMap c).length := by
  unfold shown; rw [List.take_of_length_le h]

theorem shown_mono {c : α → Option β} {l : List α} {i j : Nat} (h : i ≤ j) : shown c l i ≤ shown c l j := by
  induction j with
  | zero => rw [show i = 0 by omega]; exact Nat.le_refl _
  | succ j ih =>
    by_cases e : i ≤ j
    · by_cases hj : j < l.length
      · rw [shown_succ hj]; have := ih e; omega
      · rw [shown_full (show l.length ≤ j + 1 by omega), ← shown_full (c := c) (show l.length ≤ j by omega)]; exact ih e
    · rw [show i = j + 1 by omega]; exact Nat.le_refl _

/-- An element that is shown is the next one to be shown. -/
theorem shown_get {c : α → Option β} {l : List α} {j : Nat} {v : β} (h : j < l.length) (hv : c l[j] = some v) : (l.filterMap c)[shown c l j]? = some v := by
  have : l = l.take j ++ (l[j] :: l.drop (j + 1)) := by rw [List.getElem_cons_drop, List.take_append_drop]
  unfold shown
  conv => lhs; rw [this]
  rw [List.take_append_of_le_length (by simp; omega), List.take_take, Nat.min_self, List.filterMap_append, List.getElem?_append_right (Nat.le_refl _), Nat.sub_self, List.filterMap_cons, hv]
  rfl

theorem shown_lt {c : α → Option β} {l : List α} {j : Nat} (h : j < l.length) (hv : (c l[j]).isSome) : shown c l j < (l.filterMap c).length := by
  obtain ⟨v, hv⟩ := Option.isSome_iff_exists.1 hv
  have := shown_get h hv
  exact (List.getElem?_eq_some_iff.1 this).1

/-- The range stands at the underlying position `j`, where an element is shown, or at the end. -/
def At (c : α → Option β) (l : List α) (j : Nat) : Prop := j = l.length ∨ ∃ h : j < l.length, (c l[j]).isSome

def ofTypeRep (rep : σ → Nat → Prop) (c : α → Option β) (l : List α) (s : σ × Option β) (i : Nat) : Prop :=
  ∃ j, rep s.1 j ∧ At c l j ∧ i = shown c l j ∧ ∀ h : j < l.length, s.2 = c l[j]

theorem at_valid {c : α → Option β} {l : List α} {j : Nat} (h : At c l j) : decide (j < l.length) = decide (shown c l j < (l.filterMap c).length) := by
  rcases h with h | ⟨h, hv⟩
  · rw [shown_full (by omega)]; simp [h]
  · simp [h, shown_lt h hv]

theorem at_inj {c : α → Option β} {l : List α} {i j : Nat} (hi : At c l i) (hj : At c l j) (e : shown c l i = shown c l j) : i = j := by
  have key : ∀ i j, i < j → At c l i → j ≤ l.length → shown c l i < shown c l j := by
    intro i j h hi hj
    rcases hi with hi | ⟨h1, h2⟩
    · omega
    · have := shown_succ (c := c) h1
      rw [if_pos h2] at this
      have := shown_mono (c := c) (l := l) (show i + 1 ≤ j by omega)
      omega
  have li : i ≤ l.length := by rcases hi with h | ⟨h, _⟩ <;> omega
  have lj : j ≤ l.length := by rcases hj with h | ⟨h, _⟩ <;> omega
  rcases Nat.lt_trichotomy i j with h | h | h
  · have := key i j h hi lj; omega
  · exact h
  · have := key j i h hj li; omega

/-- `FindNext`: to the next element shown. -/
theorem ofTypeNext_spec {R : Rng σ α} {rep : σ → Nat → Prop} {l : List α} (L : Fwd R rep l) (c : α → Option β) (n : Nat) {s : σ × Option β} {j : Nat}
    (h : rep s.1 j) (hn : l.length < n + j) : ∃ t, ofTypeNext R c n s = some t ∧ ofTypeRep rep c l t (shown c l j) := by
  have hle := L.le h
  induction n generalizing s j with
  | zero => omega
  | succ n ih =>
    simp only [ofTypeNext, L.valid h]
    by_cases d : j < l.length
    · obtain ⟨t, h1, h2⟩ := L.get h d
      simp only [d, decide_true, if_true, h1]
      by_cases e : (c l[j]).isSome
      · simp only [e, if_true]
        exact ⟨_, rfl, j, h2, .inr ⟨d, e⟩, rfl, fun _ => rfl⟩
      · obtain ⟨u, g1, g2⟩ := L.next h2 d
        simp only [e, if_false, g1, Option.bind_some]
        have := ih (s := (u, c l[j])) g2 (by omega) (L.le g2)
        rw [shown_succ d, if_neg e, Nat.add_zero] at this
        exact this
    · simp only [d, decide_false, Bool.false_eq_true, if_false]
      exact ⟨s, rfl, j, h, .inl (by omega), rfl, fun h => absurd h d⟩

/-- `FindPrev`: back to the last element shown before, if there is one. -/
theorem ofTypePrev_spec {R : Rng σ α} {rep : σ → Nat → Prop} {l : List α} (L : Fwd R rep l) (B : Bwd R rep l) (c : α → Option β) (n : Nat) {s : σ × Option β} {j : Nat}
    (h : rep s.1 j) (hj : j < l.length) (hn : j < n) (hs : 0 < shown c l (j + 1)) :
    ∃ t, ofTypePrev R c n s = some t ∧ ofTypeRep rep c l t (shown c l (j + 1) - 1) := by
  induction n generalizing s j with
  | zero => omega
  | succ n ih =>
    obtain ⟨t, h1, h2⟩ := L.get h hj
    simp only [ofTypePrev, L.valid h, hj, decide_true, if_true, h1]
    by_cases e : (c l[j]).isSome
    · simp only [e, if_true]
      refine ⟨_, rfl, j, h2, .inr ⟨hj, e⟩, ?_, fun _ => rfl⟩
      rw [shown_succ hj, if_pos e]; rfl
    · have hsh : shown c l (j + 1) = shown c l j := by rw [shown_succ hj, if_neg e]; rfl
      rw [hsh] at hs ⊢
      have h0 : j ≠ 0 := by intro z; subst z; simp [shown] at hs
      obtain ⟨u, g1, g2⟩ := B.prev h2 (by omega) hj
      simp only [e, if_false, g1, Option.bind_some]
      have := ih (s := (u, c l[j])) g2 (by omega) (by omega) (by rw [show j - 1 + 1 = j by omega]; exact hs)
      rw [show j - 1 + 1 = j by omega] at this
      exact this

/-- `FindPrevOrInvalidate`. -/
theorem ofTypePrevOrInvalidate_spec {R : Rng σ α} {rep : σ → Nat → Prop} {l : List α} (L : Fwd R rep l) (B : Bwd R rep l) (c : α → Option β) {f : σ} (hf : rep f 0)
    (n : Nat) {s : σ × Option β} {j : Nat} (h : rep s.1 j) (hj : j < l.length) (hn : j < n) (hrest : shown c l (j + 1) = (l.filterMap c).length) :
    ∃ t, ofTypePrevOrInvalidate R c f n s = some t ∧ ofTypeRep rep c l t ((l.filterMap c).length - 1) := by
  induction n generalizing s j with
  | zero => omega
  | succ n ih =>
    obtain ⟨t, h1, h2⟩ := L.get h hj
    simp only [ofTypePrevOrInvalidate, L.valid h, hj, decide_true, if_true, h1]
    by_cases e : (c l[j]).isSome
    · simp only [e, if_true]
      refine ⟨_, rfl, j, h2, .inr ⟨hj, e⟩, ?_, fun _ => rfl⟩
      rw [shown_succ hj, if_pos e] at hrest
      omega
    · rw [shown_succ hj, if_neg e, Nat.add_zero] at hrest
      simp only [e, if_false, L.equals h2 hf]
      by_cases z : j = 0
      · simp only [z, decide_true, if_true]
        obtain ⟨u, g1, g2⟩ := B.last h2
        obtain ⟨w, k1, k2⟩ := L.next g2 (by omega)
        simp only [g1, Option.bind_some, k1, Option.map_some]
        refine ⟨_, rfl, l.length, ?_, .inl rfl, ?_, fun h => absurd h (Nat.lt_irrefl _)⟩
        · rw [show l.length - 1 + 1 = l.length by omega] at k2; exact k2
        · rw [shown_full (Nat.le_refl _)]
          subst z
          simp [shown] at hrest
          omega
      · obtain ⟨u, g1, g2⟩ := B.prev h2 (by omega) hj
        simp only [z, decide_false, Bool.false_eq_true, if_false, g1, Option.bind_some]
        exact ih (s := (u, c l[j])) g2 (by omega) (by omega) (by rw [show j - 1 + 1 = j by omega]; exact hrest)

/-- The constructor of `OfType`, for a range at position `j`. -/
theorem ofType_new {R : Rng σ α} {rep : σ → Nat → Prop} {l : List α} (L : Fwd R rep l) (c : α → Option β) {fuel : Nat} (hf : l.length < fuel) {s : σ} {j : Nat}
    (h : rep s j) : ∃ t, ofTypeNew fuel R c s = some t ∧ ofTypeRep rep c l t (shown c l j) :=
  ofTypeNext_spec L c fuel (s := (s, none)) h (by omega)

/-- **C87.**  `OfType` shows the elements that can be cast, cast. -/
theorem ofType_fwd {R : Rng σ α} {rep : σ → Nat → Prop} {l : List α} (L : Fwd R rep l) (c : α → Option β) {fuel : Nat} (hf : l.length < fuel) :
    Fwd (ofType fuel R c) (ofTypeRep rep c l) (l.filterMap c) where
  le := by
    rintro s i ⟨j, h, ha, rfl, _⟩
    rcases ha with e | ⟨h1, h2⟩
    · rw [shown_full (by omega)]; exact Nat.le_refl _
    · exact Nat.le_of_lt (shown_lt h1 h2)
  valid := by
    rintro s i ⟨j, h, ha, rfl, _⟩
    simp only [ofType, L.valid h]
    exact at_valid ha
  get := by
    rintro s i ⟨j, h, ha, rfl, hv⟩ hi
    have hj : j < l.length := of_decide_eq_true ((at_valid ha).trans (decide_eq_true hi))
    rcases ha with e | ⟨h1, h2⟩
    · omega
    · obtain ⟨v, e⟩ := Option.isSome_iff_exists.1 h2
      have g := shown_get hj e
      rw [List.getElem?_eq_getElem hi, Option.some.injEq] at g
      refine ⟨s, ?_, j, h, .inr ⟨h1, h2⟩, rfl, hv⟩
      simp only [ofType, hv hj, e, Option.map_some, g]
  equals := by
    rintro s t i i' ⟨j, h, ha, rfl, _⟩ ⟨k, g, ga, rfl, _⟩
    simp only [ofType, L.equals h g, decide_eq_decide]
    exact ⟨fun e => by rw [e], at_inj ha ga⟩
  first := by
    rintro s i ⟨j, h, ha, rfl, _⟩
    obtain ⟨t, h1, h2⟩ := L.first h
    simp only [ofType, h1, Option.bind_some]
    have := ofTypeNext_spec L c fuel (s := (t, s.2)) h2 (by omega)
    simpa [shown] using this
  next := by
    rintro s i ⟨j, h, ha, rfl, _⟩ hi
    have hj : j < l.length := of_decide_eq_true ((at_valid ha).trans (decide_eq_true hi))
    obtain ⟨t, h1, h2⟩ := L.next h hj
    simp only [ofType, h1, Option.bind_some]
    have := ofTypeNext_spec L c fuel (s := (t, s.2)) h2 (by omega)
    rcases ha with e | ⟨_, h2⟩
    · omega
    · rw [shown_succ hj, if_pos h2] at this; exact this

theorem ofType_bwd {R : Rng σ α} {rep : σ → Nat → Prop} {l : List α} (L : Fwd R rep l) (B : Bwd R rep l) (c : α → Option β) {fuel : Nat} (hf : l.length < fuel) :
    Bwd (ofType fuel R c) (ofTypeRep rep c l) (l.filterMap c) where
  last := by
    rintro s i ⟨j, h, ha, rfl, _⟩
    obtain ⟨t, h1, h2⟩ := B.last h
    obtain ⟨f, h3, h4⟩ := L.first h2
    simp only [ofType, h1, Option.bind_some, h3]
    by_cases z : l.length = 0
    · cases fuel with
      | zero => omega
      | succ n =>
        have : l = [] := List.eq_nil_of_length_eq_zero z
        subst this
        simp only [ofTypePrevOrInvalidate, L.valid h2]
        simp only [List.length_nil, Nat.not_lt_zero, decide_false, Bool.false_eq_true, if_false]
        exact ⟨_, rfl, 0, h2, .inl rfl, rfl, fun h => absurd h (Nat.not_lt_zero _)⟩
    · exact ofTypePrevOrInvalidate_spec L B c h4 fuel (s := (t, s.2)) h2 (by omega) (by omega)
        (by rw [show l.length - 1 + 1 = l.length by omega]; exact shown_full (Nat.le_refl _))
  prev := by
    rintro s i ⟨j, h, ha, rfl, _⟩ h0 hi
    have hj : j < l.length := of_decide_eq_true ((at_valid ha).trans (decide_eq_true hi))
    have hj0 : j ≠ 0 := by intro z; subst z; simp [shown] at h0
    obtain ⟨t, h1, h2⟩ := B.prev h (by omega) hj
    simp only [ofType, h1, Option.bind_some]
    have := ofTypePrev_spec L B c fuel (s := (t, s.2)) h2 (by omega) (by omega) (by rw [show j - 1 + 1 = j by omega]; exact h0)
    rw [show j - 1 + 1 = j by omega] at this
    exact this

theorem ofType_prevEnd {R : Rng σ α} {rep : σ → Nat → Prop} {l : List α} (L : Fwd R rep l) (B : Bwd R rep l) (E : PrevEnd R rep l) (c : α → Option β) {fuel : Nat}
    (hf : l.length < fuel) : PrevEnd (ofType fuel R c) (ofTypeRep rep c l) (l.filterMap c) := by
  rintro s ⟨j, h, ha, e, _⟩ h0
  have hj : j = l.length := by
    rcases ha with z | ⟨h1, h2⟩
    · exact z
    · have := shown_lt h1 h2; omega
  subst hj
  have hl : 0 < l.length := by
    rcases Nat.eq_zero_or_pos l.length with z | z
    · rw [List.eq_nil_of_length_eq_zero z] at h0; simp at h0
    · exact z
  obtain ⟨t, h1, h2⟩ := E h hl
  simp only [ofType, h1, Option.bind_some]
  have := ofTypePrev_spec L B c fuel (s := (t, s.2)) h2 (by omega) (by omega) (by rw [show l.length - 1 + 1 = l.length by omega]; omega)
  rw [show l.length - 1 + 1 = l.length by omega, ← e] at this
  exact this

/-! ### Filter: as `OfType`, but without the cached element -/

/-- The cast that keeps what the predicate accepts. -/
def keep (p : α → Bool) (a : α) : Option α := if p a then some a else none

theorem keep_isSome (p : α → Bool) (a : α) : (keep p a).isSome = p a := by
  unfold keep; cases p a <;> rfl

theorem filterMap_keep (p : α → Bool) (l : List α) : l.filterMap (keep p) = l.filter p := by
  unfold keep
  rw [← List.filterMap_eq_filter]
  congr 1

def filterRep (rep : σ → Nat → Prop) (p : α → Bool) (l : List α) (s : σ) (i : Nat) : Prop := ∃ j, rep s j ∧ At (keep p) l j ∧ i = shown (keep p) l j

theorem findNext_spec {R : Rng σ α} {rep : σ → Nat → Prop} {l : List α} (L : Fwd R rep l) (p : α → Bool) (n : Nat) {s : σ} {j : Nat}
    (h : rep s j) (hn : l.length < n + j) : ∃ t, findNext R p n s = some t ∧ filterRep rep p l t (shown (keep p) l j) := by
  have hle := L.le h
  induction n generalizing s j with
  | zero => omega
  | succ n ih =>
    simp only [findNext, L.valid h]
    by_cases d : j < l.length
    · obtain ⟨t, h1, h2⟩ := L.get h d
      simp only [d, decide_true, if_true, h1]
      by_cases e : p l[j]
      · simp only [e, if_true]
        exact ⟨_, rfl, j, h2, .inr ⟨d, by rw [keep_isSome]; exact e⟩, rfl⟩
      · obtain ⟨u, g1, g2⟩ := L.next h2 d
        simp only [e, Bool.false_eq_true, if_false, g1, Option.bind_some]
        have := ih g2 (by omega) (L.le g2)
        rw [shown_succ d, keep_isSome, if_neg e, Nat.add_zero] at this
        exact this
    · simp only [d, decide_false, Bool.false_eq_true, if_false]
      exact ⟨s, rfl, j, h, .inl (by omega), rfl⟩

theorem findPrev_spec {R : Rng σ α} {rep : σ → Nat → Prop} {l : List α} (L : Fwd R rep l) (B : Bwd R rep l) (p : α → Bool) (n : Nat) {s : σ} {j : Nat}
    (h : rep s j) (hj : j < l.length) (hn : j < n) (hs : 0 < shown (keep p) l (j + 1)) :
    ∃ t, findPrev R p n s = some t ∧ filterRep rep p l t (shown (keep p) l (j + 1) - 1) := by
  induction n generalizing s j with
  | zero => omega
  | succ n ih =>
    obtain ⟨t, h1, h2⟩ := L.get h hj
    simp only [findPrev, L.valid h, hj, decide_true, if_true, h1]
    by_cases e : p l[j]
    · simp only [e, if_true]
      refine ⟨_, rfl, j, h2, .inr ⟨hj, by rw [keep_isSome]; exact e⟩, ?_⟩
      rw [shown_succ hj, keep_isSome, if_pos e]; rfl
    · have hsh : shown (keep p) l (j + 1) = shown (keep p) l j := by rw [shown_succ hj, keep_isSome, if_neg e]; rfl
      rw [hsh] at hs ⊢
      have h0 : j ≠ 0 := by intro z; subst z; simp [shown] at hs
      obtain ⟨u, g1, g2⟩ := B.prev h2 (by omega) hj
      simp only [e, Bool.false_eq_true, if_false, g1, Option.bind_some]
      have := ih g2 (by omega) (by omega) (by rw [show j - 1 + 1 = j by omega]; exact hs)
      rw [show j - 1 + 1 = j by omega] at this
      exact this

theorem findPrevOrInvalidate_spec {R : Rng σ α} {rep : σ → Nat → Prop} {l : List α} (L : Fwd R rep l) (B : Bwd R rep l) (p : α → Bool) {f : σ} (hf : rep f 0)
    (n : Nat) {s : σ} {j : Nat} (h : rep s j) (hj : j < l.length) (hn : j < n) (hrest : shown (keep p) l (j + 1) = (l.filterMap (keep p)).length) :
    ∃ t, findPrevOrInvalidate R p f n s = some t ∧ filterRep rep p l t ((l.filterMap (keep p)).length - 1) := by
  induction n generalizing s j with
  | zero => omega
  | succ n ih =>
    obtain ⟨t, h1, h2⟩ := L.get h hj
    simp only [findPrevOrInvalidate, L.valid h, hj, decide_true, if_true, h1]
    by_cases e : p l[j]
    · simp only [e, if_true]
      refine ⟨_, rfl, j, h2, .inr ⟨hj, by rw [keep_isSome]; exact e⟩, ?_⟩
      rw [shown_succ hj, keep_isSome, if_pos e] at hrest
      omega
    · rw [shown_succ hj, keep_isSome, if_neg e, Nat.add_zero] at hrest
      simp only [e, Bool.false_eq_true, if_false, L.equals h2 hf]
      by_cases z : j = 0
      · simp only [z, decide_true, if_true]
        obtain ⟨u, g1, g2⟩ := B.last h2
        obtain ⟨w, k1, k2⟩ := L.next g2 (by omega)
        simp only [g1, Option.bind_some, k1]
        refine ⟨_, rfl, l.length, ?_, .inl rfl, ?_⟩
        · rw [show l.length - 1 + 1 = l.length by omega] at k2; exact k2
        · rw [shown_full (Nat.le_refl _)]
          subst z
          simp [shown] at hrest
          omega
      · obtain ⟨u, g1, g2⟩ := B.prev h2 (by omega) hj
        simp only [z, decide_false, Bool.false_eq_true, if_false, g1, Option.bind_some]
        exact ih g2 (by omega) (by omega) (by rw [show j - 1 + 1 = j by omega]; exact hrest)

/-- The constructor of `Filter`, for a range at position `j`. -/
theorem filter_new {R : Rng σ α} {rep : σ → Nat → Prop} {l : List α} (L : Fwd R rep l) (p : α → Bool) {fuel : Nat} (hf : l.length < fuel) {s : σ} {j : Nat}
    (h : rep s j) : ∃ t, filterNew fuel R p s = some t ∧ filterRep rep p l t ((l.take j).filter p).length := by
  have := findNext_spec L p fuel h (by omega)
  rw [shown, filterMap_keep] at this
  exact this

/-- **C87.**  `Filter` shows the elements the predicate accepts, in their order. -/
theorem filter_fwd {R : Rng σ α} {rep : σ → Nat → Prop} {l : List α} (L : Fwd R rep l) (p : α → Bool) {fuel : Nat} (hf : l.length < fuel) :
    Fwd (filter fuel R p) (filterRep rep p l) (l.filter p) where
  le := by
    rintro s i ⟨j, h, ha, rfl⟩
    rw [← filterMap_keep]
    rcases ha with e | ⟨h1, h2⟩
    · rw [shown_full (by omega)]; exact Nat.le_refl _
    · exact Nat.le_of_lt (shown_lt h1 h2)
  valid := by
    rintro s i ⟨j, h, ha, rfl⟩
    rw [← filterMap_keep]
    simp only [filter, L.valid h]
    exact at_valid ha
  get := by
    rintro s i ⟨j, h, ha, rfl⟩ hi
    rw [← filterMap_keep] at hi
    have hj : j < l.length := of_decide_eq_true ((at_valid ha).trans (decide_eq_true hi))
    rcases ha with e | ⟨h1, h2⟩
    · omega
    · have e : keep p l[j] = some l[j] := by
        rw [keep_isSome] at h2; simp [keep, h2]
      have g := shown_get hj e
      rw [filterMap_keep] at g
      obtain ⟨_, g⟩ := List.getElem?_eq_some_iff.1 g
      obtain ⟨t, k1, k2⟩ := L.get h hj
      refine ⟨t, ?_, j, k2, .inr ⟨h1, h2⟩, rfl⟩
      simp only [filter, k1, g]
  equals := by
    rintro s t i i' ⟨j, h, ha, rfl⟩ ⟨k, g, ga, rfl⟩
    simp only [filter, L.equals h g, decide_eq_decide]
    exact ⟨fun e => by rw [e], at_inj ha ga⟩
  first := by
    rintro s i ⟨j, h, ha, rfl⟩
    obtain ⟨t, h1, h2⟩ := L.first h
    simp only [filter, h1, Option.bind_some]
    have := findNext_spec L p fuel h2 (by omega)
    simpa [shown] using this
  next := by
    rintro s i ⟨j, h, ha, rfl⟩ hi
    rw [← filterMap_keep] at hi
    have hj : j < l.length := of_decide_eq_true ((at_valid ha).trans (decide_eq_true hi))
    obtain ⟨t, h1, h2⟩ := L.next h hj
    simp only [filter, h1, Option.bind_some]
    have := findNext_spec L p fuel h2 (by omega)
    rcases ha with e | ⟨_, h2⟩
    · omega
    · rw [shown_succ hj, if_pos h2] at this; exact this

theorem filter_bwd {R : Rng σ α} {rep : σ → Nat → Prop} {l : List α} (L : Fwd R rep l) (B : Bwd R rep l) (p : α → Bool) {fuel : Nat} (hf : l.length < fuel) :
    Bwd (filter fuel R p) (filterRep rep p l) (l.filter p) where
  last := by
    rintro s i ⟨j, h, ha, rfl⟩
    rw [← filterMap_keep]
    obtain ⟨t, h1, h2⟩ := B.last h
    obtain ⟨f, h3, h4⟩ := L.first h2
    simp only [filter, h1, Option.bind_some, h3]
    by_cases z : l.length = 0
    · cases fuel with
      | zero => omega
      | succ n =>
        have : l = [] := List.eq_nil_of_length_eq_zero z
        subst this
        simp only [findPrevOrInvalidate, L.valid h2]
        simp only [List.length_nil, Nat.not_lt_zero, decide_false, Bool.false_eq_true, if_false]
        exact ⟨_, rfl, 0, h2, .inl rfl, rfl⟩
    · exact findPrevOrInvalidate_spec L B p h4 fuel h2 (by omega) (by omega)
        (by rw [show l.length - 1 + 1 = l.length by omega]; exact shown_full (Nat.le_refl _))
  prev := by
    rintro s i ⟨j, h, ha, rfl⟩ h0 hi
    rw [← filterMap_keep] at hi
    have hj : j < l.length := of_decide_eq_true ((at_valid ha).trans (decide_eq_true hi))
    have hj0 : j ≠ 0 := by intro z; subst z; simp [shown] at h0
    obtain ⟨t, h1, h2⟩ := B.prev h (by omega) hj
    simp only [filter, h1, Option.bind_some]
    have := findPrev_spec L B p fuel h2 (by omega) (by omega) (by rw [show j - 1 + 1 = j by omega]; exact h0)
    rw [show j - 1 + 1 = j by omega] at this
    exact this

theorem filter_prevEnd {R : Rng σ α} {rep : σ → Nat → Prop} {l : List α} (L : Fwd R rep l) (B : Bwd R rep l) (E : PrevEnd R rep l) (p : α → Bool) {fuel : Nat}
    (hf : l.length < fuel) : PrevEnd (filter fuel R p) (filterRep rep p l) (l.filter p) := by
  rintro s ⟨j, h, ha, e⟩ h0
  rw [← filterMap_keep] at h0 e ⊢
  have hj : j = l.length := by
    rcases ha with z | ⟨h1, h2⟩
    · exact z
    · have := shown_lt h1 h2; omega
  subst hj
  have hl : 0 < l.length := by
    rcases Nat.eq_zero_or_pos l.length with z | z
    · rw [List.eq_nil_of_length_eq_zero z] at h0; simp at h0
    · exact z
  obtain ⟨t, h1, h2⟩ := E h hl
  simp only [filter, h1, Option.bind_some]
  have := findPrev_spec L B p fuel h2 (by omega) (by omega) (by rw [show l.length - 1 + 1 = l.length by omega]; omega)
  rw [show l.length - 1 + 1 = l.length by omega, ← e] at this
  exact this

/-- **C87 violated.**  `Prev` at the first element: an `IteratorRange` throws and stays; `Filter` throws as well, but it has moved to an element the
predicate rejects, and shows it.  (`RangeFilter` calls `_impl.Prev()` first; the exception comes from the second call.) -/
theorem filter_prev_first_violated : ∃ (l : List Nat) (p : Nat → Bool) (s t : Iter), filterRep (iterRep 0 2) p l s 0 ∧
    (filter 9 (iterRange l) p).prev s = none ∧ (iterRange l).prev s = some t ∧ ∃ a u, (iterRange l).get t = some (a, u) ∧ p a = false :=
  ⟨[1, 2], (· == 2), ⟨0, 1, 2⟩, ⟨0, 0, 2⟩, ⟨1, ⟨rfl, rfl, rfl, by omega⟩, .inr ⟨by decide, rfl⟩, rfl⟩, by decide, by decide, 1, ⟨0, 0, 2⟩, by decide, rfl⟩

end Verif.Range
