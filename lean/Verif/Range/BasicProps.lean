import Verif.Range.Spec
/-
C87: `IteratorRange`, `RangeSingle`, `RangeTransformer`, `RangeDropper`, `RangeTaker`, `RangeReverser`, and what a lawful range
gives its user.
-/
namespace Verif.Range

variable {σ τ α β γ : Type}

/-- The elements of an `IteratorRange`. -/
def Spec.slice (mem : List α) (b e : Nat) : List α := (mem.drop b).take (e - b)

/-- `IteratorRange`s from `b` to `e`. -/
def iterRep (b e : Nat) (s : Iter) (i : Nat) : Prop := s.b = b ∧ s.e = e ∧ s.it = b + i ∧ b + i ≤ e

theorem slice_length {mem : List α} {b e : Nat} (h : b ≤ e) (he : e ≤ mem.length) : (Spec.slice mem b e).length = e - b := by
  simp [Spec.slice]; omega

theorem slice_get {mem : List α} {b e i : Nat} (he : e ≤ mem.length) (hi : i < e - b) : mem[b + i]? = (Spec.slice mem b e)[i]? := by
  simp only [Spec.slice]
  rw [List.getElem?_take_of_lt hi, List.getElem?_drop]

/-- **C87.**  An `IteratorRange` is a range over the elements between its iterators. -/
theorem iter_fwd {mem : List α} {b e : Nat} (h : b ≤ e) (he : e ≤ mem.length) : Fwd (iterRange mem) (iterRep b e) (Spec.slice mem b e) where
  le := by intro s i hr; rw [slice_length h he]; unfold iterRep at hr; omega
  valid := by
    intro s i hr; rw [slice_length h he]
    obtain ⟨h1, h2, h3, h4⟩ := hr
    simp only [iterRange]
    by_cases c : i < e - b
    · simp only [c, decide_true, bne_iff_ne, ne_eq]; omega
    · simp only [c, decide_false, bne_eq_false_iff_eq]; omega
  get := by
    intro s i hr hi
    have hl := slice_length h he
    obtain ⟨h1, h2, h3, h4⟩ := hr
    have hne : s.it ≠ s.e := by omega
    refine ⟨s, ?_, h1, h2, h3, h4⟩
    have hg : mem[s.it]? = some (Spec.slice mem b e)[i] := by rw [h3, slice_get he (by omega), List.getElem?_eq_getElem hi]
    simp only [iterRange, hne, ne_eq, not_false_eq_true, if_true, hg, Option.map_some]
  equals := by
    intro s t i j hs ht
    obtain ⟨h1, h2, h3, h4⟩ := hs
    obtain ⟨g1, g2, g3, g4⟩ := ht
    cases s; cases t
    simp only [iterRange, Iter.mk.injEq] at *
    subst h1 h2 h3 g1 g2 g3
    by_cases c : i = j
    · simp [c]
    · simp only [c, decide_false, decide_eq_false_iff_not]; omega
  first := by
    intro s i hr
    obtain ⟨h1, h2, h3, h4⟩ := hr
    exact ⟨_, rfl, h1, h2, by simp only []; omega, by omega⟩
  next := by
    intro s i hr hi
    have hl := slice_length h he
    obtain ⟨h1, h2, h3, h4⟩ := hr
    have hne : s.it ≠ s.e := by omega
    exact ⟨{ s with it := s.it + 1 }, by simp only [iterRange, hne, ne_eq, not_false_eq_true, if_true], h1, h2, by simp only []; omega, by omega⟩

theorem iter_bwd {mem : List α} {b e : Nat} (h : b ≤ e) (he : e ≤ mem.length) : Bwd (iterRange mem) (iterRep b e) (Spec.slice mem b e) where
  last := by
    intro s i hr
    have hl := slice_length h he
    obtain ⟨h1, h2, h3, h4⟩ := hr
    by_cases c : s.e = s.b
    · exact ⟨{ s with it := s.e }, by simp [iterRange, c], h1, h2, by simp only []; omega, by omega⟩
    · exact ⟨{ s with it := s.e - 1 }, by simp [iterRange, c], h1, h2, by simp only []; omega, by omega⟩
  prev := by
    intro s i hr h0 hi
    obtain ⟨h1, h2, h3, h4⟩ := hr
    have : s.it ≠ s.b := by omega
    exact ⟨{ s with it := s.it - 1 }, by simp [iterRange, this], h1, h2, by simp only []; omega, by omega⟩

theorem iter_prevEnd {mem : List α} {b e : Nat} (h : b ≤ e) (he : e ≤ mem.length) : PrevEnd (iterRange mem) (iterRep b e) (Spec.slice mem b e) := by
  intro s hr h0
  have hl := slice_length h he
  obtain ⟨h1, h2, h3, h4⟩ := hr
  have : s.it ≠ s.b := by omega
  exact ⟨{ s with it := s.it - 1 }, by simp [iterRange, this], h1, h2, by simp only []; omega, by omega⟩

theorem moveCheck_iff {p n : Nat} {d : Int} (hp : p ≤ n) (hn : (n : Int) < 9223372036854775808) (h1 : -9223372036854775808 ≤ d) (h2 : d ≤ 9223372036854775807) :
    moveCheck p n d = decide (0 ≤ (p : Int) + d ∧ (p : Int) + d ≤ n) := by
  unfold moveCheck
  rw [decide_eq_decide]
  omega

/-- Random access of an `IteratorRange`. -/
theorem iter_access {b e : Nat} (h : b ≤ e) (he : (e : Int) < 9223372036854775808) : Access iterAccess (iterRep b e) (e - b) where
  position := by intro s i ⟨h1, h2, h3, h4⟩; simp only [iterAccess]; omega
  size := by intro s i ⟨h1, h2, h3, h4⟩; simp only [iterAccess]; omega
  move := by
    intro s i d ⟨h1, h2, h3, h4⟩ a b'
    refine ⟨{ s with it := ((s.it : Int) + d).toNat }, ?_, h1, h2, by simp only []; omega, by omega⟩
    simp only [iterAccess]
    have hc : moveCheck (s.it - s.b) (s.e - s.b) d = true := by unfold moveCheck; rw [decide_eq_true_iff]; omega
    rw [hc]; rfl
  out := by
    intro s i d ⟨h1, h2, h3, h4⟩ a b' c
    simp only [iterAccess]
    have hc : moveCheck (s.it - s.b) (s.e - s.b) d = false := by unfold moveCheck; rw [decide_eq_false_iff_not]; omega
    rw [hc]; rfl

def singleRep (v : α) (s : α × Bool) (i : Nat) : Prop := s.1 = v ∧ ((s.2 = true ∧ i = 0) ∨ (s.2 = false ∧ i = 1))

/-- **C87.**  `RangeSingle`. -/
theorem single_fwd [DecidableEq α] (v : α) : Fwd single (singleRep v) [v] where
  le := by rintro s i ⟨h, ⟨h1, h2⟩ | ⟨h1, h2⟩⟩ <;> simp [h2]
  valid := by rintro s i ⟨h, ⟨h1, h2⟩ | ⟨h1, h2⟩⟩ <;> simp [single, h1, h2]
  get := by
    rintro s i ⟨h, ⟨h1, h2⟩ | ⟨h1, h2⟩⟩ hi
    · subst h2; exact ⟨s, by simp [single, h1, h], h, .inl ⟨h1, rfl⟩⟩
    · subst h2; simp at hi
  equals := by
    rintro s t i j ⟨h, ⟨h1, h2⟩ | ⟨h1, h2⟩⟩ ⟨g, ⟨g1, g2⟩ | ⟨g1, g2⟩⟩ <;> simp [single, h1, h2, g1, g2, h, g]
  first := by rintro s i ⟨h, _⟩; exact ⟨_, rfl, h, .inl ⟨rfl, rfl⟩⟩
  next := by
    rintro s i ⟨h, ⟨h1, h2⟩ | ⟨h1, h2⟩⟩ hi
    · subst h2; exact ⟨(s.1, false), by simp [single, h1], h, .inr ⟨rfl, rfl⟩⟩
    · subst h2; simp at hi

theorem single_bwd [DecidableEq α] (v : α) : Bwd single (singleRep v) [v] where
  last := by rintro s i ⟨h, _⟩; exact ⟨_, rfl, h, .inl ⟨rfl, rfl⟩⟩
  prev := by rintro s i _ h0 h1; simp at h1; omega

theorem single_prevEnd [DecidableEq α] (v : α) : PrevEnd single (singleRep v) [v] := by
  rintro s ⟨h, ⟨h1, h2⟩ | ⟨h1, h2⟩⟩ _
  · simp at h2
  · exact ⟨(s.1, true), by simp [single, h1], h, .inl ⟨rfl, rfl⟩⟩

theorem single_access (v : α) : Access singleAccess (singleRep v) 1 where
  position := by rintro s i ⟨h, ⟨h1, h2⟩ | ⟨h1, h2⟩⟩ <;> simp [singleAccess, h1, h2]
  size := by intros; rfl
  move := by
    rintro s i d ⟨h, ⟨h1, h2⟩ | ⟨h1, h2⟩⟩ a b <;> subst h2 <;> simp only [singleAccess, h1, if_true, Bool.false_eq_true, if_false]
    · have hc : moveCheck 0 1 d = true := by unfold moveCheck; rw [decide_eq_true_iff]; omega
      rw [hc]
      refine ⟨_, rfl, h, ?_⟩
      simp only [decide_eq_true_iff, decide_eq_false_iff_not]
      omega
    · have hc : moveCheck 1 1 d = true := by unfold moveCheck; rw [decide_eq_true_iff]; omega
      rw [hc]
      refine ⟨_, rfl, h, ?_⟩
      simp only [decide_eq_true_iff, decide_eq_false_iff_not]
      omega
  out := by
    rintro s i d ⟨h, ⟨h1, h2⟩ | ⟨h1, h2⟩⟩ a b c <;> subst h2 <;> simp only [singleAccess, h1, if_true, Bool.false_eq_true, if_false]
    · have hc : moveCheck 0 1 d = false := by unfold moveCheck; rw [decide_eq_false_iff_not]; omega
      rw [hc]; rfl
    · have hc : moveCheck 1 1 d = false := by unfold moveCheck; rw [decide_eq_false_iff_not]; omega
      rw [hc]; rfl

/-! ### Transform -/

def transformRep (rep : σ → Nat → Prop) (l : List α) (g : α → β) (s : σ × Option β) (i : Nat) : Prop :=
  rep s.1 i ∧ ∀ v, s.2 = some v → (l.map g)[i]? = some v

/-- **C87.**  `Transform` (and `Cast`) shows the images of the elements, if the functor does not throw for any of them; the
cache never shows the image of another element. -/
theorem transform_fwd {R : Rng σ α} {rep : σ → Nat → Prop} {l : List α} {f : α → Option β} {g : α → β} (L : Fwd R rep l) (hf : ∀ a ∈ l, f a = some (g a)) :
    Fwd (transform R f) (transformRep rep l g) (l.map g) where
  le := by intro s i h; rw [List.length_map]; exact L.le h.1
  valid := by intro s i h; rw [List.length_map]; exact L.valid h.1
  get := by
    intro s i h hi
    rw [List.length_map] at hi
    cases c : s.2 with
    | some v =>
      refine ⟨s, ?_, h⟩
      have := h.2 v c
      rw [List.getElem?_eq_getElem (by rw [List.length_map]; exact hi)] at this
      simp only [transform, c, Option.some.injEq] at *
      rw [this]
    | none =>
      obtain ⟨t, h1, h2⟩ := L.get h.1 hi
      refine ⟨(t, some (g l[i])), ?_, h2, ?_⟩
      · simp only [transform, c, h1, Option.bind_some, hf _ (List.getElem_mem hi), Option.map_some, List.getElem_map]
      · intro v hv
        cases hv
        simp [List.getElem?_eq_getElem hi]
  equals := by intro s t i j h1 h2; exact L.equals h1.1 h2.1
  first := by
    intro s i h
    obtain ⟨t, h1, h2⟩ := L.first h.1
    exact ⟨(t, none), by simp only [transform, h1, Option.map_some], h2, by intro v hv; cases hv⟩
  next := by
    intro s i h hi
    rw [List.length_map] at hi
    obtain ⟨t, h1, h2⟩ := L.next h.1 hi
    exact ⟨(t, none), by simp only [transform, h1, Option.map_some], h2, by intro v hv; cases hv⟩

theorem transform_bwd {R : Rng σ α} {rep : σ → Nat → Prop} {l : List α} {f : α → Option β} {g : α → β} (L : Bwd R rep l) :
    Bwd (transform R f) (transformRep rep l g) (l.map g) where
  last := by
    intro s i h
    obtain ⟨t, h1, h2⟩ := L.last h.1
    exact ⟨(t, none), by simp only [transform, h1, Option.map_some], by rw [List.length_map]; exact h2, by intro v hv; cases hv⟩
  prev := by
    intro s i h h0 hi
    rw [List.length_map] at hi
    obtain ⟨t, h1, h2⟩ := L.prev h.1 h0 hi
    exact ⟨(t, none), by simp only [transform, h1, Option.map_some], h2, by intro v hv; cases hv⟩

theorem transform_prevEnd {R : Rng σ α} {rep : σ → Nat → Prop} {l : List α} {f : α → Option β} {g : α → β} (L : PrevEnd R rep l) :
    PrevEnd (transform R f) (transformRep rep l g) (l.map g) := by
  intro s h h0
  rw [List.length_map] at h h0 ⊢
  obtain ⟨t, h1, h2⟩ := L h.1 h0
  exact ⟨(t, none), by simp only [transform, h1, Option.map_some], h2, by intro v hv; cases hv⟩

theorem transform_access {A : RandomAccess σ} {rep : σ → Nat → Prop} {l : List α} {g : α → β} (L : Access A rep l.length) :
    Access (transformAccess A) (transformRep rep l g) l.length where
  position h := L.position h.1
  size h := L.size h.1
  move := by
    intro s i d h h0 hi
    obtain ⟨t, h1, h2⟩ := L.move h.1 h0 hi
    exact ⟨(t, none), by simp only [transformAccess, h1, Option.map_some], h2, by intro v hv; cases hv⟩
  out := by
    intro s i d h a b c
    simp only [transformAccess, L.out h.1 a b c, Option.map_none]

/-! ### Drop -/

def dropRep (rep : σ → Nat → Prop) (k : Nat) (s : σ × σ) (i : Nat) : Prop := rep s.1 k ∧ rep s.2 (k + i)

theorem doDrop_spec {R : Rng σ α} {rep : σ → Nat → Prop} {l : List α} (L : Fwd R rep l) (n : Nat) {s : σ} {j : Nat} (h : rep s j) :
    ∃ t, doDrop R n s = some t ∧ rep t (min (j + n) l.length) := by
  induction n generalizing s j with
  | zero => exact ⟨s, rfl, by have := L.le h; rw [Nat.add_zero, Nat.min_eq_left this]; exact h⟩
  | succ n ih =>
    simp only [doDrop, L.valid h]
    by_cases c : j < l.length
    · simp only [c, decide_true, if_true]
      obtain ⟨t, h1, h2⟩ := L.next h c
      obtain ⟨u, h3, h4⟩ := ih h2
      exact ⟨u, by rw [h1]; exact h3, by rw [show j + (n + 1) = j + 1 + n by omega]; exact h4⟩
    · simp only [c, decide_false, Bool.false_eq_true, if_false]
      have := L.le h
      exact ⟨s, rfl, by rw [show min (j + (n + 1)) l.length = j by omega]; exact h⟩

/-- The constructor of `Drop`, for a range at position `j`. -/
theorem drop_new {R : Rng σ α} {rep : σ → Nat → Prop} {l : List α} (L : Fwd R rep l) (n : Nat) {s : σ} {j : Nat} (h : rep s j) :
    ∃ t, dropNew R s n = some t ∧ dropRep rep (min (j + n) l.length) t 0 := by
  obtain ⟨t, h1, h2⟩ := doDrop_spec L n h
  exact ⟨(t, t), by simp only [dropNew, h1, Option.map_some], h2, h2⟩

/-- **C87.**  `Drop` shows the elements after the dropped ones. -/
theorem drop_fwd {R : Rng σ α} {rep : σ → Nat → Prop} {l : List α} (L : Fwd R rep l) (k : Nat) : Fwd (drop R) (dropRep rep k) (l.drop k) where
  le := by intro s i h; have := L.le h.2; rw [List.length_drop]; omega
  valid := by
    intro s i h
    simp only [drop, L.valid h.2, List.length_drop, decide_eq_decide]; omega
  get := by
    intro s i h hi
    rw [List.length_drop] at hi
    obtain ⟨t, h1, h2⟩ := L.get h.2 (by omega)
    exact ⟨(s.1, t), by simp only [drop, h1, Option.map_some, List.getElem_drop], h.1, h2⟩
  equals := by
    intro s t i j h1 h2
    simp only [drop, L.equals h1.1 h2.1, L.equals h1.2 h2.2, decide_true, Bool.true_and, decide_eq_decide]; omega
  first := by intro s i h; exact ⟨(s.1, s.1), rfl, h.1, h.1⟩
  next := by
    intro s i h hi
    rw [List.length_drop] at hi
    obtain ⟨t, h1, h2⟩ := L.next h.2 (by omega)
    exact ⟨(s.1, t), by simp only [drop, h1, Option.map_some], h.1, h2⟩

theorem drop_bwd {R : Rng σ α} {rep : σ → Nat → Prop} {l : List α} (L : Fwd R rep l) (B : Bwd R rep l) (k : Nat) : Bwd (drop R) (dropRep rep k) (l.drop k) where
  last := by
    intro s i h
    have hk := L.le h.1
    simp only [drop, L.valid h.1]
    by_cases c : k < l.length
    · obtain ⟨t, h1, h2⟩ := B.last h.2
      simp only [c, decide_true, if_true, h1, Option.map_some]
      refine ⟨_, rfl, h.1, ?_⟩
      rw [List.length_drop, show k + (l.length - k - 1) = l.length - 1 by omega]; exact h2
    · simp only [c, decide_false, Bool.false_eq_true, if_false]
      refine ⟨_, rfl, h.1, ?_⟩
      rw [List.length_drop, show k + (l.length - k - 1) = k by omega]; exact h.1
  prev := by
    intro s i h h0 hi
    rw [List.length_drop] at hi
    obtain ⟨t, h1, h2⟩ := B.prev h.2 (by omega) (by omega)
    have : ¬ k + i = k := by omega
    refine ⟨(s.1, t), ?_, h.1, by rw [show k + (i - 1) = k + i - 1 by omega]; exact h2⟩
    simp only [drop, L.equals h.2 h.1, this, decide_false, Bool.not_false, if_true, h1, Option.map_some]

theorem drop_prevEnd {R : Rng σ α} {rep : σ → Nat → Prop} {l : List α} (L : Fwd R rep l) (B : PrevEnd R rep l) (k : Nat) :
    PrevEnd (drop R) (dropRep rep k) (l.drop k) := by
  intro s h h0
  rw [List.length_drop] at h h0 ⊢
  have e : k + (l.length - k) = l.length := by omega
  obtain ⟨t, h1, h2⟩ := B (by have := h.2; rw [e] at this; exact this) (by omega)
  have : ¬ k + (l.length - k) = k := by omega
  refine ⟨(s.1, t), ?_, h.1, by rw [show k + (l.length - k - 1) = l.length - 1 by omega]; exact h2⟩
  simp only [drop, L.equals h.2 h.1, this, decide_false, Bool.not_false, if_true, h1, Option.map_some]

theorem drop_access {A : RandomAccess σ} {rep : σ → Nat → Prop} {n : Nat} (hle : ∀ {s i}, rep s i → i ≤ n) (hn : (n : Int) < 9223372036854775808)
    (L : Access A rep n) (k : Nat) : Access (dropAccess A) (dropRep rep k) (n - k) where
  position := by intro s i h; simp only [dropAccess, L.position h.1, L.position h.2]; omega
  size := by intro s i h; have := hle h.1; simp only [dropAccess, L.position h.1, L.size h.2]; omega
  move := by
    intro s i d h h0 hi
    have hk := hle h.1
    obtain ⟨t, h1, h2⟩ := L.move (d := d) h.2 (by omega) (by omega)
    simp only [dropAccess, L.position h.1, L.position h.2, L.size h.2]
    have hc : moveCheck (((k + i : Nat) : Int) - (k : Int)) ((n : Int) - (k : Int)) d = true := by unfold moveCheck; rw [decide_eq_true_iff]; omega
    rw [hc, if_pos rfl, h1]
    exact ⟨(s.1, t), rfl, h.1, by rw [show k + ((i : Int) + d).toNat = (((k + i : Nat) : Int) + d).toNat by omega]; exact h2⟩
  out := by
    intro s i d h a b c
    have hk := hle h.1
    have hk2 := hle h.2
    simp only [dropAccess, L.position h.1, L.position h.2, L.size h.2]
    have hc : moveCheck (((k + i : Nat) : Int) - (k : Int)) ((n : Int) - (k : Int)) d = false := by unfold moveCheck; rw [decide_eq_false_iff_not]; omega
    rw [hc]; rfl

/-! ### Take -/

def takeRep (rep : σ → Nat → Prop) (l : List α) (j c : Nat) (s : TakeSt σ) (i : Nat) : Prop :=
  rep s.initial j ∧ rep s.impl (j + i) ∧ s.index = i ∧ s.count = c ∧ i ≤ c

theorem take_new {rep : σ → Nat → Prop} {l : List α} (c : Nat) {s : σ} {j : Nat} (h : rep s j) : takeRep rep l j c (takeNew s c) 0 :=
  ⟨h, h, rfl, rfl, Nat.zero_le _⟩

theorem take_valid {R : Rng σ α} {rep : σ → Nat → Prop} {l : List α} (L : Fwd R rep l) {j c : Nat} {s : TakeSt σ} {i : Nat} (h : takeRep rep l j c s i) :
    takeValid R s = decide (i < ((l.drop j).take c).length) := by
  obtain ⟨h1, h2, h3, h4, h5⟩ := h
  have := L.le h1
  have := L.le h2
  simp only [takeValid, L.valid h2, List.length_take, List.length_drop, h3, h4]
  rw [← Bool.decide_and, decide_eq_decide]
  omega

theorem take_next {R : Rng σ α} {rep : σ → Nat → Prop} {l : List α} (L : Fwd R rep l) {j c : Nat} {s : TakeSt σ} {i : Nat} (h : takeRep rep l j c s i)
    (hi : i < ((l.drop j).take c).length) : ∃ t, takeNext R s = some t ∧ takeRep rep l j c t (i + 1) := by
  have hv := take_valid L h
  rw [decide_eq_true hi] at hv
  obtain ⟨h1, h2, h3, h4, h5⟩ := h
  simp only [List.length_take, List.length_drop] at hi
  obtain ⟨t, g1, g2⟩ := L.next h2 (by omega)
  exact ⟨{ s with impl := t, index := s.index + 1 }, by simp only [takeNext, hv, if_true, g1, Option.map_some], h1, g2, by simp only [h3], h4, by omega⟩

/-- **C87.**  `Take` shows at most `c` elements from where it was constructed. -/
theorem take_fwd {R : Rng σ α} {rep : σ → Nat → Prop} {l : List α} (L : Fwd R rep l) (j c : Nat) : Fwd (take R) (takeRep rep l j c) ((l.drop j).take c) where
  le := by
    intro s i h
    obtain ⟨h1, h2, h3, h4, h5⟩ := h
    have := L.le h2
    simp only [List.length_take, List.length_drop]; omega
  valid := fun h => take_valid L h
  get := by
    intro s i h hi
    have hv := take_valid L h
    rw [decide_eq_true hi] at hv
    obtain ⟨h1, h2, h3, h4, h5⟩ := h
    have hi' := hi
    simp only [List.length_take, List.length_drop] at hi'
    obtain ⟨t, g1, g2⟩ := L.get h2 (by omega)
    refine ⟨{ s with impl := t }, ?_, h1, g2, h3, h4, h5⟩
    simp only [take, hv, if_true, g1, Option.map_some, List.getElem_take, List.getElem_drop]
  equals := by
    intro s t i i' h g
    obtain ⟨h1, h2, h3, h4, h5⟩ := h
    obtain ⟨g1, g2, g3, g4, g5⟩ := g
    simp only [take, L.equals h1 g1, L.equals h2 g2, h3, h4, g3, g4, decide_true, Bool.true_and, beq_self_eq_true, Bool.and_true]
    by_cases e : i = i'
    · subst e; simp
    · have : ¬ j + i = j + i' := by omega
      simp [e, this]
  first := by
    intro s i h
    obtain ⟨h1, h2, h3, h4, h5⟩ := h
    exact ⟨_, rfl, h1, h1, rfl, h4, Nat.zero_le _⟩
  next := fun h hi => take_next L h hi

theorem take_lastLoop {R : Rng σ α} {rep : σ → Nat → Prop} {l : List α} (L : Fwd R rep l) (j c : Nat) (n : Nat) {s p : TakeSt σ} {i : Nat}
    (h : takeRep rep l j c s i) (hp : takeRep rep l j c p (min i (((l.drop j).take c).length - 1))) (hn : ((l.drop j).take c).length < n + i) :
    ∃ t, takeLastLoop R n s p = some t ∧ takeRep rep l j c t (((l.drop j).take c).length - 1) := by
  have hle := (take_fwd L j c).le h
  induction n generalizing s p i with
  | zero => omega
  | succ n ih =>
    simp only [takeLastLoop, take_valid L h]
    by_cases d : i < ((l.drop j).take c).length
    · simp only [d, decide_true, if_true]
      obtain ⟨t, h1, h2⟩ := take_next L h d
      simp only [h1, Option.bind_some, take_valid L h2]
      by_cases e : i + 1 < ((l.drop j).take c).length
      · simp only [e, decide_true, if_true]
        obtain ⟨q, g1, g2⟩ := take_next L hp (by omega)
        simp only [g1, Option.bind_some]
        refine ih h2 ?_ (by omega) ((take_fwd L j c).le h2)
        rw [show min (i + 1) (((l.drop j).take c).length - 1) = min i (((l.drop j).take c).length - 1) + 1 by omega]
        exact g2
      · simp only [e, decide_false, Bool.false_eq_true, if_false]
        refine ih h2 ?_ (by omega) ((take_fwd L j c).le h2)
        rw [show min (i + 1) (((l.drop j).take c).length - 1) = min i (((l.drop j).take c).length - 1) by omega]
        exact hp
    · simp only [d, decide_false, Bool.false_eq_true, if_false]
      refine ⟨p, rfl, ?_⟩
      rw [show min i (((l.drop j).take c).length - 1) = ((l.drop j).take c).length - 1 by omega] at hp
      exact hp

theorem take_bwd {R : Rng σ α} {rep : σ → Nat → Prop} {l : List α} (L : Fwd R rep l) (B : Bwd R rep l) (j c : Nat) :
    Bwd (take R) (takeRep rep l j c) ((l.drop j).take c) where
  last := by
    intro s i h
    obtain ⟨h1, h2, h3, h4, h5⟩ := h
    have h0 : takeRep rep l j c { s with impl := s.initial, index := 0 } 0 := ⟨h1, h1, rfl, h4, Nat.zero_le _⟩
    have hl : ((l.drop j).take c).length ≤ c := by simp only [List.length_take]; omega
    obtain ⟨t, g1, g2⟩ := take_lastLoop L j c (s.count + 1) h0 (by rw [Nat.zero_min]; exact h0) (by omega)
    obtain ⟨k1, k2, k3, k4, k5⟩ := g2
    exact ⟨{ s with impl := t.impl, index := t.index }, by simp only [take, g1, Option.map_some], h1, k2, k3, h4, k5⟩
  prev := by
    intro s i h h0 hi
    obtain ⟨h1, h2, h3, h4, h5⟩ := h
    simp only [List.length_take, List.length_drop] at hi
    obtain ⟨t, g1, g2⟩ := B.prev h2 (by omega) (by omega)
    refine ⟨{ s with impl := t, index := s.index - 1 }, ?_, h1, by rw [show j + (i - 1) = j + i - 1 by omega]; exact g2, by simp only []; omega, h4, by omega⟩
    have : s.index > 0 := by omega
    simp only [take, this, if_true, g1, Option.map_some]

theorem take_prevEnd {R : Rng σ α} {rep : σ → Nat → Prop} {l : List α} (B : Bwd R rep l) (E : PrevEnd R rep l) (j c : Nat) :
    PrevEnd (take R) (takeRep rep l j c) ((l.drop j).take c) := by
  intro s h h0
  obtain ⟨h1, h2, h3, h4, h5⟩ := h
  simp only [List.length_take, List.length_drop] at *
  have : s.index > 0 := by omega
  have key : ∃ t, R.prev s.impl = some t ∧ rep t (j + min c (l.length - j) - 1) := by
    by_cases e : j + min c (l.length - j) < l.length
    · exact B.prev h2 (by omega) e
    · have e' : j + min c (l.length - j) = l.length := by omega
      rw [e'] at h2 ⊢
      exact E h2 (by omega)
  obtain ⟨t, g1, g2⟩ := key
  refine ⟨{ s with impl := t, index := s.index - 1 }, ?_, h1, by rw [show j + (min c (l.length - j) - 1) = j + min c (l.length - j) - 1 by omega]; exact g2, by simp only []; omega, h4, by omega⟩
  simp only [take, this, if_true, g1, Option.map_some]

theorem take_access {A : RandomAccess σ} {rep : σ → Nat → Prop} {l : List α} (hle : ∀ {s i}, rep s i → i ≤ l.length) (hn : (l.length : Int) < 9223372036854775808)
    (L : Access A rep l.length) (j c : Nat) : Access (takeAccess A) (takeRep rep l j c) (((l.drop j).take c).length) where
  position := by intro s i h; simp only [takeAccess]; rw [h.2.2.1]
  size := by
    intro s i h
    have := hle h.1
    simp only [takeAccess, L.position h.1, L.size h.1, h.2.2.2.1, List.length_take, List.length_drop]; omega
  move := by
    intro s i d h h0 hi
    have hj := hle h.1
    simp only [takeAccess, L.position h.1, L.size h.1, h.2.2.2.1, h.2.2.1]
    simp only [List.length_take, List.length_drop] at hi
    obtain ⟨t, h1, h2⟩ := L.move (d := d) h.2.1 (by omega) (by omega)
    have hc : moveCheck i (min ((l.length : Int) - (j : Int)) (c : Int)) d = true := by unfold moveCheck; rw [decide_eq_true_iff]; omega
    rw [hc, if_pos rfl, h1]
    refine ⟨_, rfl, h.1, ?_, rfl, rfl, by omega⟩
    rw [show j + ((i : Int) + d).toNat = (((j + i : Nat) : Int) + d).toNat by omega]; exact h2
  out := by
    intro s i d h a b e
    have hj := hle h.1
    simp only [takeAccess, L.position h.1, L.size h.1, h.2.2.2.1, h.2.2.1]
    simp only [List.length_take, List.length_drop] at e
    have := h.2.2.2.2
    have := hle h.2.1
    have hc : moveCheck i (min ((l.length : Int) - (j : Int)) (c : Int)) d = false := by unfold moveCheck; rw [decide_eq_false_iff_not]; omega
    rw [hc]; rfl

/-! ### Reverse -/

def reverseRep (rep : σ → Nat → Prop) (n : Nat) (s : σ × Bool) (i : Nat) : Prop :=
  (s.2 = false ∧ i < n ∧ rep s.1 (n - 1 - i)) ∨ (s.2 = true ∧ i = n ∧ 0 < n ∧ rep s.1 0) ∨ (s.2 = false ∧ n = 0 ∧ i = 0 ∧ rep s.1 0)

theorem reverse_new {R : Rng σ α} {rep : σ → Nat → Prop} {l : List α} (B : Bwd R rep l) {s : σ} {j : Nat} (h : rep s j) :
    ∃ t, reverseNew R s = some t ∧ reverseRep rep l.length t 0 := by
  obtain ⟨t, h1, h2⟩ := B.last h
  refine ⟨(t, false), by simp only [reverseNew, h1, Option.map_some], ?_⟩
  by_cases e : l.length = 0
  · rw [e] at h2; exact .inr (.inr ⟨rfl, e, rfl, h2⟩)
  · exact .inl ⟨rfl, by omega, by simpa using h2⟩

/-- **C87.**  `Reverse` shows the elements from the last to the first. -/
theorem reverse_fwd {R : Rng σ α} {rep : σ → Nat → Prop} {l : List α} (L : Fwd R rep l) (B : Bwd R rep l) : Fwd (reverse R) (reverseRep rep l.length) l.reverse where
  le := by
    intro s i h
    rw [List.length_reverse]
    rcases h with ⟨_, h, _⟩ | ⟨_, h, _⟩ | ⟨_, _, h, _⟩ <;> omega
  valid := by
    intro s i h
    rw [List.length_reverse]
    rcases h with ⟨a, h, r⟩ | ⟨a, h, _, r⟩ | ⟨a, h, e, r⟩
    · have : l.length - 1 - i < l.length := by omega
      simp [reverse, a, h, L.valid r, this]
    · have : ¬ i < l.length := by omega
      simp [reverse, a, this]
    · simp [reverse, a, L.valid r, h]
  get := by
    intro s i h hi
    rw [List.length_reverse] at hi
    rcases h with ⟨a, h, r⟩ | ⟨a, h, _, r⟩ | ⟨a, h, e, r⟩
    · obtain ⟨t, h1, h2⟩ := L.get r (by omega)
      refine ⟨(t, s.2), ?_, .inl ⟨a, h, h2⟩⟩
      simp only [reverse, a, Bool.not_false, if_true, h1, Option.map_some, List.getElem_reverse]
    · omega
    · omega
  equals := by
    intro s t i j h g
    simp only [reverse]
    rcases h with ⟨a, h, r⟩ | ⟨a, h, h', r⟩ | ⟨a, h, e, r⟩ <;> rcases g with ⟨a', g, r'⟩ | ⟨a', g, g', r'⟩ | ⟨a', g, e', r'⟩ <;> rw [L.equals r r', a, a']
    · by_cases c : i = j
      · simp [c]
      · have : ¬ l.length - 1 - i = l.length - 1 - j := by omega
        simp [c, this]
    · have : ¬ i = j := by omega
      simp [this]
    · omega
    · have : ¬ i = j := by omega
      simp [this]
    · simp [h, g]
    · omega
    · omega
    · omega
    · simp [e, e']
  first := by
    intro s i h
    have : ∃ j, rep s.1 j := by rcases h with ⟨_, _, r⟩ | ⟨_, _, _, r⟩ | ⟨_, _, _, r⟩ <;> exact ⟨_, r⟩
    obtain ⟨j, r⟩ := this
    exact reverse_new B r
  next := by
    intro s i h hi
    rw [List.length_reverse] at hi
    rcases h with ⟨a, h, r⟩ | ⟨a, h, _, r⟩ | ⟨a, h, e, r⟩
    · obtain ⟨f, h1, h2⟩ := L.first r
      simp only [reverse, h1, Option.bind_some, L.equals r h2]
      by_cases c : l.length - 1 - i = 0
      · simp only [c, decide_true, Bool.not_true, Bool.false_eq_true, if_false]
        exact ⟨(s.1, true), rfl, .inr (.inl ⟨rfl, by omega, by omega, by rw [c] at r; exact r⟩)⟩
      · obtain ⟨t, g1, g2⟩ := B.prev r (by omega) (by omega)
        simp only [c, decide_false, Bool.not_false, if_true, g1, Option.map_some]
        exact ⟨_, rfl, .inl ⟨a, by omega, by rw [show l.length - 1 - (i + 1) = l.length - 1 - i - 1 by omega]; exact g2⟩⟩
    · omega
    · omega

theorem reverse_bwd {R : Rng σ α} {rep : σ → Nat → Prop} {l : List α} (L : Fwd R rep l) : Bwd (reverse R) (reverseRep rep l.length) l.reverse where
  last := by
    intro s i h
    have : ∃ j, rep s.1 j := by rcases h with ⟨_, _, r⟩ | ⟨_, _, _, r⟩ | ⟨_, _, _, r⟩ <;> exact ⟨_, r⟩
    obtain ⟨j, r⟩ := this
    obtain ⟨t, h1, h2⟩ := L.first r
    rw [List.length_reverse]
    refine ⟨(t, false), by simp only [reverse, h1, Option.map_some], ?_⟩
    by_cases e : l.length = 0
    · exact .inr (.inr ⟨rfl, e, by omega, h2⟩)
    · exact .inl ⟨rfl, by omega, by rw [show l.length - 1 - (l.length - 1) = 0 by omega]; exact h2⟩
  prev := by
    intro s i h h0 hi
    rw [List.length_reverse] at hi
    rcases h with ⟨a, h, r⟩ | ⟨a, h, _, r⟩ | ⟨a, h, e, r⟩
    · obtain ⟨t, g1, g2⟩ := L.next r (by omega)
      refine ⟨(t, s.2), by simp only [reverse, a, Bool.false_eq_true, if_false, g1, Option.map_some], .inl ⟨a, by omega, ?_⟩⟩
      rw [show l.length - 1 - (i - 1) = l.length - 1 - i + 1 by omega]; exact g2
    · omega
    · omega

/-- A reversed range can always be moved back from its end. -/
theorem reverse_prevEnd {R : Rng σ α} {rep : σ → Nat → Prop} {l : List α} : PrevEnd (reverse R) (reverseRep rep l.length) l.reverse := by
  intro s h h0
  rw [List.length_reverse] at h h0 ⊢
  rcases h with ⟨a, h, r⟩ | ⟨a, h, _, r⟩ | ⟨a, h, e, r⟩
  · omega
  · exact ⟨(s.1, false), by simp only [reverse, a, if_true], .inl ⟨rfl, by omega, by rw [show l.length - 1 - (l.length - 1) = 0 by omega]; exact r⟩⟩
  · omega

/-- **C89 (partial).**  `Move` of a reversed range between its elements.  Missing: the end (`reverse_move_end_violated`, `reverse_move_from_end_violated`). -/
theorem reverse_access_partial {A : RandomAccess σ} {rep : σ → Nat → Prop} {n : Nat} (L : Access A rep n) {s : σ × Bool} {i : Nat} (h : reverseRep rep n s i) :
    (0 < n → (reverseAccess A).position s = i) ∧ (reverseAccess A).size s = n ∧
    ∀ d : Int, i < n → 0 ≤ i + d → i + d < n → ∃ t, (reverseAccess A).move s d = some t ∧ reverseRep rep n t (i + d).toNat := by
  refine ⟨?_, ?_, ?_⟩
  · intro hn
    rcases h with ⟨a, h, r⟩ | ⟨a, h, _, r⟩ | ⟨a, h, e, r⟩
    · simp only [reverseAccess, L.size r, L.position r, a, Bool.false_eq_true, if_false]; omega
    · simp only [reverseAccess, L.size r, L.position r, a, if_true]; omega
    · omega
  · rcases h with ⟨a, h, r⟩ | ⟨a, h, _, r⟩ | ⟨a, h, e, r⟩ <;> exact L.size r
  · intro d hi h0 h1
    rcases h with ⟨a, h, r⟩ | ⟨a, h, _, r⟩ | ⟨a, h, e, r⟩
    · obtain ⟨t, g1, g2⟩ := L.move (d := -d) r (by omega) (by omega)
      refine ⟨(t, s.2), by simp only [reverseAccess, g1, Option.map_some], .inl ⟨a, by omega, ?_⟩⟩
      rw [show n - 1 - ((i : Int) + d).toNat = (((n - 1 - i : Nat) : Int) + -d).toNat by omega]; exact g2
    · omega
    · omega

/-- **C89 violated.**  `Move` cannot take a reversed range to its end: `Reverse({10, 20})` at its last element, `Move(1)`. -/
theorem reverse_move_end_violated : ∃ (s : Iter × Bool), reverseRep (iterRep 0 2) 2 s 1 ∧ (reverseAccess iterAccess).move s 1 = none :=
  ⟨(⟨0, 0, 2⟩, false), .inl ⟨rfl, by omega, rfl, rfl, rfl, by omega⟩, by decide⟩

/-- **C89 violated.**  `Move` from the end of a reversed range leaves it at the end: `Reverse({10, 20, 30})` at its end, `Move(-1)` should go to the
last element, but the range is not valid. -/
theorem reverse_move_from_end_violated : ∃ (s t : Iter × Bool), reverseRep (iterRep 0 3) 3 s 3 ∧ (reverseAccess iterAccess).move s (-1) = some t ∧
    (reverse (iterRange [10, 20, 30])).valid t = false :=
  ⟨(⟨0, 0, 3⟩, true), (⟨0, 1, 3⟩, true), .inr (.inl ⟨rfl, rfl, by omega, rfl, rfl, rfl, by omega⟩), by decide, by decide⟩

end Verif.Range
