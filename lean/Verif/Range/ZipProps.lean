import Verif.Range.BasicProps
/-
`Zip` of two ranges, `Cycle` and `Split`.
-/
namespace Verif.Range

variable {σ τ α β γ : Type}

/-! ### Zip -/

def zipRep (rep : σ → Nat → Prop) (rep' : τ → Nat → Prop) (l : List α) (m : List β) (f : α → β → γ) (s : ZipSt σ τ γ) (i : Nat) : Prop :=
  rep s.l i ∧ rep' s.r i ∧ ∀ v, s.value = some v → (List.zipWith f l m)[i]? = some v

theorem zip_new {rep : σ → Nat → Prop} {rep' : τ → Nat → Prop} {l : List α} {m : List β} {f : α → β → γ} {s : σ} {t : τ} {i : Nat} (h : rep s i) (h' : rep' t i) :
    zipRep rep rep' l m f (zipNew s t) i := ⟨h, h', by intro v hv; cases hv⟩

section
variable {R : Rng σ α} {rep : σ → Nat → Prop} {l : List α} {Q : Rng τ β} {rep' : τ → Nat → Prop} {m : List β} {f : α → β → γ}

theorem zip_valid (L : Fwd R rep l) (M : Fwd Q rep' m) {s : ZipSt σ τ γ} {i : Nat} (h : zipRep rep rep' l m f s i) :
    zipValid R Q s = decide (i < (List.zipWith f l m).length) := by
  rw [zipValid, L.valid h.1, M.valid h.2.1, List.length_zipWith, Bool.eq_iff_iff, Bool.and_eq_true, decide_eq_true_iff, decide_eq_true_iff, decide_eq_true_iff]
  omega

theorem zip_next (L : Fwd R rep l) (M : Fwd Q rep' m) {s : ZipSt σ τ γ} {i : Nat} (h : zipRep rep rep' l m f s i) (hi : i < (List.zipWith f l m).length) :
    ∃ t, zipNext R Q s = some t ∧ zipRep rep rep' l m f t (i + 1) := by
  rw [List.length_zipWith] at hi
  obtain ⟨t, h1, h2⟩ := L.next h.1 (by omega)
  obtain ⟨u, h3, h4⟩ := M.next h.2.1 (by omega)
  exact ⟨⟨t, u, none⟩, by simp only [zipNext, h1, h3, Option.bind_some, Option.map_some], h2, h4, by intro v hv; cases hv⟩

/-- **C87.**  `Zip` shows what the functor makes of the elements with the same number, as many as the shorter range has. -/
theorem zip_fwd (L : Fwd R rep l) (M : Fwd Q rep' m) (fuel : Nat) : Fwd (zip fuel R Q f) (zipRep rep rep' l m f) (List.zipWith f l m) where
  le := by intro s i h; have := L.le h.1; have := M.le h.2.1; rw [List.length_zipWith]; omega
  valid := by intro s i h; exact zip_valid L M h
  get := by
    intro s i h hi
    have hi' := hi
    rw [List.length_zipWith] at hi'
    cases c : s.value with
    | some v =>
      refine ⟨s, ?_, h⟩
      have := h.2.2 v c
      rw [List.getElem?_eq_getElem hi] at this
      simp only [zip, c, Option.some.injEq] at *
      rw [this]
    | none =>
      obtain ⟨t, h1, h2⟩ := L.get h.1 (by omega)
      obtain ⟨u, h3, h4⟩ := M.get h.2.1 (by omega)
      refine ⟨⟨t, u, some (f l[i] m[i])⟩, ?_, h2, h4, ?_⟩
      · simp only [zip, c, h1, h3, Option.bind_some, Option.map_some, List.getElem_zipWith]
      · intro v hv
        cases hv
        rw [List.getElem?_eq_getElem hi, List.getElem_zipWith]
  equals := by
    intro s t i j h1 h2
    simp only [zip, L.equals h1.1 h2.1, M.equals h1.2.1 h2.2.1, Bool.and_self]
  first := by
    intro s i h
    obtain ⟨t, h1, h2⟩ := L.first h.1
    obtain ⟨u, h3, h4⟩ := M.first h.2.1
    exact ⟨⟨t, u, none⟩, by simp only [zip, zipFirst, h1, h3, Option.bind_some, Option.map_some], h2, h4, by intro v hv; cases hv⟩
  next := by intro s i h hi; exact zip_next L M h hi

theorem prev_any (B : Bwd R rep l) (E : PrevEnd R rep l) {s : σ} {i : Nat} (h : rep s i) (h0 : 0 < i) (hi : i ≤ l.length) :
    ∃ t, R.prev s = some t ∧ rep t (i - 1) := by
  by_cases e : i = l.length
  · subst e; exact E h h0
  · exact B.prev h h0 (by omega)

theorem zip_prev (B : Bwd R rep l) (E : PrevEnd R rep l) (B' : Bwd Q rep' m) (E' : PrevEnd Q rep' m) {s : ZipSt σ τ γ} {i : Nat}
    (h : zipRep rep rep' l m f s i) (h0 : 0 < i) (hi : i ≤ (List.zipWith f l m).length) :
    ∃ t, zipPrev R Q s = some t ∧ zipRep rep rep' l m f t (i - 1) := by
  rw [List.length_zipWith] at hi
  obtain ⟨t, h1, h2⟩ := prev_any B E h.1 h0 (by omega)
  obtain ⟨u, h3, h4⟩ := prev_any B' E' h.2.1 h0 (by omega)
  exact ⟨⟨t, u, none⟩, by simp only [zipPrev, h1, h3, Option.bind_some, Option.map_some], h2, h4, by intro v hv; cases hv⟩

theorem zip_lastLoop (L : Fwd R rep l) (B : Bwd R rep l) (E : PrevEnd R rep l) (M : Fwd Q rep' m) (B' : Bwd Q rep' m) (E' : PrevEnd Q rep' m)
    (n : Nat) {s : ZipSt σ τ γ} {i : Nat} (h : zipRep rep rep' l m f s i) (hn : (List.zipWith f l m).length - i < n) (hi : i ≤ (List.zipWith f l m).length) :
    ∃ t, zipLastLoop R Q n (decide (i = 0)) s = some t ∧ zipRep rep rep' l m f t ((List.zipWith f l m).length - 1) := by
  induction n generalizing s i with
  | zero => omega
  | succ n ih =>
    simp only [zipLastLoop, zip_valid L M h]
    by_cases c : i < (List.zipWith f l m).length
    · simp only [c, decide_true, if_true]
      obtain ⟨t, h1, h2⟩ := zip_next L M h c
      have := ih h2 (by omega) (by omega)
      rw [h1, Option.bind_some]
      rw [show decide (i + 1 = 0) = false by rw [decide_eq_false_iff_not]; omega] at this
      exact this
    · simp only [c, decide_false, Bool.false_eq_true, if_false]
      have e : i = (List.zipWith f l m).length := by omega
      by_cases z : i = 0
      · simp only [z, decide_true, Bool.not_true, Bool.false_eq_true, if_false]
        exact ⟨s, rfl, by rw [← e, z]; rw [z] at h; exact h⟩
      · simp only [z, decide_false, Bool.not_false, if_true]
        obtain ⟨t, h1, h2⟩ := zip_prev B E B' E' h (by omega) hi
        exact ⟨t, h1, by rw [← e]; exact h2⟩

/-- **C87.**  Backward, if both ranges can step back from their ends. -/
theorem zip_bwd (L : Fwd R rep l) (B : Bwd R rep l) (E : PrevEnd R rep l) (M : Fwd Q rep' m) (B' : Bwd Q rep' m) (E' : PrevEnd Q rep' m) {fuel : Nat}
    (hf : (List.zipWith f l m).length < fuel) : Bwd (zip fuel R Q f) (zipRep rep rep' l m f) (List.zipWith f l m) where
  last := by
    intro s i h
    obtain ⟨t, h1, h2⟩ := (zip_fwd L M fuel (f := f)).first h
    obtain ⟨u, h3, h4⟩ := zip_lastLoop L B E M B' E' fuel h2 (by omega) (by omega)
    rw [decide_eq_true rfl] at h3
    refine ⟨{ u with value := none }, ?_, h4.1, h4.2.1, by intro v hv; cases hv⟩
    show (zipFirst R Q s).bind _ = _
    rw [show zipFirst R Q s = some t from h1, Option.bind_some, h3, Option.map_some]
  prev := by intro s i h h0 hi; exact zip_prev B E B' E' h h0 (by omega)

theorem zip_prevEnd (B : Bwd R rep l) (E : PrevEnd R rep l) (B' : Bwd Q rep' m) (E' : PrevEnd Q rep' m) (fuel : Nat) :
    PrevEnd (zip fuel R Q f) (zipRep rep rep' l m f) (List.zipWith f l m) := by
  intro s h h0; exact zip_prev B E B' E' h h0 (Nat.le_refl _)

end

/-- The hypotheses of `zip_bwd` are met: the range over 1, 2, 3 zipped with the one over 10, 20. -/
example : Bwd (zip 9 (iterRange [1, 2, 3]) (iterRange [10, 20]) (· + ·)) (zipRep (iterRep 0 3) (iterRep 0 2) [1, 2, 3] [10, 20] (· + ·)) [11, 22] :=
  zip_bwd (iter_fwd (b := 0) (e := 3) (by omega) (by decide)) (iter_bwd (by omega) (by decide)) (iter_prevEnd (by omega) (by decide))
    (iter_fwd (b := 0) (e := 2) (by omega) (by decide)) (iter_bwd (by omega) (by decide)) (iter_prevEnd (by omega) (by decide)) (by decide)

/-! ### Cycle -/

/-- Where a range over `n` elements that goes round and round is after `Next` (`true`) and `Prev` (`false`) from element `i`. -/
def Spec.around (n i : Nat) (moves : List Bool) : Nat := ((i + moves.count true - moves.count false : Int) % n).toNat

/-- The calls of `Next` and `Prev`, one after the other. -/
def moves (R : Rng σ α) : List Bool → σ → Option σ
  | [], s => some s
  | true :: ms, s => (R.next s).bind (moves R ms)
  | false :: ms, s => (R.prev s).bind (moves R ms)

section
variable {R : Rng σ α} {rep : σ → Nat → Prop} {l : List α}

theorem cycle_new (L : Fwd R rep l) {s : σ} {i : Nat} (h : rep s i) : cycleNew R s = if i < l.length then some s else none := by
  unfold cycleNew checkValid
  rw [L.valid h]
  by_cases c : i < l.length <;> simp only [c, decide_true, decide_false, Bool.false_eq_true, if_true, if_false]

theorem cycle_next (L : Fwd R rep l) {s : σ} {i : Nat} (h : rep s i) (hi : i < l.length) :
    ∃ t, (cycle R).next s = some t ∧ rep t ((i + 1) % l.length) := by
  obtain ⟨t, h1, h2⟩ := L.next h hi
  simp only [cycle, h1, Option.bind_some, L.valid h2]
  by_cases c : i + 1 < l.length
  · simp only [c, decide_true, if_true]
    exact ⟨t, rfl, by rw [Nat.mod_eq_of_lt c]; exact h2⟩
  · simp only [c, decide_false, Bool.false_eq_true, if_false]
    obtain ⟨u, h3, h4⟩ := L.first h2
    have : 0 < l.length := by omega
    refine ⟨u, ?_, ?_⟩
    · simp only [h3, Option.bind_some, checkValid, L.valid h4, this, decide_true, if_true]
    · rw [show i + 1 = l.length by omega, Nat.mod_self]; exact h4

theorem cycle_prev (L : Fwd R rep l) (B : Bwd R rep l) {s : σ} {i : Nat} (h : rep s i) (hi : i < l.length) :
    ∃ t, (cycle R).prev s = some t ∧ rep t ((i + l.length - 1) % l.length) := by
  obtain ⟨f, h1, h2⟩ := L.first h
  simp only [cycle, h1, Option.bind_some, L.equals h h2]
  by_cases c : i = 0
  · obtain ⟨t, h3, h4⟩ := B.last h
    have hl : l.length - 1 < l.length := by omega
    refine ⟨t, ?_, ?_⟩
    · simp only [c, decide_true, if_true, h3, Option.bind_some, checkValid, L.valid h4, hl]
    · rw [c, Nat.zero_add, Nat.mod_eq_of_lt hl]; exact h4
  · obtain ⟨t, h3, h4⟩ := B.prev h (by omega) hi
    have hl : i - 1 < l.length := by omega
    refine ⟨t, ?_, ?_⟩
    · simp only [c, decide_false, Bool.false_eq_true, if_false, h3, Option.bind_some, checkValid, L.valid h4, hl, decide_true, if_true]
    · rw [show i + l.length - 1 = i - 1 + l.length by omega, Nat.add_mod_right, Nat.mod_eq_of_lt hl]; exact h4

theorem around_next {n i : Nat} (hn : 0 < n) (ms : List Bool) : Spec.around n ((i + 1) % n) ms = Spec.around n i (true :: ms) := by
  unfold Spec.around
  rw [List.count_cons_self, List.count_cons_of_ne (by decide)]
  congr 1
  push_cast
  have e : (((i : Int) + 1) % n + ms.count true - ms.count false) = ((i : Int) + 1) % n + (ms.count true - ms.count false) := by omega
  rw [e, Int.emod_add_emod]
  congr 1; omega

theorem around_prev {n i : Nat} (hn : 0 < n) (ms : List Bool) : Spec.around n ((i + n - 1) % n) ms = Spec.around n i (false :: ms) := by
  unfold Spec.around
  rw [List.count_cons_self, List.count_cons_of_ne (by decide)]
  congr 1
  have e0 : (((i + n - 1 : Nat) % n : Nat) : Int) = ((i : Int) - 1 + n) % n := by
    rw [Int.natCast_emod]; congr 1; omega
  rw [e0]
  have e : ((((i : Int) - 1 + n) % n) + ms.count true - ms.count false) = (((i : Int) - 1 + n) % n) + (ms.count true - ms.count false) := by omega
  rw [e, Int.emod_add_emod]
  rw [show (i : Int) - 1 + n + ((ms.count true : Int) - ms.count false) = ((i : Int) - 1 + (ms.count true - ms.count false)) + n by omega, Int.add_emod_right]
  congr 1; push_cast; omega

/-- **C87.**  `Cycle` over a range that is not empty goes round and round: after any `Next`s and `Prev`s it is valid and shows the element whose number is
the one it started with, plus the `Next`s, minus the `Prev`s, modulo the number of elements. -/
theorem cycle_moves (L : Fwd R rep l) (B : Bwd R rep l) (ms : List Bool) {s : σ} {i : Nat} (h : rep s i) (hi : i < l.length) :
    ∃ t u, moves (cycle R) ms s = some t ∧ (cycle R).valid t = true ∧
      ∃ h : Spec.around l.length i ms < l.length, (cycle R).get t = some (l[Spec.around l.length i ms], u) := by
  have hn : 0 < l.length := by omega
  induction ms generalizing s i with
  | nil =>
    obtain ⟨u, h1, h2⟩ := L.get h hi
    have e : Spec.around l.length i [] = i := by
      simp only [Spec.around, List.count_nil]
      rw [show (i : Int) + ((0 : Nat) : Int) - ((0 : Nat) : Int) = i by omega, Int.emod_eq_of_lt (by omega) (by omega), Int.toNat_natCast]
    refine ⟨s, u, rfl, rfl, by rw [e]; exact hi, ?_⟩
    simp only [e]
    exact h1
  | cons b ms ih =>
    cases b with
    | true =>
      obtain ⟨t, h1, h2⟩ := cycle_next L h hi
      obtain ⟨v, u, g1, g2, g3⟩ := ih h2 (Nat.mod_lt _ hn)
      rw [around_next hn] at g3
      exact ⟨v, u, by simp only [moves, h1, Option.bind_some, g1], g2, g3⟩
    | false =>
      obtain ⟨t, h1, h2⟩ := cycle_prev L B h hi
      obtain ⟨v, u, g1, g2, g3⟩ := ih h2 (Nat.mod_lt _ hn)
      rw [around_prev hn] at g3
      exact ⟨v, u, by simp only [moves, h1, Option.bind_some, g1], g2, g3⟩

end

example : moves (cycle (iterRange [5, 6, 7])) [false, false, true, true, true, true, true] ⟨0, 1, 3⟩ = some ⟨0, 1, 3⟩ ∧
    Spec.around 3 1 [false, false, true, true, true, true, true] = 1 := by decide +kernel

/-! ### Split -/

/-- The number of pieces of `k` in `n` elements. -/
def Spec.pieceCount (n k : Nat) : Nat := (n + k - 1) / k

/-- The pieces: number `i` is from `i * k` to `(i + 1) * k` or the end. -/
def Spec.pieces (n k : Nat) : List Iter := (List.range (Spec.pieceCount n k)).map fun i => ⟨i * k, i * k, min ((i + 1) * k) n⟩

def splitRep (n k : Nat) (s : Nat) (i : Nat) : Prop := i ≤ Spec.pieceCount n k ∧ s = min (i * k) n

theorem pieceCount_mul {n k : Nat} (hk : 0 < k) : n ≤ Spec.pieceCount n k * k := by
  unfold Spec.pieceCount
  have := Nat.div_add_mod (n + k - 1) k
  have := Nat.mod_lt (n + k - 1) hk
  rw [Nat.mul_comm]
  omega

theorem pieceCount_lt {n k i : Nat} (hk : 0 < k) : i < Spec.pieceCount n k ↔ i * k < n := by
  unfold Spec.pieceCount
  rw [Nat.lt_iff_add_one_le, Nat.le_div_iff_mul_le hk, Nat.add_mul]
  omega

theorem split_new (n k : Nat) : splitRep n k 0 0 := ⟨Nat.zero_le _, by omega⟩

/-- **C87.**  `Split` into pieces of at most `k ≥ 1` elements. -/
theorem split_fwd {n k : Nat} (hk : 0 < k) : Fwd (split n k) (splitRep n k) (Spec.pieces n k) where
  le := by intro s i h; simp only [Spec.pieces, List.length_map, List.length_range]; exact h.1
  valid := by
    intro s i h
    simp only [Spec.pieces, List.length_map, List.length_range, split, h.2]
    rw [Bool.eq_iff_iff, bne_iff_ne, decide_eq_true_iff, pieceCount_lt hk]
    omega
  get := by
    intro s i h hi
    simp only [Spec.pieces, List.length_map, List.length_range] at hi
    have hi' := (pieceCount_lt hk).1 hi
    refine ⟨s, ?_, h⟩
    have e : s = i * k := by rw [h.2]; omega
    simp only [split, Spec.pieces, List.getElem_map, List.getElem_range, e]
    rw [if_pos (by omega), Nat.add_mul]
    congr 3
    omega
  equals := by
    intro s t i j h1 h2
    simp only [split, h1.2, h2.2]
    rw [Bool.eq_iff_iff, beq_iff_eq, decide_eq_true_iff]
    refine ⟨fun e => ?_, fun e => by rw [e]⟩
    have key : ∀ {a b : Nat}, a ≤ Spec.pieceCount n k → b ≤ Spec.pieceCount n k → min (a * k) n = min (b * k) n → a < b → False := by
      intro a b ha hb e c
      have := (pieceCount_lt (n := n) hk).1 (Nat.lt_of_lt_of_le c hb)
      have : a * k + k ≤ b * k := by rw [← Nat.succ_mul]; exact Nat.mul_le_mul_right _ c
      omega
    rcases Nat.lt_trichotomy i j with c | c | c
    · exact (key h1.1 h2.1 e c).elim
    · exact c
    · exact (key h2.1 h1.1 e.symm c).elim
  first := by intro s i h; exact ⟨0, rfl, split_new n k⟩
  next := by
    intro s i h hi
    simp only [Spec.pieces, List.length_map, List.length_range] at hi
    have hi' := (pieceCount_lt hk).1 hi
    have e : s = i * k := by rw [h.2]; omega
    refine ⟨s + min k (n - s), ?_, by omega, ?_⟩
    · simp only [split]; rw [if_pos (by omega)]
    · rw [Nat.add_mul]; omega

theorem alignDown_spec {v k i : Nat} (hk : 0 < k) (h1 : i * k ≤ v) (h2 : v < i * k + k) : alignDown v k = some (i * k) := by
  unfold alignDown
  rw [if_pos (by omega)]
  have : v / k = i := by
    rw [Nat.div_eq_iff hk]
    omega
  rw [this, Nat.mul_comm]

theorem split_prev {n k : Nat} (hk : 0 < k) {s i : Nat} (h : splitRep n k s i) (h0 : 0 < i) :
    ∃ t, (split n k).prev s = some t ∧ splitRep n k t (i - 1) := by
  have h1 := h.1
  have hi' := (pieceCount_lt (n := n) hk).1 (show i - 1 < Spec.pieceCount n k by omega)
  have e : i * k = (i - 1) * k + k := by rw [← Nat.succ_mul]; congr 1; omega
  have hs := h.2
  refine ⟨(i - 1) * k, ?_, by omega, by omega⟩
  simp only [split]
  rw [if_pos (by omega)]
  exact alignDown_spec hk (by omega) (by omega)

/-- **C87.**  Backward, if the last piece is shorter than the others (or there is none). -/
theorem split_bwd_partial {n k : Nat} (hk : 0 < k) (hd : n = 0 ∨ n % k ≠ 0) : Bwd (split n k) (splitRep n k) (Spec.pieces n k) where
  last := by
    intro s i h
    simp only [Spec.pieces, List.length_map, List.length_range]
    rcases hd with z | z
    · subst z
      refine ⟨0, by simp only [split, alignDown]; rw [if_pos (by omega)]; simp, ?_, by omega⟩
      omega
    · have hd := Nat.div_add_mod n k
      have hm := Nat.mod_lt n hk
      have e : Spec.pieceCount n k = n / k + 1 := by
        have h1 : n / k < Spec.pieceCount n k := by rw [pieceCount_lt hk, Nat.mul_comm]; omega
        have h2 : ¬ n / k + 1 < Spec.pieceCount n k := by rw [pieceCount_lt hk, Nat.add_mul, Nat.mul_comm]; omega
        omega
      refine ⟨(n / k) * k, ?_, by omega, ?_⟩
      · simp only [split]; exact alignDown_spec hk (by rw [Nat.mul_comm]; omega) (by rw [Nat.mul_comm]; omega)
      · rw [e, Nat.add_sub_cancel, Nat.mul_comm]; omega
  prev := by intro s i h h0 _; exact split_prev hk h h0

theorem split_prevEnd {n k : Nat} (hk : 0 < k) : PrevEnd (split n k) (splitRep n k) (Spec.pieces n k) := by
  intro s h h0; exact split_prev hk h h0

/-- **C87.**  The elements of the pieces are the elements of the container, in order. -/
theorem split_elements {mem : List α} {k : Nat} (hk : 0 < k) : ((Spec.pieces mem.length k).map fun p => Spec.slice mem p.b p.e).flatten = mem := by
  have key : ∀ c, c ≤ Spec.pieceCount mem.length k →
      (((List.range c).map fun i => (⟨i * k, i * k, min ((i + 1) * k) mem.length⟩ : Iter)).map fun p => Spec.slice mem p.b p.e).flatten = mem.take (c * k) := by
    intro c
    induction c with
    | zero => intro _; simp
    | succ c ih =>
      intro h
      have hc := (pieceCount_lt (n := mem.length) hk).1 (show c < Spec.pieceCount mem.length k by omega)
      rw [List.range_succ, List.map_append, List.map_append, List.flatten_append, ih (by omega)]
      simp only [List.map_cons, List.map_nil, List.flatten_cons, List.flatten_nil, List.append_nil, Spec.slice]
      rw [Nat.add_mul, Nat.one_mul, List.take_add]
      congr 1
      by_cases g : c * k + k ≤ mem.length
      · rw [Nat.min_eq_left g, Nat.add_sub_cancel_left]
      · rw [Nat.min_eq_right (by omega), List.take_of_length_le (by rw [List.length_drop]; omega), List.take_of_length_le (by rw [List.length_drop]; omega)]
  unfold Spec.pieces
  rw [key _ (Nat.le_refl _), List.take_of_length_le (pieceCount_mul hk)]

/-- **C87.**  All pieces but the last have `k` elements and the last has at least one. -/
theorem split_sizes {n k : Nat} (hk : 0 < k) {i : Nat} {p : Iter} (h : (Spec.pieces n k)[i]? = some p) :
    0 < p.e - p.b ∧ p.e - p.b ≤ k ∧ p.it = p.b ∧ p.e ≤ n ∧ (i + 1 < (Spec.pieces n k).length → p.e - p.b = k) := by
  obtain ⟨h0, h1⟩ := List.getElem?_eq_some_iff.1 h
  simp only [Spec.pieces, List.length_map, List.length_range, List.getElem_map, List.getElem_range] at h0 h1 ⊢
  subst h1
  have hi := (pieceCount_lt (n := n) hk).1 h0
  refine ⟨?_, ?_, rfl, ?_, fun g => ?_⟩ <;> simp only [Nat.add_mul, Nat.one_mul] <;> try omega
  have := (pieceCount_lt (n := n) hk).1 g
  rw [Nat.add_mul] at this
  omega

example : Spec.pieces 5 2 = [⟨0, 0, 2⟩, ⟨2, 2, 4⟩, ⟨4, 4, 5⟩] := by decide +kernel

/-- **C87 violated.**  If the size is a multiple of the size of the pieces, `Last` is not at the last piece but behind it. -/
theorem split_last_violated {n k s : Nat} (hk : 0 < k) (hn : 0 < n) (hd : n % k = 0) :
    (split n k).last s = some n ∧ (split n k).valid n = false ∧ 0 < (Spec.pieces n k).length := by
  refine ⟨?_, by simp [split], ?_⟩
  · simp only [split, alignDown]
    rw [if_pos (by omega)]
    have := Nat.div_add_mod n k
    congr 1; omega
  · simp only [Spec.pieces, List.length_map, List.length_range]
    rw [pieceCount_lt hk]; omega

/-- **C87 violated.**  Pieces of 0 elements are accepted, and `Next` then stays where it is: a loop over the range never ends. -/
theorem split_zero_violated {n s : Nat} (h : s < n) : (split n 0).next s = some s ∧ (split n 0).valid s = true := by
  refine ⟨?_, ?_⟩
  · simp only [split]; rw [if_pos (by omega), Nat.zero_min, Nat.add_zero]
  · simp only [split, bne_iff_ne]; omega

end Verif.Range
