import Verif.Compress.BitBuf

/-!
# The bit buffers are queues (C70)
-/

namespace Verif.Compress

/-- The position of the `i`-th bit of the data. -/
def pos (n r i : Nat) : Nat := if r + i < 8 * n then r + i else r + i - 8 * n

/-- The buffer holds the bits `q`. -/
structure Ring (n : Nat) (s : Buf) (q : List Bool) : Prop where
  r_lt : s.r < 8 * n
  len : q.length ≤ 8 * n
  w_eq : s.w = pos n s.r q.length
  cont_eq : s.cont = decide (s.r + q.length < 8 * n)
  data : ∀ i b, q[i]? = some b → s.data (pos n s.r i) = b

theorem pos_lt {n r i : Nat} (hr : r < 8 * n) (hi : i ≤ 8 * n) : pos n r i < 8 * n := by unfold pos; split <;> omega

theorem pos_inj {n r i j : Nat} (_hr : r < 8 * n) (hi : i < 8 * n) (hj : j < 8 * n) (h : pos n r i = pos n r j) : i = j := by
  unfold pos at h; split at h <;> split at h <;> omega

theorem Ring.size_eq {n : Nat} {s : Buf} {q : List Bool} (h : Ring n s q) : s.size n = q.length := by
  have h1 := h.r_lt; have h2 := h.len; have h3 := h.w_eq
  unfold Buf.size
  rw [h.cont_eq, h3]
  unfold pos
  by_cases hc : s.r + q.length < 8 * n
  · simp only [hc, decide_true, if_true]; omega
  · simp only [hc, decide_false, if_false, Bool.false_eq_true]; omega

theorem Ring.free_eq {n : Nat} (hn : 8 * n < 18446744073709551616) {s : Buf} {q : List Bool} (h : Ring n s q) : s.free n = 8 * n - q.length := by
  have h2 := h.len
  unfold Buf.free
  rw [h.size_eq]
  omega

theorem Ring.data_lt {n : Nat} {s : Buf} {q : List Bool} (h : Ring n s q) {i : Nat} (hi : i < q.length) : s.data (pos n s.r i) = q[i] := h.data i _ (List.getElem?_eq_getElem hi)

/-- The unused positions are zero. -/
def Clean (n : Nat) (s : Buf) (q : List Bool) : Prop := ∀ i, q.length ≤ i → i < 8 * n → s.data (pos n s.r i) = false

theorem ring_addBit {n : Nat} {s : Buf} {q : List Bool} (h : Ring n s q) (hz : Clean n s q) (hq : q.length < 8 * n) (b : Bool) :
    ∃ s', s.addBit n b = .ok s' ∧ Ring n s' (q ++ [b]) ∧ Clean n s' (q ++ [b]) ∧ s'.r = s.r := by
  have h1 := h.r_lt
  have hw : s.w < 8 * n := by rw [h.w_eq]; exact pos_lt h1 h.len
  refine ⟨⟨fun i => if i = s.w then s.data i || b else s.data i, if s.w + 1 = 8 * n then 0 else s.w + 1, s.r, if s.w + 1 = 8 * n then !s.cont else s.cont⟩,
    by unfold Buf.addBit; rw [if_pos hw], ⟨h1, by rw [List.length_append]; exact hq, ?_, ?_, ?_⟩, ?_, rfl⟩
  · show (if s.w + 1 = 8 * n then 0 else s.w + 1) = pos n s.r _
    rw [h.w_eq, List.length_append, List.length_singleton]
    unfold pos
    split <;> split <;> split <;> omega
  · show (if s.w + 1 = 8 * n then !s.cont else s.cont) = _
    rw [h.w_eq, h.cont_eq, List.length_append, List.length_singleton]
    unfold pos
    by_cases hc : s.r + q.length < 8 * n
    · rw [if_pos hc]
      by_cases hc2 : s.r + q.length + 1 = 8 * n
      · rw [if_pos hc2]; simp [hc]; omega
      · rw [if_neg hc2]; simp [hc]; omega
    · rw [if_neg hc, if_neg (by omega)]; simp; omega
  · intro i b' hb
    show (if pos n s.r i = s.w then s.data (pos n s.r i) || b else s.data (pos n s.r i)) = b'
    rw [h.w_eq]
    by_cases hi : i < q.length
    · rw [if_neg (fun e => by have := pos_inj h1 (by omega) hq e; omega)]
      rw [List.getElem?_append_left hi] at hb
      exact h.data i b' hb
    · have hi2 : i = q.length := by
        have := (List.getElem?_eq_some_iff.1 hb).1
        rw [List.length_append, List.length_singleton] at this; omega
      subst hi2
      rw [if_pos rfl, hz _ (Nat.le_refl _) hq, Bool.false_or]
      rw [List.getElem?_append_right (Nat.le_refl _), Nat.sub_self] at hb
      injection hb
  · intro i hi hi2
    rw [List.length_append, List.length_singleton] at hi
    show (if pos n s.r i = s.w then s.data (pos n s.r i) || b else s.data (pos n s.r i)) = false
    rw [h.w_eq, if_neg (fun e => by have := pos_inj h1 hi2 hq e; omega)]
    exact hz i (by omega) hi2

theorem Ring.offer_eq {n : Nat} {s : Buf} {q : List Bool} (h : Ring n s q) (h8 : s.r % 8 = 0) : s.offer n = if s.r + q.length < 8 * n then q.length / 8 else (8 * n - s.r) / 8 := by
  have h1 := h.r_lt
  unfold Buf.offer
  rw [h.cont_eq, h.w_eq]
  unfold pos
  by_cases hc : s.r + q.length < 8 * n
  · simp only [hc, decide_true, if_true]; omega
  · simp only [hc, decide_false, if_false, Bool.false_eq_true]; omega

theorem Ring.offer_le {n : Nat} {s : Buf} {q : List Bool} (h : Ring n s q) (h8 : s.r % 8 = 0) : 8 * s.offer n ≤ q.length ∧ s.r + 8 * s.offer n ≤ 8 * n := by
  have h1 := h.r_lt
  rw [h.offer_eq h8]
  split <;> omega

theorem Ring.bits_eq {n : Nat} {s : Buf} {q : List Bool} (h : Ring n s q) (h8 : s.r % 8 = 0) {k : Nat} (hk : k ≤ s.offer n) : s.bits k = q.take (8 * k) := by
  obtain ⟨a, b⟩ := h.offer_le h8
  apply List.ext_getElem
  · simp [Buf.bits]; omega
  · intro i hi1 hi2
    simp only [Buf.bits, List.length_map, List.length_range] at hi1
    simp only [Buf.bits, List.getElem_map, List.getElem_range, List.getElem_take]
    rw [← h.data_lt (by omega)]
    unfold pos; rw [if_pos (by omega)]

theorem ring_took {n : Nat} {s : Buf} {q : List Bool} (h : Ring n s q) (hz : Clean n s q) (h8 : s.r % 8 = 0) {k : Nat} (hk : k ≤ s.offer n) :
    Ring n (s.took n k) (q.drop (8 * k)) ∧ Clean n (s.took n k) (q.drop (8 * k)) ∧ (s.took n k).r % 8 = 0 := by
  have h1 := h.r_lt
  obtain ⟨a, b⟩ := h.offer_le h8
  have hlen := h.len
  have hr : (s.took n k).r = if s.r + 8 * k = 8 * n then 0 else s.r + 8 * k := rfl
  have hrl : (s.took n k).r < 8 * n := by rw [hr]; split <;> omega
  have hpos : ∀ i, i + 8 * k < 8 * n ∨ i + 8 * k ≤ q.length → pos n (s.took n k).r i = pos n s.r (i + 8 * k) := by
    intro i hi; rw [hr]; unfold pos; split <;> split <;> split <;> omega
  have hpos2 : ∀ i, i < 8 * n → 8 * n ≤ i + 8 * k → pos n (s.took n k).r i = pos n s.r (i + 8 * k - 8 * n) := by
    intro i hi hi2; rw [hr]; unfold pos; split <;> split <;> split <;> omega
  have hin : ∀ j, 8 * k ≤ j → j < 8 * n → ¬ (s.r ≤ pos n s.r j ∧ pos n s.r j < s.r + 8 * k) := by
    intro j hj hj2; unfold pos; split <;> omega
  have hd : ∀ i, (s.took n k).data i = if s.r ≤ i ∧ i < s.r + 8 * k then false else s.data i := fun _ => rfl
  refine ⟨⟨hrl, by rw [List.length_drop]; omega, ?_, ?_, ?_⟩, ?_, ?_⟩
  · show s.w = _
    rw [hpos _ (by rw [List.length_drop]; omega), h.w_eq, List.length_drop, Nat.sub_add_cancel (by omega)]
  · show (if s.r + 8 * k = 8 * n then !s.cont else s.cont) = _
    rw [h.cont_eq, List.length_drop, hr]
    by_cases hc : s.r + 8 * k = 8 * n
    · rw [if_pos hc, if_pos hc]
      have e : decide (s.r + q.length < 8 * n) = false := by simp; omega
      rw [e]; simp; omega
    · rw [if_neg hc, if_neg hc]
      have e : (s.r + q.length < 8 * n) = (s.r + 8 * k + (q.length - 8 * k) < 8 * n) := by
        apply propext; omega
      simp only [e]
  · intro i b' hb
    rw [List.getElem?_drop] at hb
    have hl := (List.getElem?_eq_some_iff.1 hb).1
    rw [hpos i (by omega), hd, if_neg (hin _ (by omega) (by omega)), Nat.add_comm i]
    exact h.data _ b' hb
  · intro i hi hi2
    rw [List.length_drop] at hi
    rw [hd]
    by_cases hc : i + 8 * k < 8 * n
    · rw [hpos i (Or.inl hc), if_neg (hin _ (by omega) hc)]
      exact hz _ (by omega) hc
    · rw [hpos2 i hi2 (by omega), if_pos (by unfold pos; split <;> omega)]
  · rw [hr]; split <;> omega

/-! ### Histories of the buffer of the compressor -/

structure OutInv (n : Nat) (x : OutRun) : Prop where
  ring : Ring n x.s (x.added.drop x.taken.length)
  clean : Clean n x.s (x.added.drop x.taken.length)
  r8 : x.s.r % 8 = 0
  prefix_ : x.taken <+: x.added

theorem outRun_init {n : Nat} (hn : 0 < n) : OutInv n OutRun.init := by
  refine ⟨⟨?_, ?_, ?_, ?_, ?_⟩, fun _ _ _ => rfl, rfl, List.prefix_refl _⟩
  · show 0 < 8 * n; omega
  · show 0 ≤ 8 * n; omega
  · show 0 = pos n 0 0; unfold pos; rw [if_pos (by omega)]
  · show true = decide (0 + 0 < 8 * n); simp; exact hn
  · intro i b hb; cases hb

theorem outRun_step {n : Nat} {x y : OutRun} {o : OutOp} (h : OutInv n x) (hs : x.step n o = .ok y) : OutInv n y := by
  have hp := h.prefix_.length_le
  cases o with
  | add b =>
    simp only [OutRun.step] at hs
    split at hs
    · rename_i hroom
      obtain ⟨s', e, a, b', c⟩ := ring_addBit h.ring h.clean (by rw [List.length_drop]; exact hroom) b
      rw [e] at hs; injection hs with hs; subst hs
      have e2 : (x.added ++ [b]).drop x.taken.length = x.added.drop x.taken.length ++ [b] := List.drop_append_of_le_length hp
      exact ⟨by rw [e2]; exact a, by rw [e2]; exact b', by rw [show (OutRun.mk s' (x.added ++ [b]) x.taken).s.r = x.s.r from c]; exact h.r8, h.prefix_.trans (List.prefix_append _ _)⟩
    · cases hs
  | take k =>
    simp only [OutRun.step] at hs
    split at hs
    · rename_i hk
      injection hs with hs; subst hs
      obtain ⟨a, b, c⟩ := ring_took h.ring h.clean h.r8 hk
      have hb := h.ring.bits_eq h.r8 hk
      have hle := (h.ring.offer_le h.r8).1
      rw [List.length_drop] at hle
      have e2 : x.added.drop (x.taken ++ x.s.bits k).length = (x.added.drop x.taken.length).drop (8 * k) := by
        rw [List.drop_drop, List.length_append, hb, List.length_take, List.length_drop, Nat.min_eq_left (by omega)]
      refine ⟨by rw [e2]; exact a, by rw [e2]; exact b, c, ?_⟩
      show x.taken ++ x.s.bits k <+: x.added
      rw [hb]
      obtain ⟨t, ht⟩ := h.prefix_
      refine ⟨t.drop (8 * k), ?_⟩
      rw [← ht, List.drop_left, List.append_assoc, List.take_append_drop]
    · cases hs

theorem outRun_run {n : Nat} : ∀ (os : List OutOp) (x y : OutRun), OutInv n x → x.run n os = .ok y → OutInv n y := by
  intro os
  induction os with
  | nil => intro x y h hs; injection hs with hs; subst hs; exact h
  | cons o os ih =>
    intro x y h hs
    simp only [OutRun.run] at hs
    cases h1 : x.step n o with
    | error e => rw [h1] at hs; cases hs
    | ok z => rw [h1] at hs; exact ih z y (outRun_step h h1) hs

/-- The bytes that the consumer takes are the bits that were added, in order, and the sizes that the buffer reports are the numbers of bits that are still inside; the consumer is offered the next
bytes, and at least one if there are eight bits. -/
theorem bits_to_bytes_is_queue (n : Nat) (hn : 0 < n) (hmax : 8 * n < 18446744073709551616) (os : List OutOp) (x : OutRun) (h : OutRun.init.run n os = .ok x) :
    x.taken <+: x.added ∧ x.s.size n = x.added.length - x.taken.length ∧ x.s.free n = 8 * n - (x.added.length - x.taken.length) ∧
      (∀ k, k ≤ x.s.offer n → x.taken ++ x.s.bits k <+: x.added) ∧ (8 ≤ x.added.length - x.taken.length → 0 < x.s.offer n) := by
  have hi := outRun_run os _ _ (outRun_init hn) h
  have hsz : x.s.size n = x.added.length - x.taken.length := by rw [hi.ring.size_eq, List.length_drop]
  refine ⟨hi.prefix_, hsz, by rw [hi.ring.free_eq hmax, List.length_drop], fun k hk => ?_, fun h8 => ?_⟩
  · exact (outRun_step (o := .take k) hi (by simp only [OutRun.step]; rw [if_pos hk])).prefix_
  · have := hi.ring.offer_eq hi.r8
    rw [List.length_drop] at this
    have h1 := hi.ring.r_lt
    have h2 := hi.r8
    rw [this]; split <;> omega

/-- No access is outside the array. -/
theorem bits_to_bytes_in_range (n : Nat) (hn : 0 < n) (os : List OutOp) : OutRun.init.run n os ≠ .error .outOfRange := by
  have key : ∀ (os : List OutOp) (x : OutRun), OutInv n x → x.run n os ≠ .error .outOfRange := by
    intro os
    induction os with
    | nil => intro x _ h; cases h
    | cons o os ih =>
      intro x hx h
      simp only [OutRun.run] at h
      cases h1 : x.step n o with
      | ok z => rw [h1] at h; exact ih z (outRun_step hx h1) h
      | error e =>
        rw [h1] at h
        injection h with h; subst h
        cases o with
        | add b =>
          simp only [OutRun.step] at h1
          split at h1
          · rename_i hroom
            obtain ⟨s', e, _⟩ := ring_addBit hx.ring hx.clean (by rw [List.length_drop]; exact hroom) b
            rw [e] at h1; cases h1
          · cases h1
        | take k =>
          simp only [OutRun.step] at h1
          split at h1 <;> cases h1
  exact key os _ (outRun_init hn)

/-- Nine bits, of which eight are taken, in a buffer of two bytes. -/
example : ∃ x, OutRun.init.run 2 [.add true, .add false, .add false, .add false, .add false, .add false, .add false, .add true, .add true, .take 1] = .ok x ∧
    x.taken = [true, false, false, false, false, false, false, true] ∧ x.added.length = 9 := ⟨_, rfl, rfl, rfl⟩

/-! ### The end of the data -/

theorem rounded_ring {n : Nat} {s : Buf} {q : List Bool} (h : Ring n s q) (hz : Clean n s q) (h8 : s.r % 8 = 0) (hw : s.w ≤ 8 * n - 8) :
    Ring n ⟨s.data, (s.w + 7) / 8 * 8, s.r, s.cont⟩ (q ++ List.replicate ((8 - q.length % 8) % 8) false) ∧ Clean n ⟨s.data, (s.w + 7) / 8 * 8, s.r, s.cont⟩ (q ++ List.replicate ((8 - q.length % 8) % 8) false) := by
  have h1 := h.r_lt
  have hlen := h.len
  have hweq := h.w_eq
  have hl : (q ++ List.replicate ((8 - q.length % 8) % 8) false).length = (q.length + 7) / 8 * 8 := by rw [List.length_append, List.length_replicate]; omega
  refine ⟨⟨h1, by rw [hl]; omega, ?_, ?_, ?_⟩, ?_⟩
  · show (s.w + 7) / 8 * 8 = pos n s.r _
    rw [hl]
    unfold pos at hweq ⊢
    split at hweq <;> split <;> omega
  · show s.cont = decide (s.r + (q ++ List.replicate ((8 - q.length % 8) % 8) false).length < 8 * n)
    rw [hl, h.cont_eq]
    have e : (s.r + q.length < 8 * n) = (s.r + (q.length + 7) / 8 * 8 < 8 * n) := by
      apply propext
      unfold pos at hweq
      split at hweq <;> omega
    simp only [e]
  · intro i b hb
    show s.data (pos n s.r i) = b
    by_cases hi : i < q.length
    · rw [List.getElem?_append_left hi] at hb; exact h.data i b hb
    · have hl2 := (List.getElem?_eq_some_iff.1 hb).1
      rw [hl] at hl2
      rw [List.getElem?_append_right (by omega)] at hb
      have := List.mem_of_getElem? hb
      rw [(List.mem_replicate.1 this).2]
      exact hz i (by omega) (by omega)
  · intro i hi hi2
    rw [hl] at hi
    exact hz i (by omega) hi2

theorem drain_spec {n : Nat} : ∀ (ks : List Nat) (s : Buf) (q : List Bool), Ring n s q → Clean n s q → s.r % 8 = 0 → q.length % 8 = 0 → (∀ k ∈ ks, 0 < k) →
    (∃ rest, q = (Buf.drain n ks s).2.1 ++ rest ∧ ((Buf.drain n ks s).2.2 = some true ∧ rest = [] ∨ (Buf.drain n ks s).2.2 = none ∧ rest.length + 8 * ks.length ≤ q.length ∧ rest ≠ [])) := by
  intro ks
  induction ks with
  | nil =>
    intro s q h _ _ _ _
    refine ⟨q, rfl, ?_⟩
    simp only [Buf.drain, h.size_eq]
    by_cases hq : q.length = 0
    · exact Or.inl ⟨if_pos hq, List.eq_nil_of_length_eq_zero hq⟩
    · exact Or.inr ⟨if_neg hq, Nat.le_refl _, fun e => hq (by rw [e]; rfl)⟩
  | cons k ks ih =>
    intro s q h hz h8 hq8 hks
    simp only [Buf.drain, h.size_eq]
    by_cases hq : q.length = 0
    · rw [if_pos hq]
      have := List.eq_nil_of_length_eq_zero hq
      exact ⟨[], by rw [this]; rfl, Or.inl ⟨rfl, rfl⟩⟩
    · rw [if_neg hq]
      have hk := hks k List.mem_cons_self
      have h1 := h.r_lt
      have ho := h.offer_eq h8
      have hpos : 0 < s.offer n := by rw [ho]; split <;> omega
      rw [if_neg (by omega)]
      have hle : min k (s.offer n) ≤ s.offer n := Nat.min_le_right _ _
      obtain ⟨a, b, c⟩ := ring_took h hz h8 hle
      have hb := h.bits_eq h8 hle
      obtain ⟨o1, o2⟩ := h.offer_le h8
      obtain ⟨rest, e1, e2⟩ := ih _ _ a b c (by rw [List.length_drop]; omega) (fun k hk => hks k (List.mem_cons_of_mem _ hk))
      refine ⟨rest, ?_, ?_⟩
      · show q = s.bits _ ++ _ ++ rest
        rw [List.append_assoc, ← e1, hb, List.take_append_drop]
      · rcases e2 with ⟨e2, e3⟩ | ⟨e2, e3, e4⟩
        · exact Or.inl ⟨e2, e3⟩
        · refine Or.inr ⟨e2, ?_, e4⟩
          rw [List.length_drop] at e3
          rw [List.length_cons]
          have : 0 < min k (s.offer n) := by omega
          omega

/-- The bits that make the last byte complete. -/
def Spec.padded (bits : List Bool) : List Bool := bits ++ List.replicate ((8 - bits.length % 8) % 8) false

theorem out_w {n : Nat} {x : OutRun} (hn : 0 < n) (os : List OutOp) (h : OutRun.init.run n os = .ok x) : x.s.r = x.taken.length % (8 * n) ∧ x.s.w = x.added.length % (8 * n) := by
  have key : ∀ (os : List OutOp) (x y : OutRun), OutInv n x → x.s.r = x.taken.length % (8 * n) → x.run n os = .ok y → y.s.r = y.taken.length % (8 * n) := by
    intro os
    induction os with
    | nil => intro x y _ hr hs; injection hs with hs; subst hs; exact hr
    | cons o os ih =>
      intro x y hx hr hs
      simp only [OutRun.run] at hs
      cases h1 : x.step n o with
      | error e => rw [h1] at hs; cases hs
      | ok z =>
        rw [h1] at hs
        refine ih z y (outRun_step hx h1) ?_ hs
        cases o with
        | add b =>
          simp only [OutRun.step] at h1
          split at h1
          · rename_i hroom
            obtain ⟨s', e, _, _, c⟩ := ring_addBit hx.ring hx.clean (by rw [List.length_drop]; exact hroom) b
            rw [e] at h1; injection h1 with h1; subst h1
            show s'.r = _
            rw [c]; exact hr
          · cases h1
        | take k =>
          simp only [OutRun.step] at h1
          split at h1
          · rename_i hk
            injection h1 with h1; subst h1
            show (if x.s.r + 8 * k = 8 * n then 0 else x.s.r + 8 * k) = (x.taken ++ x.s.bits k).length % (8 * n)
            have hlen : (x.s.bits k).length = 8 * k := by simp [Buf.bits]
            have o2 := (hx.ring.offer_le hx.r8).2
            rw [List.length_append, hlen, ← Nat.mod_add_mod, ← hr]
            split
            · rename_i e; rw [e, Nat.mod_self]
            · rw [Nat.mod_eq_of_lt (by omega)]
          · cases h1
  have hi := outRun_run os _ _ (outRun_init hn) h
  have hr := key os _ _ (outRun_init hn) (by show 0 = 0 % _; rw [Nat.zero_mod]) h
  refine ⟨hr, ?_⟩
  have hp := hi.prefix_.length_le
  have hl := hi.ring.len
  rw [List.length_drop] at hl
  rw [hi.ring.w_eq, List.length_drop]
  have e : x.added.length % (8 * n) = (x.s.r + (x.added.length - x.taken.length)) % (8 * n) := by
    rw [hr, Nat.mod_add_mod]; congr 1; omega
  rw [e]
  unfold pos
  have := hi.ring.r_lt
  split
  · rename_i hc; rw [Nat.mod_eq_of_lt hc]
  · rename_i hc
    rw [Nat.mod_eq_sub_mod (by omega), Nat.mod_eq_of_lt (by omega)]

/-- Ending the data gives the consumer everything, padded to whole bytes, if the bits do not end inside the last byte of the array: for a consumer that takes at least one byte whenever it is
called, the call ends after at most as many calls of the consumer as there are bytes. -/
theorem bits_to_bytes_end_partial (n : Nat) (hn : 0 < n) (os : List OutOp) (x : OutRun) (h : OutRun.init.run n os = .ok x) (hlast : x.added.length % (8 * n) ≤ 8 * n - 8) (ks : List Nat)
    (hks : ∀ k ∈ ks, 0 < k) :
    x.taken ++ (x.s.endOfData n ks).2.1 <+: Spec.padded x.added ∧
      ((x.added.length - x.taken.length + 7) / 8 ≤ ks.length → (x.s.endOfData n ks).2.2 = some true ∧ x.taken ++ (x.s.endOfData n ks).2.1 = Spec.padded x.added) := by
  have hi := outRun_run os _ _ (outRun_init hn) h
  obtain ⟨hr, hw⟩ := out_w hn os h
  obtain ⟨a, b⟩ := rounded_ring hi.ring hi.clean hi.r8 (by rw [hw]; exact hlast)
  have hp := hi.prefix_.length_le
  have ht8 : x.taken.length % 8 = 0 := by
    have h8 := hi.r8
    rw [hr] at h8
    rw [← Nat.mod_mod_of_dvd _ ⟨n, rfl⟩]; exact h8
  obtain ⟨t, ht⟩ := hi.prefix_
  have hd : x.added.drop x.taken.length = t := by rw [← ht, List.drop_left]
  have hlt : x.added.length = x.taken.length + t.length := by rw [← ht, List.length_append]
  have epad : Spec.padded x.added = x.taken ++ (t ++ List.replicate ((8 - t.length % 8) % 8) false) := by
    have : (8 - x.added.length % 8) % 8 = (8 - t.length % 8) % 8 := by omega
    unfold Spec.padded
    rw [this, ← List.append_assoc, ht]
  rw [hd] at a b
  obtain ⟨rest, e1, e2⟩ := drain_spec ks _ _ a b hi.r8 (by rw [List.length_append, List.length_replicate]; omega) hks
  refine ⟨⟨rest, ?_⟩, fun hk => ?_⟩
  · rw [epad, e1, List.append_assoc]; rfl
  · rcases e2 with ⟨e2, e3⟩ | ⟨e2, e3, e4⟩
    · refine ⟨e2, ?_⟩
      rw [epad, e1, e3, List.append_nil]; rfl
    · exfalso
      rw [List.length_append, List.length_replicate] at e3
      have : 0 < rest.length := List.length_pos_iff.2 e4
      omega

/-- If the bits end inside the last byte of the array, ending the data never ends: a consumer that takes everything is called again and again, and gets zeros. -/
theorem bits_to_bytes_end_violated (n : Nat) (hn : 0 < n) (os : List OutOp) (x : OutRun) (h : OutRun.init.run n os = .ok x) (hlast : 8 * n - 8 < x.added.length % (8 * n)) (calls : Nat) :
    (x.s.endOfData n (List.replicate calls n)).2.2 = none := by
  have hi := outRun_run os _ _ (outRun_init hn) h
  obtain ⟨hr, hw⟩ := out_w hn os h
  have h1 := hi.ring.r_lt
  have h8 := hi.r8
  have hwlt : x.added.length % (8 * n) < 8 * n := Nat.mod_lt _ (by omega)
  have hround : (x.s.w + 7) / 8 * 8 = 8 * n := by rw [hw]; omega
  have hcont : x.s.cont = true := by
    rw [hi.ring.cont_eq]
    have h2 := hi.ring.w_eq
    have h3 := hi.ring.len
    unfold pos at h2
    split at h2
    · rename_i hc; exact decide_eq_true hc
    · rw [hw] at h2; omega
  have key : ∀ (calls : Nat) (s : Buf), s.w = 8 * n → (s.cont = true ∧ s.r < 8 * n ∧ s.r % 8 = 0 ∨ s.cont = false ∧ s.r = 0) → (Buf.drain n (List.replicate calls n) s).2.2 = none := by
    intro calls
    induction calls with
    | zero =>
      intro s hw hs
      simp only [List.replicate, Buf.drain]
      rw [if_neg]
      unfold Buf.size
      rcases hs with ⟨a, b, c⟩ | ⟨a, b⟩
      · rw [a, if_pos rfl]; omega
      · rw [a, if_neg (by decide)]; omega
    | succ calls ih =>
      intro s hw hs
      have hsz : s.size n ≠ 0 := by
        unfold Buf.size
        rcases hs with ⟨a, b, c⟩ | ⟨a, b⟩
        · rw [a, if_pos rfl]; omega
        · rw [a, if_neg (by decide)]; omega
      have hof : s.offer n = n - s.r / 8 := by
        unfold Buf.offer
        rw [hw]
        split <;> omega
      simp only [List.replicate_succ, Buf.drain]
      rw [if_neg hsz, hof, Nat.min_eq_right (by omega), if_neg (by omega)]
      apply ih
      · exact hw
      · show (if s.r + 8 * (n - s.r / 8) = 8 * n then !s.cont else s.cont) = true ∧ (if s.r + 8 * (n - s.r / 8) = 8 * n then 0 else s.r + 8 * (n - s.r / 8)) < 8 * n ∧
          (if s.r + 8 * (n - s.r / 8) = 8 * n then 0 else s.r + 8 * (n - s.r / 8)) % 8 = 0 ∨ (if s.r + 8 * (n - s.r / 8) = 8 * n then !s.cont else s.cont) = false ∧
          (if s.r + 8 * (n - s.r / 8) = 8 * n then 0 else s.r + 8 * (n - s.r / 8)) = 0
        have he : s.r + 8 * (n - s.r / 8) = 8 * n := by omega
        rw [if_pos he, if_pos he]
        rcases hs with ⟨a, _⟩ | ⟨a, _⟩
        · rw [a]; exact Or.inr ⟨rfl, rfl⟩
        · rw [a]; exact Or.inl ⟨rfl, by omega, rfl⟩
  exact key calls _ hround (Or.inl ⟨hcont, h1, h8⟩)

/-- The hypotheses: nine of sixteen bits. -/
example : ∃ x, OutRun.init.run 2 ((List.replicate 9 true).map .add) = .ok x ∧ 8 * 2 - 8 < x.added.length % (8 * 2) := ⟨_, rfl, by decide⟩

/-- … and of `bits_to_bytes_end_partial`. -/
example : ∃ x, OutRun.init.run 2 ((List.replicate 5 true).map .add) = .ok x ∧ x.added.length % (8 * 2) ≤ 8 * 2 - 8 ∧ (x.s.endOfData 2 [1]).2.1 = [true, true, true, true, true, false, false, false] := ⟨_, rfl, by decide, rfl⟩

/-! ### The compressor -/

theorem run_append {n : Nat} : ∀ (os os' : List OutOp) (x y : OutRun), x.run n os = .ok y → x.run n (os ++ os') = y.run n os' := by
  intro os
  induction os with
  | nil => intro os' x y h; injection h with h; subst h; rfl
  | cons o os ih =>
    intro os' x y h
    simp only [OutRun.run, List.cons_append] at h ⊢
    cases h1 : x.step n o with
    | error e => rw [h1] at h; cases h
    | ok z => rw [h1] at h; exact ih os' z y h

theorem consumeData_run {n room : Nat} (hmax : 8 * n < 18446744073709551616) (hroom : room + 7 ≤ 8 * n) : ∀ (ks : List Nat) (x : OutRun), OutInv n x →
    (∀ ks' s' out, consumeData n room ks x.s = some (ks', s', out) → ∃ os, x.run n os = .ok ⟨s', x.added, x.taken ++ out⟩ ∧ room ≤ s'.free n) ∧
      ∀ total, x.added.length ≤ total → total ≤ 8 * ks.length + x.taken.length →
        ∃ ks' s' out, consumeData n room ks x.s = some (ks', s', out) ∧ total ≤ 8 * ks'.length + (x.taken ++ out).length := by
  intro ks
  induction ks with
  | nil =>
    intro x hx
    constructor
    · intro ks' s' out h
      simp only [consumeData] at h
      split at h
      · cases h
      · rename_i hf
        injection h with h; injection h with h1 h2; injection h2 with h2 h3; subst h2 h3
        exact ⟨[], by rw [List.append_nil]; rfl, by omega⟩
    · intro total h1 h2
      have hf := hx.ring.free_eq hmax
      rw [List.length_drop] at hf
      simp only [consumeData]
      rw [if_neg (by simp only [List.length_nil] at h2; omega)]
      exact ⟨[], x.s, [], rfl, by rw [List.append_nil]; exact h2⟩
  | cons k ks ih =>
    intro x hx
    have hf := hx.ring.free_eq hmax
    simp only [consumeData]
    by_cases hc : x.s.free n < room
    · rw [if_pos hc]
      have hle : min (k + 1) (x.s.offer n) ≤ x.s.offer n := Nat.min_le_right _ _
      have hpos : 0 < min (k + 1) (x.s.offer n) := by
        have ho := hx.ring.offer_eq hx.r8
        have h1 := hx.ring.r_lt
        have h2 := hx.r8
        have : 0 < x.s.offer n := by rw [ho]; split <;> omega
        omega
      generalize min (k + 1) (x.s.offer n) = c at hle hpos ⊢
      have hst : x.step n (.take c) = .ok ⟨x.s.took n c, x.added, x.taken ++ x.s.bits c⟩ := by simp only [OutRun.step]; rw [if_pos hle]
      obtain ⟨i1, i2⟩ := ih _ (outRun_step hx hst)
      have hbl : (x.s.bits c).length = 8 * c := by simp [Buf.bits]
      constructor
      · intro ks' s' out h
        cases h3 : consumeData n room ks (x.s.took n c) with
        | none => rw [h3] at h; cases h
        | some r =>
          obtain ⟨ks1, s1, out1⟩ := r
          rw [h3] at h
          injection h with h; injection h with h4 h5; injection h5 with h5 h6; subst h4 h5 h6
          obtain ⟨os, a, b⟩ := i1 _ _ _ h3
          refine ⟨.take c :: os, ?_, b⟩
          simp only [OutRun.run, hst, a, List.append_assoc]
      · intro total h1 h2
        obtain ⟨ks', s', out, a, b⟩ := i2 total h1 (by rw [List.length_cons] at h2; simp only [List.length_append, hbl]; omega)
        rw [a]
        refine ⟨ks', s', x.s.bits c ++ out, rfl, ?_⟩
        rw [← List.append_assoc]; exact b
    · rw [if_neg hc]
      constructor
      · intro ks' s' out h
        injection h with h; injection h with h1 h2; injection h2 with h2 h3; subst h2 h3
        exact ⟨[], by rw [List.append_nil]; rfl, by omega⟩
      · intro total h1 h2
        exact ⟨_, _, [], rfl, by rw [List.append_nil]; exact h2⟩

theorem addBits_run {n : Nat} : ∀ (bs : List Bool) (x : OutRun), OutInv n x → x.added.length - x.taken.length + bs.length ≤ 8 * n →
    ∃ s', addBits n bs x.s = .ok s' ∧ x.run n (bs.map .add) = .ok ⟨s', x.added ++ bs, x.taken⟩ := by
  intro bs
  induction bs with
  | nil => intro x hx _; exact ⟨x.s, rfl, by rw [List.append_nil]; rfl⟩
  | cons b bs ih =>
    intro x hx h
    rw [List.length_cons] at h
    have hroom : x.added.length - x.taken.length < 8 * n := by omega
    obtain ⟨s', e, _⟩ := ring_addBit hx.ring hx.clean (by rw [List.length_drop]; exact hroom) b
    have hst : x.step n (.add b) = .ok ⟨s', x.added ++ [b], x.taken⟩ := by simp only [OutRun.step]; rw [if_pos hroom, e]
    obtain ⟨s2, a1, a2⟩ := ih _ (outRun_step hx hst) (by simp only [List.length_append, List.length_singleton]; omega)
    refine ⟨s2, ?_, ?_⟩
    · simp only [addBits, e]; exact a1
    · simp only [List.map_cons, OutRun.run, hst, a2, List.append_assoc, List.singleton_append]

theorem encodeSyms_run {n room : Nat} (hmax : 8 * n < 18446744073709551616) (hroom : room + 7 ≤ 8 * n) : ∀ (syms : List (List Bool)) (ks : List Nat) (x : OutRun), OutInv n x → (∀ bs ∈ syms, bs.length ≤ room) →
    (x.added ++ syms.flatten).length ≤ 8 * ks.length + x.taken.length →
    ∃ ks' s' out os, encodeSyms n room syms ks x.s = some (ks', s', out) ∧ x.run n os = .ok ⟨s', x.added ++ syms.flatten, x.taken ++ out⟩ := by
  intro syms
  induction syms with
  | nil => intro ks x hx _ _; exact ⟨ks, x.s, [], [], rfl, by rw [List.flatten_nil, List.append_nil, List.append_nil]; rfl⟩
  | cons bs syms ih =>
    intro ks x hx hb hk
    obtain ⟨c1, c2⟩ := consumeData_run hmax hroom ks x hx
    obtain ⟨ks1, s1, out1, e1, hk1⟩ := c2 (x.added ++ (bs :: syms).flatten).length (by rw [List.length_append]; omega) hk
    obtain ⟨os1, r1, f1⟩ := c1 _ _ _ e1
    have hx1 := outRun_run os1 _ _ hx r1
    have hf := hx1.ring.free_eq hmax
    have hl := hx1.ring.len
    simp only [List.length_drop] at hf hl
    have hbs := hb bs List.mem_cons_self
    obtain ⟨s2, a2, r2⟩ := addBits_run bs _ hx1 (by simp only []; omega)
    have hx2 := outRun_run _ _ _ hx1 r2
    obtain ⟨ks3, s3, out3, os3, e3, r3⟩ := ih ks1 _ hx2 (fun bs h => hb bs (List.mem_cons_of_mem _ h)) (by
      simp only [List.flatten_cons, List.append_assoc] at hk1 ⊢; exact hk1)
    refine ⟨ks3, s3, out1 ++ out3, os1 ++ (bs.map .add ++ os3), ?_, ?_⟩
    · simp only [encodeSyms, e1]
      simp only [] at a2
      rw [a2]; simp only [e3]
    · rw [run_append os1 _ _ _ r1, run_append (bs.map .add) os3 _ _ r2, r3]
      simp only [List.flatten_cons, List.append_assoc]

/-- What the compressor gives to a consumer that takes at least one byte whenever it is called are the bits that the coder gave for the symbols, padded to whole bytes, if no symbol needs more bits
than the compressor makes room for, and the bits do not end inside the last byte of the array. -/
theorem compressor_delivers_partial (n room : Nat) (hn : 0 < n) (hmax : 8 * n < 18446744073709551616) (hroom : room + 7 ≤ 8 * n) (syms : List (List Bool)) (hb : ∀ bs ∈ syms, bs.length ≤ room)
    (hlast : syms.flatten.length % (8 * n) ≤ 8 * n - 8) (ks ks2 : List Nat) (hks : syms.flatten.length ≤ 8 * ks.length) (hks2 : ∀ k ∈ ks2, 0 < k) (hlen : n ≤ ks2.length) :
    ∃ ks' s' out, encodeSyms n room syms ks (Buf.init fun _ => false) = some (ks', s', out) ∧ (s'.endOfData n ks2).2.2 = some true ∧ out ++ (s'.endOfData n ks2).2.1 = Spec.padded syms.flatten := by
  obtain ⟨ks', s', out, os, e, r⟩ := encodeSyms_run hmax hroom syms ks OutRun.init (outRun_init hn) hb (by simpa [OutRun.init] using hks)
  simp only [OutRun.init, List.nil_append] at e r
  refine ⟨ks', s', out, e, ?_⟩
  have hl := (outRun_run os _ _ (outRun_init hn) r).ring.len
  simp only [List.length_drop] at hl
  exact (bits_to_bytes_end_partial n hn os _ r hlast ks2 hks2).2 (by simp only []; omega)

/-- Two symbols, in a buffer of two bytes. -/
example : ∃ ks' s' out, encodeSyms 2 8 [[true, false, true, false, true, false, true], [true, true, true, true, true, true]] [0] (Buf.init fun _ => false) = some (ks', s', out) := ⟨_, _, _, rfl⟩

theorem addBits_straight {n : Nat} : ∀ (bs : List Bool) (s : Buf), s.w + bs.length < 8 * n → ∃ d, addBits n bs s = .ok ⟨d, s.w + bs.length, s.r, s.cont⟩ := by
  intro bs
  induction bs with
  | nil => intro s _; exact ⟨s.data, rfl⟩
  | cons b bs ih =>
    intro s h
    rw [List.length_cons] at h
    have e : s.addBit n b = .ok ⟨fun i => if i = s.w then s.data i || b else s.data i, s.w + 1, s.r, s.cont⟩ := by
      unfold Buf.addBit
      rw [if_pos (by omega), if_neg (by omega), if_neg (by omega)]
    obtain ⟨d, hd⟩ := ih ⟨fun i => if i = s.w then s.data i || b else s.data i, s.w + 1, s.r, s.cont⟩ (by simp only []; omega)
    refine ⟨d, ?_⟩
    simp only [addBits, e]
    rw [hd, List.length_cons, Nat.add_right_comm s.w 1, ← Nat.add_assoc]

theorem addBits_append {n : Nat} : ∀ (bs cs : List Bool) (s s' : Buf), addBits n bs s = .ok s' → addBits n (bs ++ cs) s = addBits n cs s' := by
  intro bs
  induction bs with
  | nil => intro cs s s' h; injection h with h; subst h; rfl
  | cons b bs ih =>
    intro cs s s' h
    simp only [addBits, List.cons_append] at h ⊢
    cases h1 : s.addBit n b with
    | error e => rw [h1] at h; cases h
    | ok z => rw [h1] at h; exact ih cs z s' h

theorem init_free {n : Nat} (hn : 0 < n) (hmax : 8 * n < 18446744073709551616) : (Buf.init fun _ => false).free n = 8 * n := by
  have h := (outRun_init hn).ring.free_eq hmax
  simp only [OutRun.init, List.drop_nil, List.length_nil, Nat.sub_zero] at h
  exact h

theorem addBits_over {n : Nat} (hn : 0 < n) (t1 t2 : List Bool) (b : Bool) (h1 : t1.length = 8 * n - 1) (h2 : t2.length < 8 * n) :
    ∃ d, addBits n (t1 ++ b :: t2) (Buf.init fun _ => false) = .ok ⟨d, t2.length, 0, false⟩ := by
  obtain ⟨d1, e1⟩ := addBits_straight (n := n) t1 (Buf.init fun _ => false) (by show 0 + _ < _; omega)
  have e1' : addBits n t1 (Buf.init fun _ => false) = .ok ⟨d1, 8 * n - 1, 0, true⟩ := by
    rw [e1, h1]; show Except.ok (Buf.mk d1 (0 + (8 * n - 1)) 0 true) = _; rw [Nat.zero_add]
  have e2 : Buf.addBit n ⟨d1, 8 * n - 1, 0, true⟩ b = .ok ⟨fun i => if i = 8 * n - 1 then d1 i || b else d1 i, 0, 0, false⟩ := by
    unfold Buf.addBit
    simp only []
    rw [if_pos (by omega), if_pos (by omega), if_pos (by omega)]; rfl
  obtain ⟨d3, e3⟩ := addBits_straight (n := n) t2 ⟨fun i => if i = 8 * n - 1 then d1 i || b else d1 i, 0, 0, false⟩ (by simp only []; omega)
  refine ⟨d3, ?_⟩
  rw [addBits_append _ _ _ _ e1']
  simp only [addBits]
  rw [e2]
  simp only []
  rw [e3]
  simp only [Nat.zero_add]

theorem drain_over {n m : Nat} (m1 : 0 < m) (m2 : m < n) (d : Nat → Bool) :
    (Buf.drain n [n, n] ⟨d, 8 * m, 0, false⟩).2.2 = some true ∧ (Buf.drain n [n, n] ⟨d, 8 * m, 0, false⟩).2.1[8 * n]? = some false := by
  have ho1 : Buf.offer n ⟨d, 8 * m, 0, false⟩ = n := by unfold Buf.offer; simp
  have hs1 : Buf.size n ⟨d, 8 * m, 0, false⟩ ≠ 0 := by unfold Buf.size; simp; omega
  have ht : Buf.took n ⟨d, 8 * m, 0, false⟩ n = ⟨fun i => if i < 8 * n then false else d i, 8 * m, 0, true⟩ := by unfold Buf.took; simp
  have ho2 : Buf.offer n ⟨fun i => if i < 8 * n then false else d i, 8 * m, 0, true⟩ = m := by unfold Buf.offer; simp
  have hs2 : Buf.size n ⟨fun i => if i < 8 * n then false else d i, 8 * m, 0, true⟩ ≠ 0 := by unfold Buf.size; simp; omega
  have hs3 : Buf.size n (Buf.took n ⟨fun i => if i < 8 * n then false else d i, 8 * m, 0, true⟩ m) = 0 := by
    have hne : ¬ 8 * m = 8 * n := by omega
    unfold Buf.size Buf.took
    simp only [Nat.zero_add, hne, if_false, if_true, Nat.sub_self]
  have hbits : (Buf.bits ⟨d, 8 * m, 0, false⟩ n).length = 8 * n := by simp [Buf.bits]
  have hb2 : (Buf.bits ⟨fun i => if i < 8 * n then false else d i, 8 * m, 0, true⟩ m)[0]? = some false := by
    simp only [Buf.bits, List.getElem?_map, List.getElem?_range (show 0 < 8 * m by omega), Option.map_some, Nat.add_zero]
    rw [if_pos (by omega)]
  have e3 : Buf.drain n [] (Buf.took n ⟨fun i => if i < 8 * n then false else d i, 8 * m, 0, true⟩ m) = (Buf.took n ⟨fun i => if i < 8 * n then false else d i, 8 * m, 0, true⟩ m, [], some true) := by
    rw [Buf.drain, if_pos hs3]
  have e2 : Buf.drain n [n] ⟨fun i => if i < 8 * n then false else d i, 8 * m, 0, true⟩ =
      (Buf.took n ⟨fun i => if i < 8 * n then false else d i, 8 * m, 0, true⟩ m, Buf.bits ⟨fun i => if i < 8 * n then false else d i, 8 * m, 0, true⟩ m, some true) := by
    rw [Buf.drain, if_neg hs2, ho2, Nat.min_eq_right (Nat.le_of_lt m2), if_neg (by omega), e3, List.append_nil]
  have e1 : Buf.drain n [n, n] ⟨d, 8 * m, 0, false⟩ =
      (Buf.took n ⟨fun i => if i < 8 * n then false else d i, 8 * m, 0, true⟩ m, Buf.bits ⟨d, 8 * m, 0, false⟩ n ++ Buf.bits ⟨fun i => if i < 8 * n then false else d i, 8 * m, 0, true⟩ m, some true) := by
    rw [Buf.drain, if_neg hs1, ho1, Nat.min_self, if_neg (by omega), ht, e2]
  rw [e1]
  refine ⟨rfl, ?_⟩
  show (_ ++ _)[8 * n]? = _
  rw [List.getElem?_append_right (by omega), hbits, Nat.sub_self, hb2]

theorem encodeSyms_quiet {n room : Nat} (hn : 0 < n) (hmax : 8 * n < 18446744073709551616) (hroom : room + 7 ≤ 8 * n) (bs : List Bool) (s : Buf) (h : addBits n bs (Buf.init fun _ => false) = .ok s) (quiet : Nat) :
    encodeSyms n room (List.replicate quiet [] ++ [bs]) [] (Buf.init fun _ => false) = some ([], s, []) := by
  have hcons : consumeData n room [] (Buf.init fun _ => false) = some ([], Buf.init fun _ => false, []) := by
    simp only [consumeData]; rw [if_neg (by rw [init_free hn hmax]; omega)]
  induction quiet with
  | zero =>
    show encodeSyms n room [bs] [] _ = _
    rw [encodeSyms, hcons]
    simp only []
    rw [h]
    rfl
  | succ q ih =>
    rw [List.replicate_succ, List.cons_append, encodeSyms, hcons]
    simp only [addBits]
    rw [ih]; rfl

/-- If one symbol needs more bits than the array has, the bits are overwritten without any sign of it: what is delivered in the end is not what was added. -/
theorem bits_overrun_violated (n room : Nat) (hn : 0 < n) (hmax : 8 * n < 18446744073709551616) (hroom : room + 7 ≤ 8 * n) (bs : List Bool) (hlong : 8 * n < bs.length) (hshort : bs.length ≤ 16 * n - 8)
    (hbit : bs[8 * n]? = some true) (quiet : Nat) :
    ∃ s', encodeSyms n room (List.replicate quiet [] ++ [bs]) [] (Buf.init fun _ => false) = some ([], s', []) ∧ (s'.endOfData n [n, n]).2.2 = some true ∧ (s'.endOfData n [n, n]).2.1 ≠ Spec.padded bs := by
  have hsplit : ∃ t1 b t2, bs = t1 ++ b :: t2 ∧ t1.length = 8 * n - 1 ∧ t2.length = bs.length - 8 * n := by
    refine ⟨bs.take (8 * n - 1), bs[8 * n - 1]'(by omega), bs.drop (8 * n), ?_, by rw [List.length_take]; omega, List.length_drop⟩
    have := List.take_append_drop (8 * n - 1) bs
    rw [List.drop_eq_getElem_cons (by omega), show 8 * n - 1 + 1 = 8 * n by omega] at this
    exact this.symm
  obtain ⟨t1, b, t2, e, l1, l2⟩ := hsplit
  obtain ⟨d, hd⟩ := addBits_over hn t1 t2 b l1 (by omega)
  rw [← e] at hd
  refine ⟨_, encodeSyms_quiet hn hmax hroom bs _ hd quiet, ?_⟩
  obtain ⟨m, m1, m2, m3⟩ : ∃ m, 0 < m ∧ m < n ∧ (t2.length + 7) / 8 * 8 = 8 * m := ⟨(t2.length + 7) / 8, by omega, by omega, by omega⟩
  unfold Buf.endOfData
  simp only [m3]
  obtain ⟨a1, a2⟩ := drain_over m1 m2 d
  refine ⟨a1, fun e => ?_⟩
  rw [e] at a2
  unfold Spec.padded at a2
  rw [List.getElem?_append_left hlong, hbit] at a2
  cases a2

/-! ### Histories of the buffer of the decompressor -/

structure InInv (n : Nat) (x : InRun) : Prop where
  ring : Ring n x.s (x.accepted.drop x.read.length)
  w8 : x.s.w % 8 = 0
  prefix_ : x.read <+: x.accepted

theorem inRun_init {n : Nat} (hn : 0 < n) (junk : Nat → Bool) : InInv n (InRun.init junk) := by
  refine ⟨⟨?_, ?_, ?_, ?_, ?_⟩, rfl, List.prefix_refl _⟩
  · show 0 < 8 * n; omega
  · show 0 ≤ 8 * n; omega
  · show 0 = pos n 0 0; unfold pos; rw [if_pos (by omega)]
  · show true = decide (0 + 0 < 8 * n); simp; exact hn
  · intro i b hb; cases hb

theorem Ring.copy_le {n : Nat} {s : Buf} {q : List Bool} (h : Ring n s q) (h8 : s.w % 8 = 0) (m : Nat) :
    s.w + 8 * s.copySize n m ≤ 8 * n ∧ q.length + 8 * s.copySize n m ≤ 8 * n ∧ (s.cont = false → s.w + 8 * s.copySize n m < 8 * n) ∧ (s.cont = true → s.w = s.r + q.length) ∧ (s.cont = false → s.w + 8 * n = s.r + q.length) := by
  have h1 := h.r_lt
  have h2 := h.len
  have h3 := h.w_eq
  have h4 := h.cont_eq
  unfold Buf.copySize
  rw [h4]
  unfold pos at h3
  by_cases hc : s.r + q.length < 8 * n
  · rw [if_pos hc] at h3
    simp only [hc, decide_true, if_true]
    refine ⟨by omega, by omega, fun e => (nomatch e), fun _ => h3, fun e => (nomatch e)⟩
  · rw [if_neg hc] at h3
    simp only [hc, decide_false, Bool.false_eq_true, if_false]
    refine ⟨by omega, by omega, fun _ => by omega, fun e => (nomatch e), fun _ => by omega⟩

theorem ring_addBytes {n : Nat} {s : Buf} {q : List Bool} (h : Ring n s q) (h8 : s.w % 8 = 0) (bits : List Bool) :
    ∃ s', s.addBytes n bits = .ok (s.copySize n (bits.length / 8), s') ∧ Ring n s' (q ++ bits.take (8 * s.copySize n (bits.length / 8))) ∧ s'.w % 8 = 0 ∧ s'.r = s.r := by
  have h1 := h.r_lt
  have h2 := h.len
  obtain ⟨c1, c2, c3, c4, c5⟩ := h.copy_le h8 (bits.length / 8)
  have hcm : s.copySize n (bits.length / 8) ≤ bits.length / 8 := Nat.min_le_left _ _
  have hunf : s.addBytes n bits = .ok (s.copySize n (bits.length / 8), ⟨fun i => if s.w ≤ i ∧ i < s.w + 8 * s.copySize n (bits.length / 8) then bits.getD (i - s.w) false else s.data i,
      if s.w + 8 * s.copySize n (bits.length / 8) = 8 * n then 0 else s.w + 8 * s.copySize n (bits.length / 8), s.r,
      if s.w + 8 * s.copySize n (bits.length / 8) = 8 * n then !s.cont else s.cont⟩) := by unfold Buf.addBytes; rw [if_pos c1]
  generalize s.copySize n (bits.length / 8) = c at c1 c2 c3 hcm hunf ⊢
  have hlen : (q ++ bits.take (8 * c)).length = q.length + 8 * c := by rw [List.length_append, List.length_take, Nat.min_eq_left (by omega)]
  have hcont := h.cont_eq
  refine ⟨_, hunf, ⟨h1, by rw [hlen]; exact c2, ?_, ?_, ?_⟩, ?_, rfl⟩
  · show (if s.w + 8 * c = 8 * n then 0 else s.w + 8 * c) = pos n s.r _
    rw [hlen]
    unfold pos
    cases hb : s.cont with
    | true => have := c4 hb; split <;> split <;> omega
    | false => have := c5 hb; have := c3 hb; split <;> split <;> omega
  · show (if s.w + 8 * c = 8 * n then !s.cont else s.cont) = decide (s.r + _ < 8 * n)
    rw [hlen]
    cases hb : s.cont with
    | true =>
      have := c4 hb
      split
      · symm; simp; omega
      · symm; simp; omega
    | false =>
      have := c5 hb; have := c3 hb
      rw [if_neg (by omega)]
      symm; simp; omega
  · intro i b hb
    have hil := (List.getElem?_eq_some_iff.1 hb).1
    rw [hlen] at hil
    show (if s.w ≤ pos n s.r i ∧ pos n s.r i < s.w + 8 * c then bits.getD (pos n s.r i - s.w) false else s.data (pos n s.r i)) = b
    by_cases hi : i < q.length
    · rw [if_neg, h.data i b (by rw [List.getElem?_append_left hi] at hb; exact hb)]
      unfold pos
      cases hbc : s.cont with
      | true => have := c4 hbc; split <;> omega
      | false => have := c5 hbc; have := c3 hbc; split <;> omega
    · have hp : pos n s.r i = s.w + (i - q.length) := by
        unfold pos
        cases hbc : s.cont with
        | true => have := c4 hbc; split <;> omega
        | false => have := c5 hbc; have := c3 hbc; split <;> omega
      rw [hp, if_pos (by omega), Nat.add_sub_cancel_left]
      rw [List.getElem?_append_right (by omega), List.getElem?_take_of_lt (by omega)] at hb
      simp [List.getD, hb]
  · show (if s.w + 8 * c = 8 * n then 0 else s.w + 8 * c) % 8 = 0
    split <;> omega

theorem ring_getBit {n : Nat} {s : Buf} {b : Bool} {q : List Bool} (h : Ring n s (b :: q)) : ∃ s', s.getBit n = .ok (b, s') ∧ Ring n s' q ∧ s'.w = s.w := by
  have h1 := h.r_lt
  have h2 := h.len
  have h3 := h.w_eq
  have h4 := h.cont_eq
  rw [List.length_cons] at h2 h3 h4
  have hb : s.data s.r = b := by
    have := h.data 0 b rfl
    unfold pos at this; rw [if_pos (by omega), Nat.add_zero] at this; exact this
  refine ⟨⟨s.data, s.w, if s.r + 1 = 8 * n then 0 else s.r + 1, if s.r + 1 = 8 * n then !s.cont else s.cont⟩, by unfold Buf.getBit; rw [if_pos h1, hb], ⟨?_, by omega, ?_, ?_, ?_⟩, rfl⟩
  · show (if s.r + 1 = 8 * n then 0 else s.r + 1) < 8 * n
    split <;> omega
  · show s.w = pos n (if s.r + 1 = 8 * n then 0 else s.r + 1) _
    rw [h3]
    unfold pos
    split <;> split <;> split <;> omega
  · show (if s.r + 1 = 8 * n then !s.cont else s.cont) = decide ((if s.r + 1 = 8 * n then 0 else s.r + 1) + q.length < 8 * n)
    rw [h4]
    by_cases hc : s.r + 1 = 8 * n
    · rw [if_pos hc, if_pos hc]
      have e1 : decide (s.r + (q.length + 1) < 8 * n) = false := by simp; omega
      rw [e1]; symm; simp; omega
    · rw [if_neg hc, if_neg hc]
      have : (s.r + (q.length + 1) < 8 * n) = (s.r + 1 + q.length < 8 * n) := by apply propext; omega
      simp only [this]
  · intro i b' hb'
    have hil := (List.getElem?_eq_some_iff.1 hb').1
    show s.data (pos n (if s.r + 1 = 8 * n then 0 else s.r + 1) i) = b'
    rw [← h.data (i + 1) b' (by rw [List.getElem?_cons_succ]; exact hb')]
    congr 1
    unfold pos
    split <;> split <;> split <;> omega

theorem inRun_step {n : Nat} {x : InRun} (o : InOp) (h : InInv n x) : (∀ y, x.step n o = .ok y → InInv n y) ∧ x.step n o ≠ .error .outOfRange := by
  have hp := h.prefix_.length_le
  cases o with
  | bytes bits =>
    obtain ⟨s', e, a, b, _⟩ := ring_addBytes h.ring h.w8 bits
    simp only [InRun.step, e]
    refine ⟨fun y hy => ?_, fun e => (nomatch e)⟩
    injection hy with hy; subst hy
    refine ⟨?_, b, h.prefix_.trans (List.prefix_append _ _)⟩
    show Ring n s' ((x.accepted ++ _).drop x.read.length)
    rw [List.drop_append_of_le_length hp]; exact a
  | get =>
    simp only [InRun.step]
    by_cases hc : x.read.length < x.accepted.length
    · rw [if_pos hc]
      have hd := List.drop_eq_getElem_cons hc
      have hr := h.ring
      rw [hd] at hr
      obtain ⟨s', e, a, b⟩ := ring_getBit hr
      rw [e]
      refine ⟨fun y hy => ?_, fun e => (nomatch e)⟩
      injection hy with hy; subst hy
      refine ⟨?_, by show s'.w % 8 = 0; rw [b]; exact h.w8, ?_⟩
      · show Ring n s' (x.accepted.drop (x.read ++ [x.accepted[x.read.length]]).length)
        rw [List.length_append]; exact a
      · obtain ⟨t, ht⟩ := h.prefix_
        refine ⟨x.accepted.drop (x.read.length + 1), ?_⟩
        show x.read ++ [x.accepted[x.read.length]] ++ _ = x.accepted
        rw [List.append_assoc, List.singleton_append, ← hd]
        have e2 : x.accepted.drop x.read.length = t := by rw [← ht, List.drop_left]
        rw [e2, ht]
    · rw [if_neg hc]; exact ⟨fun y hy => (nomatch hy), fun e => (nomatch e)⟩

theorem inRun_run {n : Nat} : ∀ (os : List InOp) (x : InRun), InInv n x → (∀ y, x.run n os = .ok y → InInv n y) ∧ x.run n os ≠ .error .outOfRange := by
  intro os
  induction os with
  | nil => intro x h; exact ⟨fun y hs => by injection hs with hs; subst hs; exact h, fun e => (nomatch e)⟩
  | cons o os ih =>
    intro x h
    simp only [InRun.run]
    obtain ⟨a, b⟩ := inRun_step o h
    cases h1 : x.step n o with
    | error e => exact ⟨fun y hy => (nomatch hy), fun e2 => by injection e2 with e2; rw [e2] at h1; exact b h1⟩
    | ok z => exact ih z (a z h1)

/-- The bits that are read are the bits of the bytes that were accepted, in order, and the sizes that the buffer reports are right; no access is outside the array. -/
theorem bytes_to_bits_is_queue (n : Nat) (hn : 0 < n) (hmax : 8 * n < 18446744073709551616) (junk : Nat → Bool) (os : List InOp) :
    (∀ x, (InRun.init junk).run n os = .ok x →
      x.read <+: x.accepted ∧ x.s.size n = x.accepted.length - x.read.length ∧ x.s.free n = 8 * n - (x.accepted.length - x.read.length)) ∧ (InRun.init junk).run n os ≠ .error .outOfRange := by
  obtain ⟨a, b⟩ := inRun_run os _ (inRun_init hn junk)
  refine ⟨fun x hx => ?_, b⟩
  have hi := a x hx
  refine ⟨hi.prefix_, by rw [hi.ring.size_eq, List.length_drop], by rw [hi.ring.free_eq hmax, List.length_drop]⟩

/-- The loop that fills the buffer accepts as many bytes as there are and fit, in two rounds at most. -/
theorem bytes_to_bits_accepts (n : Nat) (hn : 0 < n) (hmax : 8 * n < 18446744073709551616) (junk : Nat → Bool) (os : List InOp) (x : InRun) (h : (InRun.init junk).run n os = .ok x) (bits : List Bool)
    (fuel : Nat) (hf : 2 ≤ fuel) :
    ∃ s' os', x.s.processInput n fuel bits = .ok (min (bits.length / 8) ((8 * n - (x.accepted.length - x.read.length)) / 8), s') ∧
      x.run n os' = .ok ⟨s', x.accepted ++ bits.take (8 * min (bits.length / 8) ((8 * n - (x.accepted.length - x.read.length)) / 8)), x.read⟩ := by
  have key : ∀ (fuel : Nat) (x : InRun) (bits : List Bool), InInv n x →
      (2 ≤ fuel ∨ (1 ≤ fuel ∧ (x.s.cont = false ∨ 8 * n - (x.accepted.length - x.read.length) < 8 ∨ bits.length < 8)) ∨ 8 * n - (x.accepted.length - x.read.length) < 8 ∨ bits.length < 8) →
      ∃ s' os', x.s.processInput n fuel bits = .ok (min (bits.length / 8) ((8 * n - (x.accepted.length - x.read.length)) / 8), s') ∧
      x.run n os' = .ok ⟨s', x.accepted ++ bits.take (8 * min (bits.length / 8) ((8 * n - (x.accepted.length - x.read.length)) / 8)), x.read⟩ := by
    intro fuel
    induction fuel with
    | zero =>
      intro x bits hx hcase
      have hm : min (bits.length / 8) ((8 * n - (x.accepted.length - x.read.length)) / 8) = 0 := by omega
      rw [hm]
      exact ⟨x.s, [], rfl, by rw [Nat.mul_zero, List.take_zero, List.append_nil]; rfl⟩
    | succ fuel ih =>
      intro x bits hx hcase
      have hfree := hx.ring.free_eq hmax
      rw [List.length_drop] at hfree
      have hl := hx.ring.len
      rw [List.length_drop] at hl
      have hp := hx.prefix_.length_le
      simp only [Buf.processInput, hfree]
      by_cases hc : bits.length / 8 ≠ 0 ∧ (8 * n - (x.accepted.length - x.read.length)) / 8 ≠ 0
      · rw [if_pos hc]
        obtain ⟨s1, e, a, b, c⟩ := ring_addBytes hx.ring hx.w8 bits
        obtain ⟨c1, c2, c3, c4, c5⟩ := hx.ring.copy_le hx.w8 (bits.length / 8)
        rw [List.length_drop] at c2 c4 c5
        have hr := hx.ring.r_lt
        have hw8 := hx.w8
        have hcs : x.s.copySize n (bits.length / 8) = min (bits.length / 8) (if x.s.cont then n - x.s.w / 8 else x.s.r / 8 - x.s.w / 8) := rfl
        rw [e]
        simp only []
        have hk0 : x.s.copySize n (bits.length / 8) ≠ 0 := by
          rw [hcs]
          cases hbc : x.s.cont with
          | true => have := c4 hbc; have := hx.ring.w_eq; have hwl : x.s.w < 8 * n := by (rw [hx.ring.w_eq]; exact pos_lt hr hx.ring.len)
                    simp only [if_true]; omega
          | false => have := c5 hbc; simp only [Bool.false_eq_true, if_false]; omega
        rw [if_neg hk0]
        have hst : x.step n (.bytes bits) = .ok ⟨s1, x.accepted ++ bits.take (8 * x.s.copySize n (bits.length / 8)), x.read⟩ := by simp only [InRun.step, e]
        have hx1 := (inRun_step (.bytes bits) hx).1 _ hst
        have hs1c : s1.cont = decide (s1.r + (x.accepted.length + 8 * x.s.copySize n (bits.length / 8) - x.read.length) < 8 * n) := by
          have := hx1.ring.cont_eq
          simp only [List.length_drop, List.length_append, List.length_take] at this
          rw [Nat.min_eq_left (by have : x.s.copySize n (bits.length / 8) ≤ bits.length / 8 := Nat.min_le_left _ _
                                  omega)] at this
          exact this
        have hkm : x.s.copySize n (bits.length / 8) ≤ bits.length / 8 := Nat.min_le_left _ _
        have hacc : (x.accepted ++ bits.take (8 * x.s.copySize n (bits.length / 8))).length = x.accepted.length + 8 * x.s.copySize n (bits.length / 8) := by
          rw [List.length_append, List.length_take, Nat.min_eq_left (by omega)]
        have hnext : 2 ≤ fuel ∨ (1 ≤ fuel ∧ (s1.cont = false ∨ 8 * n - (x.accepted.length + 8 * x.s.copySize n (bits.length / 8) - x.read.length) < 8 ∨ (bits.drop (8 * x.s.copySize n (bits.length / 8))).length < 8)) ∨
            8 * n - (x.accepted.length + 8 * x.s.copySize n (bits.length / 8) - x.read.length) < 8 ∨ (bits.drop (8 * x.s.copySize n (bits.length / 8))).length < 8 := by
          rw [List.length_drop]
          cases hbc : x.s.cont with
          | true =>
            have h5 := c4 hbc
            rw [hbc, if_pos rfl] at hcs
            by_cases hbig : bits.length / 8 ≤ n - x.s.w / 8
            · right; right; right; omega
            · have : x.s.copySize n (bits.length / 8) = n - x.s.w / 8 := by omega
              have hfalse : s1.cont = false := by rw [hs1c, c]; simp; omega
              rcases hcase with h6 | ⟨h6, h7 | h7⟩ | h6
              · right; left; exact ⟨by omega, Or.inl hfalse⟩
              · rw [hbc] at h7; cases h7
              · omega
              · omega
          | false =>
            have h5 := c5 hbc
            rw [hbc, if_neg (by decide)] at hcs
            right; right
            omega
        obtain ⟨s2, os2, e2, r2⟩ := ih ⟨s1, x.accepted ++ bits.take (8 * x.s.copySize n (bits.length / 8)), x.read⟩ (bits.drop (8 * x.s.copySize n (bits.length / 8))) hx1 (by simp only [hacc]; exact hnext)
        simp only [hacc, List.length_drop] at e2 r2
        refine ⟨s2, .bytes bits :: os2, ?_, ?_⟩
        · rw [e2]; simp only []; congr 2; omega
        · simp only [InRun.run, hst, r2]
          congr 2
          rw [List.append_assoc]
          congr 1
          rw [← List.take_add]
          congr 1
          omega
      · rw [if_neg hc]
        have hm : min (bits.length / 8) ((8 * n - (x.accepted.length - x.read.length)) / 8) = 0 := by omega
        rw [hm]
        exact ⟨x.s, [], rfl, by rw [Nat.mul_zero, List.take_zero, List.append_nil]; rfl⟩
  exact key fuel x bits ((inRun_run os _ (inRun_init hn junk)).1 x h) (Or.inl hf)

/-- Two bytes in a buffer of two bytes, after one byte was read. -/
example : ∃ x, (InRun.init fun _ => true).run 2 ([.bytes (List.replicate 16 false)] ++ List.replicate 8 .get ++ [.bytes (List.replicate 8 true)]) = .ok x ∧ x.s.size 2 = 16 ∧ x.read.length = 8 := ⟨_, rfl, rfl, rfl⟩

/-- If a bit is read although there is none, the buffer gives what happens to be there: at the beginning, what the memory held before. -/
theorem bytes_to_bits_underrun_violated (n : Nat) (hn : 0 < n) (junk : Nat → Bool) : ∃ s', (Buf.init junk).getBit n = .ok (junk 0, s') := by
  refine ⟨⟨junk, 0, if 0 + 1 = 8 * n then 0 else 0 + 1, if 0 + 1 = 8 * n then !true else true⟩, ?_⟩
  unfold Buf.getBit Buf.init
  rw [if_pos (by show 0 < 8 * n; omega)]

end Verif.Compress
