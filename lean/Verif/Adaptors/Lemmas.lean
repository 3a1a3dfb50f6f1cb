import Verif.Adaptors.Spec
namespace Verif.Adaptors
section
variable {α : Type}

theorem consumeAll_prefix : ∀ (env : List Nat) (d : List α), ∃ r, d = (consumeAll env d).accepted ++ r ∧ ((consumeAll env d).env ≠ [] → r = [])
  | [], d => ⟨d, rfl, fun h => absurd rfl h⟩
  | k :: env, d => by
    unfold consumeAll
    split
    · rename_i h
      have : d = [] := List.eq_nil_of_length_eq_zero h
      subst this
      exact ⟨[], rfl, fun _ => rfl⟩
    · obtain ⟨r, h1, h2⟩ := consumeAll_prefix env (d.drop (min k d.length))
      refine ⟨r, ?_, h2⟩
      simp only
      rw [List.append_assoc, ← h1, List.take_append_drop]

theorem mod_sub (a n k : Nat) (h1 : n % a = 0) (h2 : k % a = 0) : (n - k) % a = 0 := by
  obtain ⟨x, rfl⟩ := Nat.dvd_of_mod_eq_zero h1
  obtain ⟨y, rfl⟩ := Nat.dvd_of_mod_eq_zero h2
  rw [← Nat.mul_sub]
  exact Nat.mul_mod_right a _

theorem mod_min (a n k : Nat) (h1 : n % a = 0) (h2 : k % a = 0) : min n k % a = 0 := by
  rcases Nat.le_total n k with h | h
  · rw [Nat.min_eq_left h]; exact h1
  · rw [Nat.min_eq_right h]; exact h2

theorem consumeAll_aligned (a : Nat) : ∀ (env : List Nat) (d : List α), d.length % a = 0 → (∀ k ∈ env, k % a = 0) →
    ∀ b ∈ (consumeAll env d).offered, b.length % a = 0 ∧ b ≠ []
  | [], d, _, _, b, hb => by simp [consumeAll] at hb
  | k :: env, d, hd, hk, b, hb => by
    unfold consumeAll at hb
    split at hb
    · cases hb
    · rename_i hne
      simp only [List.mem_cons] at hb
      rcases hb with rfl | hb
      · exact ⟨hd, fun h => hne (by rw [h]; rfl)⟩
      · exact consumeAll_aligned a env (d.drop (min k d.length))
          (by rw [List.length_drop]; exact mod_sub a _ _ hd (mod_min a _ _ (hk k List.mem_cons_self) hd)) (fun k' h => hk k' (List.mem_cons_of_mem _ h)) b hb

/-- Effect of one call: what is claimed comes out, or stays in the buffer. -/
theorem align_call (a : Nat) (ha : 0 < a) (ub : Bool) (buffer data : List α) (env : List Nat) (hb : buffer.length < a)
    (hu : buffer ≠ [] → (align a ub buffer data env).2.2.env ≠ []) :
    (align a ub buffer data env).2.1 ≤ data.length ∧ (align a ub buffer data env).1.length < a ∧
    buffer ++ data.take (align a ub buffer data env).2.1 = (align a ub buffer data env).2.2.accepted ++ (align a ub buffer data env).1 := by
  unfold align at hu ⊢
  by_cases h0 : buffer.length = 0
  · rw [if_pos h0]
    have : buffer = [] := List.eq_nil_of_length_eq_zero h0
    subst this
    have hle : alignDown data.length a ≤ data.length := Nat.mul_div_le _ _
    obtain ⟨r, h1, h2⟩ := consumeAll_prefix env (data.take (alignDown data.length a))
    have hpre : (consumeAll env (data.take (alignDown data.length a))).accepted = data.take (consumeAll env (data.take (alignDown data.length a))).accepted.length := by
      have h3 := congrArg (List.take (consumeAll env (data.take (alignDown data.length a))).accepted.length) h1
      rw [List.take_left, List.take_take] at h3
      have h4 := congrArg List.length h1
      rw [List.length_take, List.length_append] at h4
      rw [Nat.min_eq_left (by omega)] at h3
      exact h3.symm
    have hlen : (consumeAll env (data.take (alignDown data.length a))).accepted.length ≤ alignDown data.length a := by
      have h4 := congrArg List.length h1
      rw [List.length_take, List.length_append] at h4
      omega
    unfold alignDirect
    generalize hfx : consumeAll env (data.take (alignDown data.length a)) = fx at *
    by_cases hc : (ub && !fx.env.isEmpty && decide (data.length - fx.accepted.length ≠ 0)) = true
    · rw [if_pos hc]
      simp only [Bool.and_eq_true, Bool.not_eq_true', List.isEmpty_eq_false_iff, decide_eq_true_eq] at hc
      obtain ⟨⟨_, hc2⟩, hc3⟩ := hc
      have hr := h2 hc2
      subst hr
      rw [List.append_nil] at h1
      have h5 := congrArg List.length h1
      rw [List.length_take] at h5
      have hdm := Nat.div_add_mod data.length a
      have hml := Nat.mod_lt data.length ha
      refine ⟨by simp only; omega, ?_, ?_⟩
      · simp only [List.length_take, List.length_drop]
        unfold alignDown at *
        omega
      · simp only [List.nil_append]
        rw [List.take_of_length_le (by omega), List.take_of_length_le (l := List.drop _ _) (by rw [List.length_drop]; omega)]
        conv => rhs; lhs; rw [hpre]
        rw [List.take_append_drop]
    · rw [if_neg hc]
      refine ⟨by simp only; omega, ha, ?_⟩
      simp only [List.nil_append, List.append_nil]
      exact hpre.symm
  · rw [if_neg h0] at hu ⊢
    have hne : buffer ≠ [] := fun h => h0 (by rw [h]; rfl)
    have hu := hu hne
    unfold alignBuffered at hu ⊢
    by_cases hf : (buffer ++ data.take (min (a - buffer.length) data.length)).length = a
    · rw [if_pos hf] at hu ⊢
      simp only at hu ⊢
      obtain ⟨r, h1, h2⟩ := consumeAll_prefix env (buffer ++ data.take (min (a - buffer.length) data.length))
      have hr := h2 hu
      subst hr
      exact ⟨by omega, by simpa using ha, h1⟩
    · rw [if_neg hf]
      refine ⟨by simp only; omega, ?_, rfl⟩
      simp only
      rw [List.length_append, List.length_take] at hf ⊢
      omega

theorem align_run (a : Nat) (ha : 0 < a) (ub : Bool) : ∀ (os : List Offer) (s : AlignSys α), s.buffer.length < a → Spec.Uncancelled a ub s os →
    (alignRun a ub s os).accepted ++ (alignRun a ub s os).buffer ++ (alignRun a ub s os).src = s.accepted ++ s.buffer ++ s.src ∧
    (alignRun a ub s os).buffer.length < a
  | [], s, hb, _ => ⟨rfl, hb⟩
  | o :: os, s, hb, hu => by
    obtain ⟨h1, h2, h3⟩ := align_call a ha ub s.buffer (s.src.take o.size) o.env hb hu.1
    obtain ⟨i1, i2⟩ := align_run a ha ub os (alignStep a ub s o) h2 hu.2
    refine ⟨?_, i2⟩
    refine Eq.trans i1 ?_
    unfold alignStep
    simp only
    generalize align a ub s.buffer (s.src.take o.size) o.env = r at *
    rw [List.append_assoc s.accepted, ← h3, List.length_take] at *
    rw [List.take_take, Nat.min_eq_left (by omega)]
    simp only [List.append_assoc, List.take_append_drop]

theorem align_offered (a : Nat) (ub : Bool) (buffer data : List α) (env : List Nat) (hk : ∀ k ∈ env, k % a = 0) :
    ∀ b ∈ (align a ub buffer data env).2.2.offered, b.length % a = 0 := by
  intro b hb
  unfold align at hb
  split at hb
  · have hd : (data.take (alignDown data.length a)).length % a = 0 := by
      rw [List.length_take]
      have : alignDown data.length a ≤ data.length := Nat.mul_div_le _ _
      rw [Nat.min_eq_left this]
      exact Nat.mul_mod_right _ _
    have : (alignDirect ub data (consumeAll env (data.take (alignDown data.length a)))).2.2 = consumeAll env (data.take (alignDown data.length a)) := by
      unfold alignDirect; split <;> rfl
    rw [this] at hb
    exact (consumeAll_aligned a env _ hd hk b hb).1
  · unfold alignBuffered at hb
    split at hb
    · rename_i hf
      exact (consumeAll_aligned a env _ (by rw [hf]; exact Nat.mod_self a) hk b hb).1
    · cases hb

theorem align_run_offered (a : Nat) (ub : Bool) : ∀ (os : List Offer) (s : AlignSys α), (∀ o ∈ os, ∀ k ∈ o.env, k % a = 0) →
    (∀ b ∈ s.offered, b.length % a = 0) → ∀ b ∈ (alignRun a ub s os).offered, b.length % a = 0
  | [], s, _, hs => hs
  | o :: os, s, hk, hs => by
    apply align_run_offered a ub os (alignStep a ub s o) (fun o' h => hk o' (List.mem_cons_of_mem _ h))
    intro b hb
    simp only [alignStep, List.mem_append] at hb
    rcases hb with hb | hb
    · exact hs b hb
    · exact align_offered a ub _ _ _ (hk o List.mem_cons_self) b hb

/-! ### Taking -/

/-- `l`: what is left to take. -/
structure TakeInv (discardRest : Bool) (src0 : List α) (n : Nat) (s : TakeSys α) (l : Nat) : Prop where
  pre : s.delivered = src0.take s.delivered.length
  le : s.delivered.length ≤ n
  src : (discardRest = false ∨ 0 < l) → s.src = src0.drop s.delivered.length
  main : s.delivered.length + l = n ∨ (l = 0 ∧ s.delivered = src0)

theorem takeProcess_inv (dr : Bool) (src0 : List α) (n : Nat) (s : TakeSys α) (l : Nat) (h : TakeInv dr src0 n s l) (size k : Nat) :
    TakeInv dr src0 n { s with src := s.src.drop (takeProcess dr l (s.src.take size) k).2.1, session := some (takeProcess dr l (s.src.take size) k).1,
                               delivered := s.delivered ++ (takeProcess dr l (s.src.take size) k).2.2 } (takeProcess dr l (s.src.take size) k).1 := by
  unfold takeProcess
  by_cases h0 : min l (s.src.take size).length = 0
  · rw [if_pos h0]
    refine ⟨by simp only [List.append_nil]; exact h.pre, by simp only [List.append_nil]; exact h.le, ?_, by simp only [List.append_nil]; exact h.main⟩
    simp only [List.append_nil]
    intro hx
    have hs := h.src hx
    rcases hx with rfl | hl
    · simp only [Bool.false_eq_true, ↓reduceIte, List.drop_zero]; exact hs
    · have hz : (s.src.take size).length = 0 := by omega
      rw [hz]
      simp only [ite_self, List.drop_zero]; exact hs
  · rw [if_neg h0]
    have hs := h.src (Or.inr (by omega))
    have hlen : (s.src.take size).length ≤ s.src.length := by rw [List.length_take]; omega
    generalize hm : min k (min l (s.src.take size).length) = m
    have hml : m ≤ l := by omega
    have hms : m ≤ (s.src.take size).length := by omega
    have hmz : m ≤ size := by rw [List.length_take] at hms; omega
    have hacc : ((s.src.take size).take (min l (s.src.take size).length)).take m = (src0.drop s.delivered.length).take m := by
      rw [List.take_take, List.take_take, hs]
      congr 1
      rw [hs] at hm
      omega
    have hmain : s.delivered.length + l = n := by
      rcases h.main with h1 | ⟨h1, _⟩
      · exact h1
      · omega
    have hll : ((src0.drop s.delivered.length).take m).length = m := by
      rw [List.length_take, ← hs]; omega
    refine ⟨?_, ?_, ?_, ?_⟩
    · simp only
      rw [hacc, List.length_append, hll]
      conv => lhs; lhs; rw [h.pre]
      rw [List.take_add]
    · simp only
      rw [hacc, List.length_append, hll]; omega
    · intro _
      simp only
      rw [hacc, List.length_append, hll, hs, List.drop_drop]
    · left
      simp only
      rw [hacc, List.length_append, hll]; omega

theorem takeStep_inv (dr : Bool) (src0 : List α) (n : Nat) (s s' : TakeSys α) (op : TakeOp) (hop : op ≠ .readThrow)
    (h : TakeInv dr src0 n s (s.session.getD s.left)) (hs : takeStep dr s op = some s') : TakeInv dr src0 n s' (s'.session.getD s'.left) := by
  cases hse : s.session with
  | none =>
    cases op with
    | readBegin =>
      simp only [takeStep, hse] at hs
      cases hs
      rw [hse] at h
      exact ⟨h.pre, h.le, h.src, h.main⟩
    | _ => simp [takeStep, hse] at hs
  | some l =>
    rw [hse] at h
    simp only [Option.getD_some] at h
    cases op with
    | readBegin => simp [takeStep, hse] at hs
    | offer size k =>
      simp only [takeStep, hse] at hs
      cases hs
      exact takeProcess_inv dr src0 n s l h size k
    | endOfData =>
      simp only [takeStep, hse] at hs
      by_cases he : s.src = []
      · rw [if_pos he] at hs
        cases hs
        simp only [Option.getD_some]
        refine ⟨h.pre, h.le, fun hx => ?_, ?_⟩
        · rcases hx with hx | hx
          · exact h.src (Or.inl hx)
          · omega
        · rcases h.main with h1 | h1
          · rcases Nat.eq_zero_or_pos l with h0 | h0
            · left; simp only; omega
            · right
              refine ⟨rfl, ?_⟩
              have h2 := h.src (Or.inr h0)
              rw [he] at h2
              have h3 := congrArg List.length h2
              rw [List.length_drop, List.length_nil] at h3
              simp only
              rw [h.pre, List.take_of_length_le (by omega)]
          · right; exact ⟨rfl, h1.2⟩
      · rw [if_neg he] at hs; cases hs
    | readEnd =>
      simp only [takeStep, hse] at hs
      cases hs
      exact ⟨h.pre, h.le, h.src, h.main⟩
    | readThrow => exact absurd rfl hop

theorem takeRun_inv (dr : Bool) (src0 : List α) (n : Nat) : ∀ (ops : List TakeOp) (s s' : TakeSys α), .readThrow ∉ ops →
    TakeInv dr src0 n s (s.session.getD s.left) → takeRun dr s ops = some s' → TakeInv dr src0 n s' (s'.session.getD s'.left)
  | [], s, s', _, h, hs => by cases hs; exact h
  | op :: ops, s, s', hop, h, hs => by
    simp only [takeRun] at hs
    simp only [List.mem_cons, not_or] at hop
    cases hst : takeStep dr s op with
    | none => rw [hst] at hs; cases hs
    | some s1 =>
      rw [hst] at hs
      exact takeRun_inv dr src0 n ops s1 s' hop.2 (takeStep_inv dr src0 n s s1 op (fun h => hop.1 h.symm) h hst) hs

/-! ### Skipping -/

structure SkipInv (src0 : List α) (n : Nat) (s : SkipSys α) : Prop where
  le : s.left ≤ n
  main : s.delivered ++ s.src = src0.drop (n - s.left)
  early : 0 < s.left → s.delivered = []

theorem skipStep_inv (pr : Bool) (src0 : List α) (n : Nat) (s : SkipSys α) (o : Offer) (h : SkipInv src0 n s)
    (hu : pr = true → (skipProcess pr s.left (s.src.take o.size) o.env).2.2.env ≠ []) :
    SkipInv src0 n (skipStep pr s o) ∧ (pr = false → (skipStep pr s o).delivered = s.delivered) := by
  have hlen : (s.src.take o.size).length ≤ s.src.length := by rw [List.length_take]; omega
  cases pr with
  | false =>
    refine ⟨?_, fun _ => by simp [skipStep, skipProcess]⟩
    simp only [skipStep, skipProcess, Bool.false_eq_true, ↓reduceIte, List.append_nil]
    refine ⟨by have := h.le; simp only; omega, ?_, ?_⟩
    · simp only
      rcases Nat.eq_zero_or_pos s.left with h0 | h0
      · rw [h0, Nat.zero_min, List.drop_zero, Nat.sub_zero]
        have := h.main; rw [h0] at this; exact this
      · have hd := h.early h0
        have hm := h.main
        rw [hd, List.nil_append] at hm ⊢
        rw [hm, List.drop_drop]
        congr 1
        have := h.le
        rw [hm] at hlen
        omega
    · simp only
      intro hl
      exact h.early (by omega)
  | true =>
    have hu := hu rfl
    refine ⟨?_, fun hx => by cases hx⟩
    simp only [skipStep, skipProcess, ↓reduceIte] at hu ⊢
    by_cases hc : min s.left (s.src.take o.size).length < (s.src.take o.size).length
    · rw [if_pos hc] at hu ⊢
      obtain ⟨r, h1, h2⟩ := consumeAll_prefix o.env ((s.src.take o.size).drop (min s.left (s.src.take o.size).length))
      have hr := h2 hu
      subst hr
      rw [List.append_nil] at h1
      rw [← h1]
      have hm : min s.left (s.src.take o.size).length = s.left := by omega
      rw [hm, Nat.sub_self]
      refine ⟨by simp only; omega, ?_, fun hl => by simp only at hl; omega⟩
      simp only
      have hsz : s.src.drop (s.src.take o.size).length = s.src.drop o.size := by
        rw [List.length_take]
        rcases Nat.le_total o.size s.src.length with hle | hle
        · rw [Nat.min_eq_left hle]
        · rw [Nat.min_eq_right hle, List.drop_eq_nil_of_le (Nat.le_refl _), List.drop_eq_nil_of_le hle]
      rw [hsz, List.append_assoc, ← List.drop_append_of_le_length (by omega), List.take_append_drop]
      rcases Nat.eq_zero_or_pos s.left with h0 | h0
      · rw [h0, List.drop_zero, Nat.sub_zero]
        have := h.main; rw [h0] at this; exact this
      · have hd := h.early h0
        have hmm := h.main
        rw [hd, List.nil_append] at hmm ⊢
        rw [hmm, List.drop_drop]
        congr 1
        have := h.le
        omega
    · rw [if_neg hc]
      simp only [List.append_nil]
      refine ⟨by have := h.le; simp only; omega, ?_, ?_⟩
      · simp only
        rcases Nat.eq_zero_or_pos s.left with h0 | h0
        · have hz : (s.src.take o.size).length = 0 := by omega
          rw [hz, h0, Nat.zero_min, List.drop_zero, Nat.sub_zero]
          have := h.main; rw [h0] at this; exact this
        · have hd := h.early h0
          have hm := h.main
          rw [hd, List.nil_append] at hm ⊢
          rw [hm, List.drop_drop]
          congr 1
          have := h.le
          rw [hm] at hc
          omega
      · simp only
        intro hl
        exact h.early (by omega)

theorem skipRun_inv (pr : Bool) (src0 : List α) (n : Nat) : ∀ (os : List Offer) (s : SkipSys α), SkipInv src0 n s →
    (pr = true → Spec.SkipUncancelled pr s os) → SkipInv src0 n (skipRun pr s os) ∧ (pr = false → (skipRun pr s os).delivered = s.delivered)
  | [], s, h, _ => ⟨h, fun _ => rfl⟩
  | o :: os, s, h, hu => by
    obtain ⟨h1, h2⟩ := skipStep_inv pr src0 n s o h (fun hp => (hu hp).1)
    obtain ⟨h3, h4⟩ := skipRun_inv pr src0 n os (skipStep pr s o) h1 (fun hp => (hu hp).2)
    exact ⟨h3, fun hp => (h4 hp).trans (h2 hp)⟩

end
end Verif.Adaptors
