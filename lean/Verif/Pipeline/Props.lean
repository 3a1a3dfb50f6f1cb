import Verif.Pipeline.Spec
/- Proofs about sources and consumers of data. -/
namespace Verif.Pipeline
open Spec
section
variable {α γ σ : Type}

theorem drop_drop_append (k : Nat) (d rest : List α) (h : k ≤ d.length) : (d ++ rest).drop k = d.drop k ++ rest := by
  rw [List.drop_append_of_le_length h]

/-- `ConsumeAll` offers the data in order, and returns how much was taken; without cancellation and exceptions it is everything. -/
theorem consumeAll_keeps (c : Consumer α γ) (I : List α → Bool → γ → Prop) (hI : Keeps c I) (n : Nat) :
    ∀ (d rest : List α) (w : γ), I (d ++ rest) false w →
      (∃ rest', I rest' false (consumeAll n c w d).1) ∧
      ((consumeAll n c w d).2 ≠ .cut → ∃ k, k ≤ d.length ∧ I ((d ++ rest).drop k) false (consumeAll n c w d).1) ∧
      ∀ m, (consumeAll n c w d).2 = .ok m →
        m ≤ d.length ∧ I ((d ++ rest).drop m) false (consumeAll n c w d).1 ∧ (Patient c → m = d.length) := by
  induction n with
  | zero => intro d rest w h; exact ⟨⟨_, h⟩, fun e => absurd rfl e, fun m e => nomatch e⟩
  | succ n ih =>
    intro d rest w h
    rw [consumeAll]
    have hp := hI.poll _ _ _ h
    by_cases hc : (c.poll w).2 = true ∧ d ≠ []
    · rw [if_pos hc]
      generalize hw : (c.poll w).1 = w1 at hp ⊢
      cases hr : c.process w1 d with
      | mk w2 r =>
        cases r with
        | ok k =>
          have ht := hI.took d rest w1 k hp (by rw [hr])
          rw [hr] at ht
          obtain ⟨hs, hk', hm⟩ := ih (d.drop k) rest w2 (by rw [← drop_drop_append _ _ _ ht.1]; exact ht.2)
          simp only [consumeRound]
          refine ⟨hs, fun hne => ?_, ?_⟩
          · obtain ⟨k', hk', hI'⟩ := hk' (fun e => hne (by rw [e]; rfl))
            refine ⟨k + k', ?_, ?_⟩
            · rw [List.length_drop] at hk'; omega
            · rw [← List.drop_drop, drop_drop_append _ _ _ ht.1]; exact hI'
          · intro m hm'
            cases hq : (consumeAll n c w2 (d.drop k)).2 with
            | ok q =>
              rw [hq] at hm'
              obtain ⟨h1, h2, h3⟩ := hm q hq
              simp only [Res.plus, Res.ok.injEq] at hm'
              subst hm'
              rw [List.length_drop] at h1
              refine ⟨by omega, ?_, fun hP => ?_⟩
              · rw [← List.drop_drop, drop_drop_append _ _ _ ht.1]; exact h2
              · have := h3 hP
                rw [List.length_drop] at this
                omega
            | thrown => rw [hq] at hm'; cases hm'
            | cut => rw [hq] at hm'; cases hm'
        | thrown =>
          have := hI.threw d rest w1 hp (by rw [hr])
          rw [hr] at this
          exact ⟨⟨_, this⟩, fun _ => ⟨0, Nat.zero_le _, this⟩, fun m e => nomatch e⟩
        | cut =>
          have := hI.stuck d rest w1 hp (by rw [hr])
          rw [hr] at this
          exact ⟨this, fun e => absurd rfl e, fun m e => nomatch e⟩
    · rw [if_neg hc]
      refine ⟨⟨_, hp⟩, fun _ => ⟨0, Nat.zero_le _, hp⟩, fun m e => ?_⟩
      cases Res.ok.inj e
      refine ⟨Nat.zero_le _, hp, fun hP => ?_⟩
      cases d with
      | nil => rfl
      | cons a d => exact absurd ⟨hP w, fun e => nomatch e⟩ hc

theorem consumeAll_calm (c : Consumer α γ) (hc : Calm c) (n : Nat) : ∀ (d : List α) (w : γ), (consumeAll n c w d).2 ≠ .thrown := by
  induction n with
  | zero => intro d w e; cases e
  | succ n ih =>
    intro d w
    rw [consumeAll]
    split
    · generalize (c.poll w).1 = w1
      have h1 := hc.1 w1 d
      cases hr : c.process w1 d with
      | mk w2 r =>
        rw [hr] at h1
        cases r with
        | ok k =>
          intro e
          simp only [consumeRound] at e
          have := ih (d.drop k) w2
          cases hq : (consumeAll n c w2 (d.drop k)).2 <;> simp_all [Res.plus]
        | thrown => exact absurd rfl h1
        | cut => intro e; cases e
    · intro e; cases e

/-! ### Sources -/

theorem lossless_empty : LosslessFor Anyone (emptyS : Source α Unit) (fun _ => []) := by
  intro γ c _ I hI n s w h
  refine ⟨fun _ => ⟨true, hI.ended w h, fun _ => rfl⟩, [], true, hI.ended w h⟩

/-- A byte array as a source, for every consumer and token. -/
theorem lossless_array : LosslessFor Anyone (arrayS : Source α (ArraySrc α)) (fun s => s.data.drop s.processed) := by
  intro γ c _ I hI n s w h
  simp only [arrayS]
  by_cases hp : s.processed < s.data.length
  · rw [if_pos hp]
    have h0 : I (s.data.drop s.processed ++ []) false w := by rw [List.append_nil]; exact h
    cases hr : c.process w (s.data.drop s.processed) with
    | mk w2 r =>
      cases r with
      | ok k =>
        have ht := hI.took _ [] w k h0 (by rw [hr])
        rw [hr, List.append_nil, List.drop_drop] at ht
        simp only [arrayAnswer]
        refine ⟨fun _ => ⟨false, ht.2, fun e => nomatch e⟩, _, false, ht.2⟩
      | thrown =>
        have := hI.threw _ [] w h0 (by rw [hr])
        rw [hr, List.append_nil] at this
        exact ⟨fun _ => ⟨false, this, fun e => nomatch e⟩, _, false, this⟩
      | cut =>
        obtain ⟨rest', this⟩ := hI.stuck _ [] w h0 (by rw [hr])
        rw [hr] at this
        exact ⟨fun e => absurd rfl e, rest', false, this⟩
  · rw [if_neg hp]
    have he : s.data.drop s.processed = [] := List.drop_eq_nil_of_le (by omega)
    simp only [he] at h ⊢
    exact ⟨fun _ => ⟨true, hI.ended w h, fun _ => trivial⟩, [], true, hI.ended w h⟩

theorem next_pos (cap : Nat) (hcap : 0 < cap) (s : InSrc α) : s.next cap = 0 ↔ s.rest = [] := by
  rw [← List.length_eq_zero_iff]
  unfold InSrc.next
  omega

theorem next_le (cap : Nat) (s : InSrc α) : s.next cap ≤ s.rest.length := by
  unfold InSrc.next
  omega

/-- A byte stream as a source, unless a call is cancelled or the consumer throws. -/
theorem lossless_stream_partial (cap : Nat) (hcap : 0 < cap) : LosslessFor Steady (streamS cap : Source α (InSrc α)) (fun s => s.rest) := by
  intro γ c hQ I hI n s w h
  simp only [streamS]
  by_cases hn : s.next cap ≠ 0
  · rw [if_pos hn]
    have hsplit := List.take_append_drop (s.next cap) s.rest
    obtain ⟨⟨rest', hs⟩, _, hm⟩ := consumeAll_keeps c I hI n (s.rest.take (s.next cap)) (s.rest.drop (s.next cap)) w (by rw [hsplit]; exact h)
    have hcalm := consumeAll_calm c hQ.2 n (s.rest.take (s.next cap)) w
    rw [hsplit] at hm
    refine ⟨fun hr => ?_, rest', false, hs⟩
    cases hq : (consumeAll n c w (s.rest.take (s.next cap))).2 with
    | ok m =>
      have hI' := (hm m hq).2.1
      rw [(hm m hq).2.2 hQ.1, List.length_take, Nat.min_eq_left (next_le cap s)] at hI'
      exact ⟨false, hI', fun e => nomatch e⟩
    | thrown => exact absurd hq hcalm
    | cut => rw [hq] at hr; exact absurd rfl hr
  · have hnil := (next_pos cap hcap s).mp (by omega)
    have haf : (s.after cap).rest = [] := by rw [InSrc.after, hnil]; exact List.drop_nil
    rw [if_neg hn, if_pos (hQ.1 w)]
    simp only [hnil] at h
    have he := hI.ended _ (hI.poll _ _ _ h)
    simp only [haf, hnil]
    exact ⟨fun _ => ⟨true, he, fun _ => trivial⟩, [], true, he⟩

/-- A pipe as a source, for consumers which always take everything and do not throw. -/
theorem lossless_pipe_partial (cap : Nat) (hcap : 0 < cap) : LosslessFor Eager (pipeS cap : Source α (InSrc α)) (fun s => s.rest) := by
  intro γ c hQ I hI n s w h
  simp only [pipeS]
  by_cases hnil : s.rest = []
  · rw [if_pos hnil]
    simp only [hnil] at h
    have he := hI.ended _ h
    simp only [hnil]
    exact ⟨fun _ => ⟨true, he, fun _ => trivial⟩, [], true, he⟩
  · have hn : s.next cap ≠ 0 := fun e => hnil ((next_pos cap hcap s).mp e)
    rw [if_neg hnil, if_neg hn]
    have hsplit := List.take_append_drop (s.next cap) s.rest
    have hlen : (s.rest.take (s.next cap)).length = s.next cap := by rw [List.length_take, Nat.min_eq_left (next_le cap s)]
    have h0 : I (s.rest.take (s.next cap) ++ s.rest.drop (s.next cap)) false w := by rw [hsplit]; exact h
    have h1 := hQ.2.1 w (s.rest.take (s.next cap))
    cases hr : c.process w (s.rest.take (s.next cap)) with
    | mk w2 r =>
      rw [hr] at h1
      cases r with
      | ok k =>
        have ht := hI.took _ _ w k h0 (by rw [hr])
        have hg := hQ.1 w (s.rest.take (s.next cap)) k (by rw [hr])
        rw [hlen] at hg
        subst hg
        rw [hr, hsplit] at ht
        simp only [pipeAnswer, if_neg hn, ite_true]
        exact ⟨fun _ => ⟨false, ht.2, fun e => nomatch e⟩, _, false, ht.2⟩
      | thrown => exact absurd rfl h1
      | cut =>
        obtain ⟨rest', this⟩ := hI.stuck _ _ w h0 (by rw [hr])
        rw [hr] at this
        exact ⟨fun e => absurd rfl e, rest', false, this⟩

/-- A mediator as a source, unless a call is cancelled or the consumer throws. -/
theorem lossless_mediator_partial : LosslessFor Steady (mediatorS : Source α (Mediator α)) (fun m => m.buffer) := by
  intro γ c hQ I hI n m w h
  simp only [mediatorS]
  obtain ⟨⟨rest', hs⟩, _, hm⟩ := consumeAll_keeps c I hI n m.buffer [] w (by rw [List.append_nil]; exact h)
  have hcalm := consumeAll_calm c hQ.2 n m.buffer w
  rw [List.append_nil] at hm
  cases hq : consumeAll n c w m.buffer with
  | mk w2 r =>
    rw [hq] at hs hcalm hm
    cases r with
    | ok j =>
      obtain ⟨_, hI', hkk⟩ := hm j rfl
      have hnil : m.buffer.drop j = [] := List.drop_eq_nil_of_le (by have := hkk hQ.1; omega)
      rw [hnil] at hI'
      simp only [mediatorAnswer]
      by_cases heod : m.eod = true
      · rw [if_pos heod]
        have he := hI.ended w2 hI'
        have hnt := hQ.2.2 w2
        cases hz : c.endOfData w2 with
        | mk w3 r3 =>
          rw [hz] at he hnt
          cases r3 with
          | ok _ => exact ⟨fun _ => ⟨true, he, fun _ => rfl⟩, [], true, he⟩
          | thrown => exact absurd rfl hnt
          | cut => exact ⟨fun e => absurd rfl e, [], true, he⟩
      · rw [if_neg heod]
        exact ⟨fun _ => ⟨false, hI', fun e => nomatch e⟩, [], false, hI'⟩
    | thrown => exact absurd rfl hcalm
    | cut => exact ⟨fun e => absurd rfl e, rest', false, hs⟩

/-! ### Adaptors -/

theorem keeps_reactive {c : Consumer α γ} {I : List α → Bool → γ → Prop} (h : Keeps c I) :
    Keeps (reactiveC c) (fun rest e w => I rest e w.1 ∧ w.2 = e) where
  poll := fun rest e w hw => ⟨h.poll rest e w.1 hw.1, hw.2⟩
  took := fun d rest w k hw hk => ⟨(h.took d rest w.1 k hw.1 hk).1, (h.took d rest w.1 k hw.1 hk).2, hw.2⟩
  threw := fun d rest w hw hk => ⟨h.threw d rest w.1 hw.1 hk, hw.2⟩
  stuck := fun d rest w hw hk => (h.stuck d rest w.1 hw.1 hk).elim fun rest' h' => ⟨rest', h', hw.2⟩
  ended := fun w hw => ⟨h.ended w.1 hw.1, rfl⟩

/-- The loop of a reactive source: as `LosslessFor`, but also telling that a normal end without cancellation is the end of the data. -/
theorem reactiveLoop_lossless (Q : {γ : Type} → Consumer α γ → Prop) (S : Source α σ) (left : σ → List α) (hS : LosslessFor Q S left)
    (c : Consumer α γ) (hQ : Q (reactiveC c)) (I : List α → Bool → γ → Prop) (hI : Keeps c I) (n m : Nat) :
    ∀ (s : σ) (w : γ) (e : Bool), I (left s) e w → (e = true → left s = []) →
      ((reactiveLoop S n c m s (w, e)).2.2 ≠ .cut →
        ∃ e', I (left (reactiveLoop S n c m s (w, e)).1) e' (reactiveLoop S n c m s (w, e)).2.1.1 ∧
          (e' = true → left (reactiveLoop S n c m s (w, e)).1 = []) ∧
          ((reactiveLoop S n c m s (w, e)).2.2 = .ok () → Patient c → e' = true)) ∧
      ∃ rest e', I rest e' (reactiveLoop S n c m s (w, e)).2.1.1 := by
  induction m with
  | zero => intro s w e h he; exact ⟨fun h' => absurd rfl h', left s, e, h⟩
  | succ m ih =>
    intro s w e h he
    rw [reactiveLoop]
    have hp := hI.poll _ _ _ h
    by_cases hc : (c.poll w).2 = true ∧ e = false
    · obtain ⟨hc1, rfl⟩ := hc
      rw [if_pos ⟨hc1, rfl⟩]
      have hr := hS (reactiveC c) hQ _ (keeps_reactive hI) n s ((c.poll w).1, false) ⟨hp, rfl⟩
      simp only [] at hr ⊢
      cases hx : S.read n (reactiveC c) s ((c.poll w).1, false) with
      | mk s' rest' =>
        obtain ⟨⟨w', f⟩, r⟩ := rest'
        rw [hx] at hr
        obtain ⟨hr1, rest, e', hIe, hfe⟩ := hr
        simp only [] at hr1 hIe hfe
        cases r with
        | ok u =>
          obtain ⟨e1, ⟨hI1, hf1⟩, hl1⟩ := hr1 (fun e => nomatch e)
          subst hf1
          exact ih s' w' f hI1 hl1
        | thrown =>
          obtain ⟨e1, ⟨hI1, hf1⟩, hl1⟩ := hr1 (fun e => nomatch e)
          exact ⟨fun _ => ⟨e1, hI1, hl1, fun e => nomatch e⟩, rest, e', hIe⟩
        | cut => exact ⟨fun e => absurd rfl e, rest, e', hIe⟩
    · rw [if_neg hc]
      refine ⟨fun _ => ⟨e, hp, he, fun _ hP => ?_⟩, left s, e, hp⟩
      cases e with
      | true => rfl
      | false => exact absurd ⟨hP w, rfl⟩ hc

/-- Reading until the end of the data: a source stays lossless. -/
theorem lossless_reactive (Q : {γ : Type} → Consumer α γ → Prop) (hcl : ∀ {γ : Type} (c : Consumer α γ), Q c → Q (reactiveC c))
    (S : Source α σ) (left : σ → List α) (hS : LosslessFor Q S left) : LosslessFor Q (reactiveS S) left := by
  intro γ c hQ I hI n s w h
  have hr := reactiveLoop_lossless Q S left hS c (hcl c hQ) I hI n n s w false h (fun e => nomatch e)
  refine ⟨fun hne => ?_, hr.2⟩
  obtain ⟨e, h1, h2, _⟩ := hr.1 hne
  exact ⟨e, h1, h2⟩

theorem steady_reactive {γ : Type} (c : Consumer α γ) (h : Steady c) : Steady (reactiveC c) :=
  ⟨fun w => h.1 w.1, fun w d => h.2.1 w.1 d, fun w => h.2.2 w.1⟩

theorem eager_reactive {γ : Type} (c : Consumer α γ) (h : Eager c) : Eager (reactiveC c) :=
  ⟨fun w d k => h.1 w.1 d k, fun w d => h.2.1 w.1 d, fun w => h.2.2 w.1⟩

theorem keeps_intercept {ι : Type} {c : Consumer α γ} {I : List α → Bool → γ → Prop} (h : Keeps c I) (f : ι → List α → ι × Res Unit)
    (g : ι → ι × Res Unit) (hf : ∀ i d, (f i d).2 = .ok ()) :
    Keeps (interceptC c f g) (fun rest e w => I rest e w.1) where
  poll := fun rest e w hw => h.poll rest e w.1 hw
  took := fun d rest w k hw hk => by
    simp only [interceptC] at hk ⊢
    cases hr : c.process w.1 d with
    | mk w2 r =>
      rw [hr] at hk
      cases r with
      | ok k' =>
        have ht := h.took d rest w.1 k' hw (by rw [hr])
        rw [hr] at ht
        simp only [interceptAnswer, if_pos ht.1] at hk ⊢
        cases hi : f w.2 (d.take k') with
        | mk i ri =>
          have := hf w.2 (d.take k')
          rw [hi] at hk this
          simp only [] at this
          subst this
          simp only [interceptorAnswer, Res.ok.injEq] at hk ⊢
          subst hk
          exact ht
      | thrown => cases hk
      | cut => cases hk
  threw := fun d rest w hw hk => by
    simp only [interceptC] at hk ⊢
    cases hr : c.process w.1 d with
    | mk w2 r =>
      rw [hr] at hk
      cases r with
      | ok k' =>
        have ht := h.took d rest w.1 k' hw (by rw [hr])
        simp only [interceptAnswer, if_pos ht.1] at hk
        cases hi : f w.2 (d.take k') with
        | mk i ri =>
          have := hf w.2 (d.take k')
          rw [hi] at hk this
          simp only [] at this
          subst this
          cases hk
      | thrown =>
        have := h.threw d rest w.1 hw (by rw [hr])
        rw [hr] at this
        exact this
      | cut => cases hk
  stuck := fun d rest w hw hk => by
    simp only [interceptC] at hk ⊢
    cases hr : c.process w.1 d with
    | mk w2 r =>
      rw [hr] at hk
      cases r with
      | ok k' =>
        have ht := h.took d rest w.1 k' hw (by rw [hr])
        simp only [interceptAnswer, if_pos ht.1] at hk
        cases hi : f w.2 (d.take k') with
        | mk i ri =>
          have := hf w.2 (d.take k')
          rw [hi] at hk this
          simp only [] at this
          subst this
          cases hk
      | thrown => cases hk
      | cut =>
        have := h.stuck d rest w.1 hw (by rw [hr])
        rw [hr] at this
        exact this
  ended := fun w hw => by
    simp only [interceptC]
    have he := h.ended w.1 hw
    cases hr : c.endOfData w.1 with
    | mk w2 r =>
      rw [hr] at he
      cases r with
      | ok _ =>
        simp only [interceptEnd]
        cases hg : g w.2 with
        | mk i ri => cases ri <;> exact he
      | thrown => exact he
      | cut => exact he

/-- A source whose data is shown to functions which do not throw stays lossless. -/
theorem lossless_intercept_partial {ι : Type} (Q : {γ : Type} → Consumer α γ → Prop) (f : ι → List α → ι × Res Unit) (g : ι → ι × Res Unit)
    (hf : ∀ i d, (f i d).2 = .ok ()) (hcl : ∀ {γ : Type} (c : Consumer α γ), Q c → Q (interceptC c f g))
    (S : Source α σ) (left : σ → List α) (hS : LosslessFor Q S left) : LosslessFor Q (interceptS S f g) (fun s => left s.1) := by
  intro γ c hQ I hI n s w h
  have hr := hS (interceptC c f g) (hcl c hQ) _ (keeps_intercept hI f g hf) n s.1 (w, s.2) h
  exact hr

theorem received_append (a b : List (Event α)) : received (a ++ b) = received a ++ received b := by
  induction a with
  | nil => rfl
  | cons x a ih => cases x <;> simp [received, ih]

theorem ends_append (a b : List (Event α)) : ends (a ++ b) = ends a + ends b := by
  induction a with
  | nil => simp [ends]
  | cons x a ih => cases x <;> simp [ends, ih] <;> omega

theorem intercept_log (c : Consumer α γ) (answer : List α → List α → Res Unit) (answerEnd : List α → Res Unit) (hH : Honest c)
    (w : (γ × List (Event α)) × List α) (d : List α) (hw : w.2 = received w.1.2) :
    ((interceptC (record c) (fun i d => (i ++ d, answer i d)) (fun i => (i, answerEnd i))).process w d).1.2 =
      received ((interceptC (record c) (fun i d => (i ++ d, answer i d)) (fun i => (i, answerEnd i))).process w d).1.1.2 ∧
    ∀ k, ((interceptC (record c) (fun i d => (i ++ d, answer i d)) (fun i => (i, answerEnd i))).process w d).2 = .ok k → k ≤ d.length := by
  simp only [interceptC, record]
  cases hr : c.process w.1.1 d with
  | mk w2 r =>
    cases r with
    | ok k =>
      have hk := hH w.1.1 d k (by rw [hr])
      simp only [took, interceptAnswer, if_pos hk]
      have e : w.2 ++ d.take k = received (w.1.2 ++ [.data (d.take k)]) := by
        rw [received_append, hw]; simp [received]
      cases answer w.2 (d.take k) with
      | ok u => exact ⟨e, fun k' h' => by cases h'; exact hk⟩
      | thrown => exact ⟨e, fun k' h' => nomatch h'⟩
      | cut => exact ⟨e, fun k' h' => nomatch h'⟩
    | thrown => exact ⟨hw, fun k' h' => nomatch h'⟩
    | cut => exact ⟨hw, fun k' h' => nomatch h'⟩

theorem keeps_intercept_log (c : Consumer α γ) (answer : List α → List α → Res Unit) (answerEnd : List α → Res Unit) (hH : Honest c) :
    Keeps (interceptC (record c) (fun i d => (i ++ d, answer i d)) (fun i => (i, answerEnd i))) (fun _ _ w => w.2 = received w.1.2) where
  poll := fun _ _ _ hw => hw
  took := fun d _ w k hw hk => ⟨(intercept_log c answer answerEnd hH w d hw).2 k hk, (intercept_log c answer answerEnd hH w d hw).1⟩
  threw := fun d _ w hw _ => (intercept_log c answer answerEnd hH w d hw).1
  stuck := fun d _ w hw _ => ⟨[], (intercept_log c answer answerEnd hH w d hw).1⟩
  ended := fun w hw => by
    simp only [interceptC, record]
    have e : w.2 = received (w.1.2 ++ [.eod]) := by rw [received_append, hw]; simp [received]
    cases hr : c.endOfData w.1.1 with
    | mk w2 r =>
      cases r with
      | ok _ => simp only [interceptEnd]; cases answerEnd w.2 <;> exact e
      | thrown => exact e
      | cut => exact e

/-- The functions of an intercepting source are shown exactly the bytes the consumer took, whatever they answer. -/
theorem intercept_sees (Q : {γ : Type} → Consumer α γ → Prop) (S : Source α σ) (left : σ → List α) (hS : LosslessFor Q S left)
    (answer : List α → List α → Res Unit) (answerEnd : List α → Res Unit) (c : Consumer α γ) (hH : Honest c)
    (hQ : Q (interceptC (record c) (fun i d => (i ++ d, answer i d)) (fun i => (i, answerEnd i)))) (n : Nat) (s : σ) (w : γ) :
    ((interceptS S (fun i d => (i ++ d, answer i d)) (fun i => (i, answerEnd i))).read n (record c) (s, []) (w, [])).1.2 =
      received ((interceptS S (fun i d => (i ++ d, answer i d)) (fun i => (i, answerEnd i))).read n (record c) (s, []) (w, [])).2.1.2 := by
  obtain ⟨_, _, _, h⟩ := hS _ hQ _ (keeps_intercept_log c answer answerEnd hH) n s ((w, []), []) rfl
  exact h

/-! ### Packets -/

theorem keeps_packets {c : Consumer α γ} {I : List α → Bool → γ → Prop} (h : Keeps c I) (hc : Steady c) (n : Nat) (size : Option Nat) :
    Keeps (packeterC (depacketerC n c) size) I where
  poll := h.poll
  took := fun d rest w k hw hk => by
    simp only [packeterC, depacketerC] at hk ⊢
    generalize size.getD d.length = m at hk ⊢
    by_cases hm : m ≤ d.length
    · rw [if_pos hm] at hk ⊢
      have hs : d ++ rest = d.take m ++ (d.drop m ++ rest) := by rw [← List.append_assoc, List.take_append_drop]
      rw [hs] at hw
      obtain ⟨_, _, h3⟩ := consumeAll_keeps c I h n (d.take m) (d.drop m ++ rest) w hw
      cases hr : consumeAll n c w (d.take m) with
      | mk w2 r =>
        rw [hr] at hk h3
        cases r with
        | ok j =>
          obtain ⟨_, h4, h5⟩ := h3 j rfl
          rw [← hs, h5 hc.1, List.length_take, Nat.min_eq_left hm] at h4
          simp only [depacketAnswer, packetAnswer, Res.ok.injEq] at hk ⊢
          subst hk
          exact ⟨hm, h4⟩
        | thrown => cases hk
        | cut => cases hk
    · rw [if_neg hm] at hk; cases hk
  threw := fun d rest w hw hk => by
    simp only [packeterC, depacketerC] at hk ⊢
    generalize size.getD d.length = m at hk ⊢
    by_cases hm : m ≤ d.length
    · rw [if_pos hm] at hk ⊢
      have := consumeAll_calm c hc.2 n (d.take m) w
      cases hr : consumeAll n c w (d.take m) with
      | mk w2 r =>
        rw [hr] at hk this
        cases r with
        | ok j => cases hk
        | thrown => exact absurd rfl this
        | cut => cases hk
    · rw [if_neg hm]; exact hw
  stuck := fun d rest w hw hk => by
    simp only [packeterC, depacketerC] at hk ⊢
    generalize size.getD d.length = m at hk ⊢
    by_cases hm : m ≤ d.length
    · rw [if_pos hm] at hk ⊢
      have hs : d ++ rest = d.take m ++ (d.drop m ++ rest) := by rw [← List.append_assoc, List.take_append_drop]
      rw [hs] at hw
      obtain ⟨h3, _, _⟩ := consumeAll_keeps c I h n (d.take m) (d.drop m ++ rest) w hw
      cases hr : consumeAll n c w (d.take m) with
      | mk w2 r =>
        rw [hr] at hk h3
        cases r with
        | ok j => cases hk
        | thrown => cases hk
        | cut => exact h3
    · rw [if_neg hm] at hk; cases hk
  ended := h.ended

/-- A stream cut into packets and put together again: nothing is lost, unless a call is cancelled or the consumer throws. -/
theorem lossless_packets_partial (S : Source α σ) (left : σ → List α) (hS : LosslessFor Anyone S left) (size : Option Nat) :
    LosslessFor Steady (depacketS (packetS S size)) left := by
  intro γ c hQ I hI n s w h
  exact hS (packeterC (depacketerC n c) size) trivial I (keeps_packets hI hQ n size) n s w h

theorem keeps_recordP (p : PConsumer α γ) (size : Nat) (orig : List α) :
    Keeps (packeterC (recordP p) (some size))
      (fun rest _ w => (∀ x ∈ w.2.1, x.length = size) ∧ w.2.2.flatten ++ rest = orig) where
  poll := fun _ _ _ hw => hw
  took := fun d rest w k hw hk => by
    simp only [packeterC, recordP, Option.getD_some] at hk ⊢
    by_cases hm : size ≤ d.length
    · rw [if_pos hm] at hk ⊢
      have hl : ∀ x ∈ w.2.1 ++ [d.take size], x.length = size := by
        intro x hx
        rcases List.mem_append.mp hx with hx | hx
        · exact hw.1 x hx
        · rw [List.mem_singleton.mp hx, List.length_take, Nat.min_eq_left hm]
      cases hr : p.process w.1 (d.take size) with
      | mk w2 r =>
        rw [hr] at hk
        cases r with
        | ok b =>
          cases b with
          | true =>
            simp only [packetAnswer, Res.ok.injEq] at hk ⊢
            subst hk
            refine ⟨hm, hl, ?_⟩
            rw [if_pos trivial, List.flatten_append, List.flatten_singleton, drop_drop_append _ _ _ hm, List.append_assoc,
              ← List.append_assoc (d.take size), List.take_append_drop]
            exact hw.2
          | false =>
            simp only [packetAnswer, Res.ok.injEq] at hk ⊢
            subst hk
            exact ⟨Nat.zero_le _, hl, hw.2⟩
        | thrown => cases hk
        | cut => cases hk
    · rw [if_neg hm] at hk; cases hk
  threw := fun d rest w hw hk => by
    simp only [packeterC, recordP, Option.getD_some] at hk ⊢
    by_cases hm : size ≤ d.length
    · rw [if_pos hm] at hk ⊢
      have hl : ∀ x ∈ w.2.1 ++ [d.take size], x.length = size := by
        intro x hx
        rcases List.mem_append.mp hx with hx | hx
        · exact hw.1 x hx
        · rw [List.mem_singleton.mp hx, List.length_take, Nat.min_eq_left hm]
      cases hr : p.process w.1 (d.take size) with
      | mk w2 r =>
        rw [hr] at hk
        cases r with
        | ok b => cases b <;> cases hk
        | thrown => exact ⟨hl, hw.2⟩
        | cut => cases hk
    · rw [if_neg hm]; exact hw
  stuck := fun d rest w hw hk => by
    simp only [packeterC, recordP, Option.getD_some] at hk ⊢
    by_cases hm : size ≤ d.length
    · rw [if_pos hm] at hk ⊢
      have hl : ∀ x ∈ w.2.1 ++ [d.take size], x.length = size := by
        intro x hx
        rcases List.mem_append.mp hx with hx | hx
        · exact hw.1 x hx
        · rw [List.mem_singleton.mp hx, List.length_take, Nat.min_eq_left hm]
      cases hr : p.process w.1 (d.take size) with
      | mk w2 r =>
        rw [hr] at hk
        cases r with
        | ok b => cases b <;> cases hk
        | thrown => cases hk
        | cut => exact ⟨_, hl, hw.2⟩
    · rw [if_neg hm] at hk; cases hk
  ended := fun w hw => hw

/-- A packetizing source: every packet offered has the size of the packets, and the packets taken are the stream, in order. -/
theorem packets_whole (S : Source α σ) (left : σ → List α) (hS : LosslessFor Anyone S left) (size : Nat) (p : PConsumer α γ) (n : Nat)
    (s : σ) (w : γ) :
    (∀ x ∈ ((packetS S (some size)).read n (recordP p) s (w, [], [])).2.1.2.1, x.length = size) ∧
    (((packetS S (some size)).read n (recordP p) s (w, [], [])).2.2 ≠ .cut →
      ((packetS S (some size)).read n (recordP p) s (w, [], [])).2.1.2.2.flatten ++
        left ((packetS S (some size)).read n (recordP p) s (w, [], [])).1 = left s) := by
  obtain ⟨h1, rest, e, h2⟩ := hS (packeterC (recordP p) (some size)) trivial _ (keeps_recordP p size (left s)) n s (w, [], [])
    ⟨(fun x hx => nomatch hx), rfl⟩
  refine ⟨h2.1, fun hne => ?_⟩
  obtain ⟨e', h3, _⟩ := h1 hne
  exact h3.2

/-- `ConsumeAll` of a packet: the consumer takes the packet once, and never takes it if the call returns `false` or throws; without
cancellation the call returns only when the packet was taken. -/
theorem consumePacket_spec (p : PConsumer α γ) (x : List α) (n : Nat) : ∀ w : γ × List (List α) × List (List α),
    (∀ b, (consumePacket n (recordP p) w x).2 = .ok b →
      (consumePacket n (recordP p) w x).1.2.2 = (if b then w.2.2 ++ [x] else w.2.2) ∧ ((∀ w, (p.poll w).2 = true) → b = true)) ∧
    ((∀ b, (consumePacket n (recordP p) w x).2 ≠ .ok b) → (consumePacket n (recordP p) w x).1.2.2 = w.2.2) := by
  induction n with
  | zero => intro w; exact ⟨(fun b h => nomatch h), fun _ => rfl⟩
  | succ n ih =>
    intro w
    rw [consumePacket]
    have hpoll : ((recordP p).poll w).1 = ((p.poll w.1).1, w.2) := rfl
    by_cases hc : ((recordP p).poll w).2 = true
    · rw [if_pos hc, hpoll]
      have hproc : (recordP p).process ((p.poll w.1).1, w.2) x = (((p.process (p.poll w.1).1 x).1, w.2.1 ++ [x],
        if (p.process (p.poll w.1).1 x).2 = .ok true then w.2.2 ++ [x] else w.2.2), (p.process (p.poll w.1).1 x).2) := rfl
      rw [hproc]
      cases hr : p.process (p.poll w.1).1 x with
      | mk w2 r =>
        cases r with
        | ok b =>
          cases b with
          | true =>
            simp only [packetRound, if_true]
            exact ⟨fun b h => by cases h; exact ⟨rfl, fun _ => rfl⟩, fun h => absurd rfl (h true)⟩
          | false => exact ih (w2, w.2.1 ++ [x], w.2.2)
        | thrown => exact ⟨(fun b h => nomatch h), fun _ => rfl⟩
        | cut => exact ⟨(fun b h => nomatch h), fun _ => rfl⟩
    · rw [if_neg hc]
      refine ⟨fun b h => ?_, fun h => absurd rfl (h false)⟩
      cases h
      exact ⟨rfl, fun hP => absurd (hP w.1) hc⟩

/-! ### What the consumer gets -/

theorem keeps_record (c : Consumer α γ) (hH : Honest c) (orig : List α) :
    Keeps (record c) (fun rest e w => received w.2 ++ rest = orig ∧ ends w.2 = (if e then 1 else 0) ∧ (e = true → w.2.getLast? = some .eod)) where
  poll := fun _ _ _ hw => hw
  took := fun d rest w k hw hk => by
    simp only [record] at hk ⊢
    have hkl := hH w.1 d k hk
    refine ⟨hkl, ?_, ?_, fun e => nomatch e⟩
    · rw [hk, Spec.took, received_append, drop_drop_append _ _ _ hkl, List.append_assoc]
      simp only [received, List.append_nil]
      rw [← List.append_assoc (d.take k), List.take_append_drop]
      exact hw.1
    · rw [hk, Spec.took, ends_append]; exact hw.2.1
  threw := fun d rest w hw hk => by
    simp only [record] at hk ⊢
    rw [hk]
    exact ⟨hw.1, hw.2.1, fun e => nomatch e⟩
  stuck := fun d rest w hw hk => by
    simp only [record] at hk ⊢
    rw [hk]
    exact ⟨_, hw.1, hw.2.1, fun e => nomatch e⟩
  ended := fun w hw => by
    simp only [record]
    refine ⟨?_, ?_, fun _ => List.getLast?_concat⟩
    · rw [received_append]; simpa [received] using hw.1
    · rw [ends_append, hw.2.1]; rfl

/-- One `Read` of a source: what the consumer took, followed by what is left, is the stream; the end is told at most once, last, and only
when everything was taken. -/
theorem read_delivers (Q : {γ : Type} → Consumer α γ → Prop) (S : Source α σ) (left : σ → List α) (hS : LosslessFor Q S left)
    (c : Consumer α γ) (hH : Honest c) (hQ : Q (record c)) (n : Nat) (s : σ) (w : γ) :
    ((S.read n (record c) s (w, [])).2.2 ≠ .cut →
      received (S.read n (record c) s (w, [])).2.1.2 ++ left (S.read n (record c) s (w, [])).1 = left s ∧
      (ends (S.read n (record c) s (w, [])).2.1.2 = 0 ∨
       ends (S.read n (record c) s (w, [])).2.1.2 = 1 ∧ (S.read n (record c) s (w, [])).2.1.2.getLast? = some .eod ∧
        received (S.read n (record c) s (w, [])).2.1.2 = left s)) ∧
    ∃ rest, received (S.read n (record c) s (w, [])).2.1.2 ++ rest = left s := by
  obtain ⟨h1, rest, e, h2⟩ := hS (record c) hQ _ (keeps_record c hH (left s)) n s (w, []) ⟨rfl, rfl, fun e => nomatch e⟩
  refine ⟨fun hne => ?_, rest, h2.1⟩
  obtain ⟨e', h3, h4⟩ := h1 hne
  refine ⟨h3.1, ?_⟩
  cases e' with
  | false => exact Or.inl h3.2.1
  | true =>
    refine Or.inr ⟨h3.2.1, h3.2.2 rfl, ?_⟩
    have := h3.1
    rw [h4 rfl, List.append_nil] at this
    exact this

/-- Reading until the end: when the call returns and was not cancelled, the consumer has taken the whole stream and was told the end. -/
theorem reactive_delivers (Q : {γ : Type} → Consumer α γ → Prop) (hcl : ∀ {γ : Type} (c : Consumer α γ), Q c → Q (reactiveC c))
    (S : Source α σ) (left : σ → List α) (hS : LosslessFor Q S left)
    (c : Consumer α γ) (hH : Honest c) (hQ : Q (record c)) (hP : Patient c) (n : Nat) (s : σ) (w : γ)
    (hok : ((reactiveS S).read n (record c) s (w, [])).2.2 = .ok ()) :
    received ((reactiveS S).read n (record c) s (w, [])).2.1.2 = left s ∧ ends ((reactiveS S).read n (record c) s (w, [])).2.1.2 = 1 ∧
      ((reactiveS S).read n (record c) s (w, [])).2.1.2.getLast? = some .eod := by
  have hr := reactiveLoop_lossless Q S left hS (record c) (hcl _ hQ) _ (keeps_record c hH (left s)) n n s (w, []) false
    ⟨rfl, rfl, fun e => nomatch e⟩ (fun e => nomatch e)
  simp only [reactiveS] at hok ⊢
  obtain ⟨e, h1, h2, h3⟩ := hr.1 (by rw [hok]; exact fun e => nomatch e)
  have he : e = true := h3 hok (fun w => hP w.1)
  subst he
  have := h1.1
  rw [h2 rfl, List.append_nil] at this
  exact ⟨this, h1.2.1, h1.2.2 rfl⟩

/-! ### Reading everything -/

theorem keeps_storage {τ : Type} (alive : τ → τ × Bool) (orig : List α) :
    Keeps (storageC alive : Consumer α (List α × τ)) (fun rest _ w => w.1 ++ rest = orig) where
  poll := fun _ _ _ hw => hw
  took := fun d rest w k hw hk => by
    simp only [storageC, Res.ok.injEq] at hk ⊢
    subst hk
    refine ⟨Nat.le_refl _, ?_⟩
    rw [List.drop_left, List.append_assoc]
    exact hw
  threw := fun d rest w hw hk => nomatch hk
  stuck := fun d rest w hw hk => nomatch hk
  ended := fun w hw => hw

/-- `ReadToEnd` returns what was taken out of the source; without cancellation it is everything. -/
theorem readToEnd_spec {τ : Type} (Q : {γ : Type} → Consumer α γ → Prop) (hcl : ∀ {γ : Type} (c : Consumer α γ), Q c → Q (reactiveC c))
    (S : Source α σ) (left : σ → List α) (hS : LosslessFor Q S left) (alive : τ → τ × Bool) (hQ : Q (storageC alive : Consumer α (List α × τ)))
    (n : Nat) (s : σ) (t : τ) (r : List α) (hr : (readToEnd S n alive s t).2 = .ok r) :
    r ++ left (readToEnd S n alive s t).1 = left s ∧ ((∀ t, (alive t).2 = true) → r = left s) := by
  have h := reactiveLoop_lossless Q S left hS (storageC alive) (hcl _ hQ) _ (keeps_storage alive (left s)) n n s ([], t) false
    rfl (fun e => nomatch e)
  simp only [readToEnd, reactiveS] at hr ⊢
  cases hx : reactiveLoop S n (storageC alive) n s (([], t), false) with
  | mk s' rest' =>
    obtain ⟨⟨w', f⟩, q⟩ := rest'
    rw [hx] at h hr
    cases q with
    | ok u =>
      simp only [Res.ok.injEq] at hr
      subst hr
      obtain ⟨e, h1, h2, h3⟩ := h.1 (fun e => nomatch e)
      refine ⟨h1, fun ha => ?_⟩
      have := h2 (h3 rfl (fun w => ha w.2))
      simp only [] at h1 this
      rw [this, List.append_nil] at h1
      exact h1
    | thrown => cases hr
    | cut => cases hr

/-- Reading a byte array until the end with a consumer which always takes something and is not cancelled comes to an end. -/
theorem array_completes (c : Consumer α γ) (hH : Honest c) (hP : Patient c) (hG : Progressing c) (n : Nat) :
    ∀ (m : Nat) (s : ArraySrc α) (w : γ), s.processed ≤ s.data.length → s.data.length - s.processed + 2 ≤ m →
      (reactiveLoop arrayS n c m s (w, false)).2.2 = .ok () := by
  intro m
  induction m with
  | zero => intro s w _ h; omega
  | succ m ih =>
    intro s w hs h
    rw [reactiveLoop, if_pos ⟨hP w, rfl⟩]
    simp only [arrayS]
    by_cases hp : s.processed < s.data.length
    · rw [if_pos hp]
      have hne : s.data.drop s.processed ≠ [] := fun e => by
        have := congrArg List.length e; rw [List.length_drop, List.length_nil] at this; omega
      obtain ⟨k, hk0, hk⟩ := hG.1 (c.poll w).1 (s.data.drop s.processed) hne
      have hkl := hH _ _ _ hk
      rw [List.length_drop] at hkl
      have e : (reactiveC c).process ((c.poll w).1, false) (s.data.drop s.processed) =
          (((c.process (c.poll w).1 (s.data.drop s.processed)).1, false), .ok k) := by
        simp only [reactiveC, hk]
      rw [e]
      simp only [arrayAnswer, reactiveRound]
      exact ih ⟨s.data, s.processed + k⟩ _ (by simp only []; omega) (by simp only []; omega)
    · rw [if_neg hp]
      have e : (reactiveC c).endOfData ((c.poll w).1, false) = (((c.endOfData (c.poll w).1).1, true), .ok ()) := by
        simp only [reactiveC, hG.2]
      rw [e]
      simp only [reactiveRound]
      cases m with
      | zero => omega
      | succ m => rw [reactiveLoop, if_neg (fun h => nomatch h.2)]

/-- `ReadToEnd` of a byte array returns it. -/
theorem readToEnd_array (data : List α) (n : Nat) (hn : data.length + 2 ≤ n) :
    (readToEnd arrayS n (fun t => (t, true)) ⟨data, 0⟩ ()).2 = .ok data := by
  have hok := array_completes (storageC (fun t : Unit => (t, true)) : Consumer α (List α × Unit))
    (fun w d k h => by cases h; exact Nat.le_refl _) (fun _ => rfl)
    ⟨fun w d hd => ⟨d.length, List.length_pos_iff.mpr hd, rfl⟩, fun _ => rfl⟩ n n ⟨data, 0⟩ ([], ()) (Nat.zero_le _) hn
  have hr : ∃ r, (readToEnd arrayS n (fun t => (t, true)) (⟨data, 0⟩ : ArraySrc α) ()).2 = .ok r := by
    simp only [readToEnd, reactiveS]
    rw [hok]
    exact ⟨_, rfl⟩
  obtain ⟨r, hr⟩ := hr
  have := (readToEnd_spec Anyone (fun _ _ => trivial) arrayS _ lossless_array (fun t => (t, true)) trivial n _ _ r hr).2 (fun _ => rfl)
  rw [hr, this]
  rfl

/-- Once the token is cancelled, no consumer is offered anything: `ConsumeAll` of data and of packets and a reactive `Read` return. -/
theorem cancelled_stops (S : Source α σ) (c : Consumer α γ) (p : PConsumer α γ) (n : Nat) (s : σ) (w : γ) (d : List α)
    (hc : (c.poll w).2 = false) (hp : (p.poll w).2 = false) :
    consumeAll (n + 1) c w d = ((c.poll w).1, .ok 0) ∧ consumePacket (n + 1) p w d = ((p.poll w).1, .ok false) ∧
    (reactiveS S).read (n + 1) c s w = (s, (c.poll w).1, .ok ()) := by
  refine ⟨?_, ?_, ?_⟩
  · rw [consumeAll, if_neg (fun h => by rw [hc] at h; exact nomatch h.1)]
  · rw [consumePacket, if_neg (fun h => by rw [hp] at h; cases h)]
  · simp only [reactiveS]
    rw [reactiveLoop, if_neg (fun h => by rw [hc] at h; exact nomatch h.1)]

/-! ### A mediator written and read -/

/-- What a mediator holds after some writes is what was written. -/
theorem mediator_holds (ds : List (List α)) (m : Mediator α) :
    (ds.foldl (fun m d => (m.process d).1) m).buffer = m.buffer ++ ds.flatten ∧ (ds.foldl (fun m d => (m.process d).1) m).eod = m.eod ∧
    ∀ d, (m.process d).2 = d.length := by
  refine ⟨?_, ?_, fun _ => rfl⟩
  · induction ds generalizing m with
    | nil => simp
    | cons d ds ih => rw [List.foldl_cons, ih]; simp [Mediator.process]
  · induction ds generalizing m with
    | nil => rfl
    | cons d ds ih => rw [List.foldl_cons, ih]; rfl

/-- A `Read` which returns leaves the mediator empty and not ended. -/
theorem mediator_read_resets (c : Consumer α γ) (n : Nat) (m : Mediator α) (w : γ) (h : (mediatorS.read n c m w).2.2 = .ok ()) :
    (mediatorS.read n c m w).1 = ⟨[], false⟩ := by
  simp only [mediatorS] at h ⊢
  cases hr : consumeAll n c w m.buffer with
  | mk w2 r =>
    rw [hr] at h
    cases r with
    | ok j =>
      simp only [mediatorAnswer] at h ⊢
      by_cases he : m.eod = true
      · rw [if_pos he] at h ⊢
        cases hz : c.endOfData w2 with
        | mk w3 r3 =>
          rw [hz] at h
          cases r3 with
          | ok _ => rfl
          | thrown => cases h
          | cut => cases h
      · rw [if_neg he]; rfl
    | thrown => cases h
    | cut => cases h

/-- A mediator tells the end to a steady consumer exactly if it was told the end itself. -/
theorem mediator_eod_partial (c : Consumer α γ) (hH : Honest c) (hc : Steady c) (n : Nat) (m : Mediator α) (w : γ)
    (h : (mediatorS.read n (record c) m (w, [])).2.2 = .ok ()) :
    received (mediatorS.read n (record c) m (w, [])).2.1.2 = m.buffer ∧
    ends (mediatorS.read n (record c) m (w, [])).2.1.2 = if m.eod then 1 else 0 := by
  have hk := consumeAll_keeps (record c) _ (keeps_record c hH m.buffer) n m.buffer [] (w, []) ⟨by rw [List.append_nil]; rfl, rfl, fun e => nomatch e⟩
  simp only [mediatorS] at h ⊢
  cases hr : consumeAll n (record c) (w, []) m.buffer with
  | mk w2 r =>
    rw [hr] at h hk
    cases r with
    | ok j =>
      obtain ⟨_, h2, h3⟩ := hk.2.2 j rfl
      rw [h3 (fun w => hc.1 w.1), List.append_nil, List.drop_length, List.append_nil] at h2
      simp only [mediatorAnswer] at h ⊢
      by_cases he : m.eod = true
      · rw [if_pos he] at h ⊢
        rw [if_pos he]
        cases hz : (record c).endOfData w2 with
        | mk w3 r3 =>
          rw [hz] at h
          have hw3 : w3.2 = w2.2 ++ [.eod] := by rw [show w3 = ((record c).endOfData w2).1 by rw [hz]]; rfl
          have hfin : ends w3.2 = 1 := by rw [hw3, ends_append, h2.2.1]; rfl
          have hrec : received w3.2 = m.buffer := by rw [hw3, received_append]; simpa [received] using h2.1
          cases r3 with
          | ok _ => exact ⟨hrec, hfin⟩
          | thrown => cases h
          | cut => cases h
      · rw [if_neg he]
        rw [if_neg he]
        exact ⟨h2.1, h2.2.1⟩
    | thrown => cases h
    | cut => cases h

/-- Written in pieces and told the end, or not: one `Read` gives a steady consumer all the pieces, one after another, and then the end exactly once, or never. -/
theorem mediator_told_partial (c : Consumer α γ) (hH : Honest c) (hc : Steady c) (n : Nat) (ds : List (List α)) (told : Bool) (m : Mediator α) (w : γ)
    (hm : m = if told then (ds.foldl (fun m d => (m.process d).1) (Mediator.reset ⟨[], false⟩)).endOfData else ds.foldl (fun m d => (m.process d).1) (Mediator.reset ⟨[], false⟩))
    (h : (mediatorS.read n (record c) m (w, [])).2.2 = .ok ()) :
    received (mediatorS.read n (record c) m (w, [])).2.1.2 = ds.flatten ∧
    ends (mediatorS.read n (record c) m (w, [])).2.1.2 = if told then 1 else 0 := by
  obtain ⟨h1, h2⟩ := mediator_eod_partial c hH hc n m w h
  obtain ⟨k1, k2, _⟩ := mediator_holds ds (Mediator.reset ⟨[], false⟩ : Mediator α)
  cases told with
  | true =>
    simp only [if_true] at hm
    have e1 : m.buffer = ds.flatten := by rw [hm]; simpa [Mediator.endOfData, Mediator.reset] using k1
    have e2 : m.eod = true := by rw [hm]; rfl
    rw [e1] at h1; rw [e2] at h2
    exact ⟨h1, h2⟩
  | false =>
    simp only [Bool.false_eq_true, if_false] at hm
    have e1 : m.buffer = ds.flatten := by rw [hm]; simpa [Mediator.reset] using k1
    have e2 : m.eod = false := by rw [hm]; exact k2
    rw [e1] at h1; rw [e2] at h2
    exact ⟨h1, h2⟩

/-! ### ByteDataConsumer -/

/-- The destination holds the beginning of what was offered, as much as fits; everything offered is claimed. -/
theorem byteDest_spec (ds : List (List α)) (b : ByteDest α) :
    (ds.foldl (fun b d => (b.process d).1) b).written = b.written ++ ds.flatten.take b.free.length ∧
    (ds.foldl (fun b d => (b.process d).1) b).free = b.free.drop ds.flatten.length ∧
    ((ds.foldl (fun b d => (b.process d).1) b).isFull = true ↔ b.free.length ≤ ds.flatten.length) := by
  have key : (ds.foldl (fun b d => (b.process d).1) b).written = b.written ++ ds.flatten.take b.free.length ∧
      (ds.foldl (fun b d => (b.process d).1) b).free = b.free.drop ds.flatten.length := by
    induction ds generalizing b with
    | nil => simp
    | cons d ds ih =>
      rw [List.foldl_cons, (ih _).1, (ih _).2]
      simp only [ByteDest.process, List.flatten_cons, List.length_drop, List.length_append, List.drop_drop]
      constructor
      · rw [List.append_assoc, List.take_append]
        congr 1
        rcases Nat.le_total d.length b.free.length with h | h
        · rw [Nat.min_eq_left h, List.take_of_length_le (Nat.le_refl _), List.take_of_length_le h]
        · rw [Nat.min_eq_right h, Nat.sub_self, Nat.sub_eq_zero_of_le h]
      · rcases Nat.le_total d.length b.free.length with h | h
        · rw [Nat.min_eq_left h]
        · rw [Nat.min_eq_right h, List.drop_eq_nil_of_le (by omega), List.drop_eq_nil_of_le (by omega)]
  refine ⟨key.1, key.2, ?_⟩
  rw [ByteDest.isFull, key.2, List.isEmpty_iff, List.drop_eq_nil_iff]

end

/-! ### Where bytes are lost or delivered twice -/

theorem honest_scripted : Honest scripted := by
  intro w d k h
  obtain ⟨as, n⟩ := w
  cases as with
  | nil => cases h; exact Nat.le_refl _
  | cons a as =>
    cases a with
    | none => cases h
    | some j => cases h; exact Nat.min_le_right _ _

/-- A stream as a source loses bytes when the call is cancelled: four bytes are read from the stream, the consumer took one. -/
theorem stream_cancelled_violated :
    ¬ LosslessFor Anyone (streamS 4 : Source Nat (InSrc Nat)) (fun s => s.rest) ∧
    ((streamS 4).read 5 (record scripted) ⟨[1, 2, 3, 4, 5], []⟩ (([some 1], 1), [])).1.rest = [5] ∧
    ((streamS 4).read 5 (record scripted) ⟨[1, 2, 3, 4, 5], []⟩ (([some 1], 1), [])).2.1.2 = [.data [1]] ∧
    ((streamS 4).read 5 (record scripted) ⟨[1, 2, 3, 4, 5], []⟩ (([some 1], 1), [])).2.2 = .ok () := by
  refine ⟨fun h => ?_, by decide, by decide, by decide⟩
  have := (read_delivers Anyone _ _ h scripted honest_scripted trivial 5 ⟨[1, 2, 3, 4, 5], []⟩ ([some 1], 1)).1 (by decide)
  exact absurd this.1 (by decide)

/-- A pipe as a source loses bytes when the consumer takes nothing at the moment - the usual answer of a full buffer. -/
theorem pipe_refused_violated :
    ¬ LosslessFor Anyone (pipeS 4 : Source Nat (InSrc Nat)) (fun s => s.rest) ∧
    ((pipeS 4).read 5 (record scripted) ⟨[1, 2, 3, 4, 5], []⟩ (([some 0], 9), [])).1.rest = [5] ∧
    received ((pipeS 4).read 5 (record scripted) ⟨[1, 2, 3, 4, 5], []⟩ (([some 0], 9), [])).2.1.2 = [] ∧
    ((pipeS 4).read 5 (record scripted) ⟨[1, 2, 3, 4, 5], []⟩ (([some 0], 9), [])).2.2 = .ok () := by
  refine ⟨fun h => ?_, by decide, by decide, by decide⟩
  have := (read_delivers Anyone _ _ h scripted honest_scripted trivial 5 ⟨[1, 2, 3, 4, 5], []⟩ ([some 0], 9)).1 (by decide)
  exact absurd this.1 (by decide)

/-- A pipe as a source throws, and loses bytes, when the consumer takes a part. -/
theorem pipe_part_violated :
    ((pipeS 4).read 5 (record scripted) ⟨[1, 2, 3, 4, 5], []⟩ (([some 3], 9), [])).2.2 = .thrown ∧
    received ((pipeS 4).read 5 (record scripted) ⟨[1, 2, 3, 4, 5], []⟩ (([some 3], 9), [])).2.1.2 = [1, 2, 3] ∧
    ((pipeS 4).read 5 (record scripted) ⟨[1, 2, 3, 4, 5], []⟩ (([some 3], 9), [])).1.rest = [5] := by decide

/-- A mediator loses bytes when its `Read` is cancelled, and tells the end of the data although not all was taken. -/
theorem mediator_cancelled_violated :
    (mediatorS.read 5 (record scripted) ⟨[1, 2, 3], true⟩ (([some 1], 1), [])).2.2 = .ok () ∧
    (mediatorS.read 5 (record scripted) ⟨[1, 2, 3], true⟩ (([some 1], 1), [])).2.1.2 = [.data [1], .eod] ∧
    (mediatorS.read 5 (record scripted) ⟨[1, 2, 3], true⟩ (([some 1], 1), [])).1 = ⟨[], false⟩ := by decide

/-- A mediator delivers bytes twice when the consumer throws on a later part. -/
theorem mediator_thrown_violated :
    (mediatorS.read 5 (record scripted) ⟨[1, 2, 3], true⟩ (([some 2, none], 9), [])).2.2 = .thrown ∧
    received (mediatorS.read 5 (record scripted) ⟨[1, 2, 3], true⟩ (([some 2, none], 9), [])).2.1.2 = [1, 2] ∧
    (mediatorS.read 5 (record scripted) ⟨[1, 2, 3], true⟩ (([some 2, none], 9), [])).1.buffer = [1, 2, 3] := by decide

/-- Packets put together again lose bytes when the call is cancelled. -/
theorem packets_cancelled_violated :
    ((depacketS (packetS arrayS (some 4))).read 5 (record scripted) ⟨[1, 2, 3, 4, 5, 6, 7, 8], 0⟩ (([some 1], 1), [])).1.processed = 4 ∧
    received ((depacketS (packetS arrayS (some 4))).read 5 (record scripted) ⟨[1, 2, 3, 4, 5, 6, 7, 8], 0⟩ (([some 1], 1), [])).2.1.2 = [1] := by
  decide

/-- A packetizing source of a byte array whose rest is shorter than a packet: every `Read` throws and changes nothing, so the rest is not
delivered and the end is never told. -/
theorem packets_tail_violated {α γ : Type} (p : PConsumer α γ) (size n : Nat) (s : ArraySrc α) (w : γ) (h0 : s.processed < s.data.length)
    (h1 : s.data.length - s.processed < size) : (packetS arrayS (some size)).read n p s w = (s, w, .thrown) := by
  simp only [packetS, arrayS, if_pos h0, packeterC, Option.getD_some, List.length_drop]
  rw [if_neg (by omega)]
  rfl

/-- A function intercepting the data which throws makes the source deliver the same bytes again. -/
theorem intercept_thrown_violated :
    ((interceptS arrayS (fun (i : Nat) _ => (i, .thrown)) (fun i => (i, .ok ()))).read 5 (record scripted) (⟨[1, 2, 3], 0⟩, 0) (([some 2], 9), [])).2.2
      = .thrown ∧
    received ((interceptS arrayS (fun (i : Nat) _ => (i, .thrown)) (fun i => (i, .ok ()))).read 5 (record scripted) (⟨[1, 2, 3], 0⟩, 0)
      (([some 2], 9), [])).2.1.2 = [1, 2] ∧
    ((interceptS arrayS (fun (i : Nat) _ => (i, .thrown)) (fun i => (i, .ok ()))).read 5 (record scripted) (⟨[1, 2, 3], 0⟩, 0)
      (([some 2], 9), [])).1.1.processed = 0 := by decide

/-! ### The hypotheses are met -/

/-- A consumer that takes two bytes at a time. -/
example : Steady (twoByTwo : Consumer Nat Nat) ∧ Honest (twoByTwo : Consumer Nat Nat) ∧ Progressing (twoByTwo : Consumer Nat Nat) :=
  ⟨⟨fun _ => rfl, fun _ _ => (fun e => nomatch e), fun _ => (fun e => nomatch e)⟩, fun _ _ _ h => by cases h; exact Nat.min_le_right _ _,
    fun _ d hd => ⟨min 2 d.length, by have := List.length_pos_iff.mpr hd; omega, rfl⟩, fun _ => rfl⟩

example : Eager (storageC (fun t : Unit => (t, true)) : Consumer Nat (List Nat × Unit)) :=
  ⟨fun _ _ _ h => by cases h; rfl, fun _ _ => (fun e => nomatch e), fun _ => (fun e => nomatch e)⟩

example : ((reactiveS arrayS).read 9 (record (twoByTwo : Consumer Nat Nat)) ⟨[1, 2, 3, 4, 5], 0⟩ (0, [])).2 =
    ((4, [.data [1, 2], .data [3, 4], .data [5], .eod]), .ok ()) := by decide

example : ((reactiveS (depacketS (packetS arrayS (some 3)))).read 9 (record (twoByTwo : Consumer Nat Nat)) ⟨[1, 2, 3, 4, 5, 6], 0⟩ (0, [])).2 =
    ((5, [.data [1, 2], .data [3], .data [4, 5], .data [6], .eod]), .ok ()) := by decide

example : ((reactiveS (streamS 4)).read 9 (record (twoByTwo : Consumer Nat Nat)) ⟨[1, 2, 3, 4, 5], [3, 9]⟩ (0, [])).2 =
    ((4, [.data [1, 2], .data [3], .data [4, 5], .eod]), .ok ()) := by decide

example : (readToEnd (reactiveS (pipeS 4)) 9 (fun t => (t, true)) (⟨[1, 2, 3, 4, 5], [3, 9]⟩ : InSrc Nat) ()).2 = .ok [1, 2, 3, 4, 5] := by decide

end Verif.Pipeline
