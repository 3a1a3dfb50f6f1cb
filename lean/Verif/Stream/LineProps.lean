import Verif.Stream.Line
/-
Property C58: reading lines, and the buffering pipe.
-/
namespace Verif.Stream.Line
open Spec

theorem plain_nil : Plain [] := by intro c h; cases h

theorem plain_snoc {l : List Nat} {b : Nat} (h : Plain l) (h1 : b ≠ 10) (h2 : b ≠ 13) : Plain (l ++ [b]) := by
  intro c hc
  rw [List.mem_append, List.mem_singleton] at hc
  rcases hc with hc | hc
  · exact h c hc
  · rw [hc]; exact ⟨h1, h2⟩

/-- Nothing but one line fits: the split is determined by the data. -/
theorem split_unique {rest l₁ t₁ l₂ t₂ : List Nat} (h₁ : Split rest l₁ t₁) (h₂ : Split rest l₂ t₂) : l₁ = l₂ ∧ t₁ = t₂ := by
  obtain ⟨hn, p₁, c₁⟩ := h₁
  obtain ⟨_, p₂, c₂⟩ := h₂
  induction rest generalizing l₁ l₂ with
  | nil => exact absurd rfl hn
  | cons b rest ih =>
    cases l₁ with
    | nil =>
      cases l₂ with
      | nil =>
        refine ⟨rfl, ?_⟩
        simp only [List.nil_append, List.cons.injEq] at c₁ c₂
        rcases c₁ with ⟨a, c⟩ | ⟨a, c⟩ | ⟨⟨a, c⟩, d⟩ | ⟨a, c⟩ <;> rcases c₂ with ⟨a', c'⟩ | ⟨a', c'⟩ | ⟨⟨a', c'⟩, d'⟩ | ⟨a', c'⟩
        all_goals first
          | omega
          | exact absurd a (by simp)
          | exact absurd a' (by simp)
          | (subst c; exact c')
          | (rw [c] at c'; first | exact (List.cons.inj c').2 | (rw [← c'] at d'; exact absurd rfl d') | (rw [c'] at d; exact absurd rfl d))
          | (rw [← c', c] at d'; exact absurd rfl d')
          | (rw [← c, c'] at d; exact absurd rfl d)
      | cons x l₂ =>
        have hx := p₂ x (List.mem_cons_self ..)
        simp only [List.nil_append, List.cons_append, List.cons.injEq] at c₁ c₂
        rcases c₁ with ⟨a, c⟩ | ⟨a, c⟩ | ⟨⟨a, c⟩, d⟩ | ⟨a, c⟩ <;> rcases c₂ with ⟨a', c'⟩ | ⟨a', c'⟩ | ⟨⟨a', c'⟩, d'⟩ | ⟨⟨a', c'⟩, d'⟩
        all_goals first | omega | exact absurd a (by simp)
    | cons x l₁ =>
      have hx := p₁ x (List.mem_cons_self ..)
      cases l₂ with
      | nil =>
        simp only [List.nil_append, List.cons_append, List.cons.injEq] at c₁ c₂
        rcases c₁ with ⟨a, c⟩ | ⟨a, c⟩ | ⟨⟨a, c⟩, d⟩ | ⟨⟨a, c⟩, d⟩ <;> rcases c₂ with ⟨a', c'⟩ | ⟨a', c'⟩ | ⟨⟨a', c'⟩, d'⟩ | ⟨a', c'⟩
        all_goals first | omega | exact absurd a' (by simp)
      | cons y l₂ =>
        have hxy : x = b ∧ y = b := by
          simp only [List.cons_append, List.cons.injEq] at c₁ c₂
          rcases c₁ with ⟨a, c⟩ | ⟨a, c⟩ | ⟨⟨a, c⟩, d⟩ | ⟨⟨a, c⟩, d⟩ <;> rcases c₂ with ⟨a', c'⟩ | ⟨a', c'⟩ | ⟨⟨a', c'⟩, d'⟩ | ⟨⟨a', c'⟩, d'⟩ <;> exact ⟨a.symm, a'.symm⟩
        obtain ⟨rfl, rfl⟩ := hxy
        simp only [List.cons_append, List.cons.injEq, true_and] at c₁ c₂
        have q₁ : Plain l₁ := fun c hc => p₁ c (List.mem_cons_of_mem _ hc)
        have q₂ : Plain l₂ := fun c hc => p₂ c (List.mem_cons_of_mem _ hc)
        by_cases hr : rest = []
        · subst hr
          rcases c₁ with c | c | ⟨c, d⟩ | ⟨c, d⟩ <;> rcases c₂ with c' | c' | ⟨c', d'⟩ | ⟨c', d'⟩
          all_goals first
            | (rw [← c, ← c', d, d']; exact ⟨rfl, rfl⟩)
            | (have := congrArg List.length c; simp at this; done)
            | (have := congrArg List.length c'; simp at this; done)
        · obtain ⟨e1, e2⟩ := ih hr q₁ c₁ hr q₂ c₂
          exact ⟨by rw [e1], e2⟩

theorem loop_spec (data : List Nat) (tok short : Nat → Bool) (hmono : ∀ a b, a ≤ b → tok a = false → tok b = false) (hshort : ∀ t, short t = true → tok (t + 1) = false) :
    ∀ (fuel t pos : Nat) (acc : Option (List Nat)), data.length < pos + fuel → pos ≤ data.length → Plain (acc.getD []) →
    tok (loop data tok short fuel t pos acc).2.2 = true →
    (data.drop pos = [] → (loop data tok short fuel t pos acc).1 = acc ∧ (loop data tok short fuel t pos acc).2.1 = pos) ∧
    (data.drop pos ≠ [] → ∃ l, (loop data tok short fuel t pos acc).1 = some (acc.getD [] ++ l) ∧ (loop data tok short fuel t pos acc).2.1 ≤ data.length ∧
      Split (data.drop pos) l (data.drop (loop data tok short fuel t pos acc).2.1))
  | 0, t, pos, acc, hf, hp, _, _ => by omega
  | fuel + 1, t, pos, acc, hf, hp, hacc, hres => by
    rw [loop] at hres ⊢
    by_cases htok : tok t = false
    · rw [if_pos htok] at hres
      simp only [] at hres
      rw [htok] at hres; cases hres
    · rw [if_neg htok] at hres ⊢
      by_cases hs : short t = true
      · have hr : read1 data pos (short t) = none := by rw [read1, if_pos hs]
        rw [hr] at hres
        simp only [] at hres
        rw [hshort t hs] at hres; cases hres
      · have hs' : short t = false := by simpa using hs
        have hr : read1 data pos (short t) = data[pos]? := by rw [read1, if_neg hs]
        rw [hr] at hres ⊢
        by_cases hpl : pos < data.length
        · rw [List.getElem?_eq_getElem hpl] at hres ⊢
          simp only [] at hres ⊢
          have hd : data.drop pos = data[pos] :: data.drop (pos + 1) := List.drop_eq_getElem_cons hpl
          refine ⟨fun h => by rw [hd] at h; exact absurd h (List.cons_ne_nil _ _), fun _ => ?_⟩
          rw [hd]
          generalize data[pos] = b at *
          by_cases h10 : b = 10
          · rw [if_pos h10] at hres ⊢
            exact ⟨[], by simp, by simp only []; omega, by simp, plain_nil, Or.inl (by rw [h10]; rfl)⟩
          · rw [if_neg h10] at hres ⊢
            by_cases h13 : b = 13
            · rw [if_pos h13] at hres ⊢
              refine ⟨[], by simp, ?_⟩
              simp only [] at hres ⊢
              have hs2 : short (t + 1) = false := by
                cases h : short (t + 1) with
                | false => rfl
                | true => rw [hshort _ h] at hres; cases hres
              have hrd : read1 data (pos + 1) (short (t + 1)) = data[pos + 1]? := by rw [read1, hs2]; rfl
              unfold afterCr
              rw [hrd]
              by_cases hp2 : pos + 1 < data.length
              · rw [List.getElem?_eq_getElem hp2]
                simp only []
                have hd2 : data.drop (pos + 1) = data[pos + 1] :: data.drop (pos + 1 + 1) := List.drop_eq_getElem_cons hp2
                generalize data[pos + 1] = b2 at *
                by_cases hb2 : b2 = 10
                · rw [if_pos hb2]
                  exact ⟨by omega, by simp, plain_nil, Or.inr (Or.inl (by rw [h13, hd2, hb2]; rfl))⟩
                · rw [if_neg hb2]
                  exact ⟨by omega, by simp, plain_nil, Or.inr (Or.inr (Or.inl ⟨by rw [h13]; rfl, by
                    rw [show pos + 1 + 1 - 1 = pos + 1 by omega, hd2]
                    simpa using hb2⟩))⟩
              · rw [List.getElem?_eq_none (by omega)]
                simp only []
                have : data.drop (pos + 1) = [] := List.drop_eq_nil_of_le (by omega)
                exact ⟨by omega, by simp, plain_nil, Or.inr (Or.inr (Or.inl ⟨by rw [h13]; rfl, by rw [this]; simp⟩))⟩
            · rw [if_neg h13] at hres ⊢
              have ih := loop_spec data tok short hmono hshort fuel (t + 1) (pos + 1) (some (acc.getD [] ++ [b])) (by omega) (by omega)
                (plain_snoc hacc h10 h13) hres
              by_cases hn : data.drop (pos + 1) = []
              · obtain ⟨i1, i2⟩ := ih.1 hn
                refine ⟨[b], i1, by rw [i2]; omega, by simp, plain_snoc plain_nil h10 h13, Or.inr (Or.inr (Or.inr ⟨by rw [hn], by rw [i2]; exact hn⟩))⟩
              · obtain ⟨l, i1, i2, i3, i4, i5⟩ := ih.2 hn
                refine ⟨b :: l, by rw [i1]; simp, i2, by simp, ?_, ?_⟩
                · intro c hc
                  rw [List.mem_cons] at hc
                  rcases hc with hc | hc
                  · rw [hc]; exact ⟨h10, h13⟩
                  · exact i4 c hc
                · rcases i5 with i5 | i5 | ⟨i5, i6⟩ | ⟨i5, i6⟩
                  · exact Or.inl (by rw [List.cons_append, ← i5])
                  · exact Or.inr (Or.inl (by rw [List.cons_append, ← i5]))
                  · exact Or.inr (Or.inr (Or.inl ⟨by rw [List.cons_append, ← i5], i6⟩))
                  · exact Or.inr (Or.inr (Or.inr ⟨by rw [← i5], i6⟩))
        · rw [List.getElem?_eq_none (by omega)] at hres ⊢
          have hd : data.drop pos = [] := List.drop_eq_nil_of_le (by omega)
          exact ⟨fun _ => ⟨rfl, rfl⟩, fun h => absurd hd h⟩

/-- C58, `ReadLine`: whatever the data, wherever the position and whenever the token is cancelled (once cancelled, it stays so, and a read only comes back empty handed because of it),
a call that returns has either found the end of the data, or gives exactly the line that begins at the position and leaves the stream right after its terminator. -/
theorem read_line (data : List Nat) (tok short : Nat → Bool) (pos : Nat) (hp : pos ≤ data.length)
    (hmono : ∀ a b, a ≤ b → tok a = false → tok b = false) (hshort : ∀ t, short t = true → tok (t + 1) = false) :
    (∃ p, readLine data tok short pos = (.cancelled, p) ∧ ∃ t, tok t = false) ∨
    (readLine data tok short pos = (.line none, pos) ∧ data.drop pos = []) ∨
    (∃ l p, readLine data tok short pos = (.line (some l), p) ∧ p ≤ data.length ∧ Split (data.drop pos) l (data.drop p)) := by
  unfold readLine
  by_cases h : tok (loop data tok short (data.length - pos + 1) 0 pos none).2.2 = false
  · rw [if_pos h]
    exact Or.inl ⟨_, rfl, _, h⟩
  · rw [if_neg h]
    obtain ⟨s1, s2⟩ := loop_spec data tok short hmono hshort (data.length - pos + 1) 0 pos none (by omega) hp plain_nil (by simpa using h)
    by_cases hd : data.drop pos = []
    · obtain ⟨e1, e2⟩ := s1 hd
      exact Or.inr (Or.inl ⟨by rw [e1, e2], hd⟩)
    · obtain ⟨l, e1, e2, e3⟩ := s2 hd
      exact Or.inr (Or.inr ⟨l, _, by rw [e1]; rfl, e2, e3⟩)

/-- The lines of the data, one after the other. -/
inductive Spec.Lines : List Nat → List (List Nat) → Prop
  | nil : Spec.Lines [] []
  | cons {rest l tail ls} : Split rest l tail → Spec.Lines tail ls → Spec.Lines rest (l :: ls)

theorem split_shorter {rest l tail : List Nat} (h : Split rest l tail) : tail.length < rest.length := by
  obtain ⟨hn, _, h | h | ⟨h, _⟩ | ⟨_, h⟩⟩ := h
  · rw [h, List.length_append, List.length_cons]; omega
  · rw [h, List.length_append, List.length_cons, List.length_cons]; omega
  · rw [h, List.length_append, List.length_cons]; omega
  · rw [h]; exact List.length_pos_iff.mpr hn

theorem readAll_lines (data : List Nat) : ∀ (fuel pos : Nat), pos ≤ data.length → data.length < pos + fuel → Spec.Lines (data.drop pos) (readAll data fuel pos)
  | 0, pos, h1, h2 => by omega
  | fuel + 1, pos, h1, h2 => by
    rw [readAll]
    rcases read_line data (fun _ => true) (fun _ => false) pos h1 (by intro a b _ h; cases h) (by intro t h; cases h) with ⟨p, _, t, ht⟩ | ⟨h, hd⟩ | ⟨l, p, h, hp, hs⟩
    · cases ht
    · rw [h, hd]; exact .nil
    · rw [h]
      simp only []
      have := split_shorter hs
      rw [List.length_drop, List.length_drop] at this
      exact .cons hs (readAll_lines data fuel p hp (by omega))

theorem lines_unique {rest : List Nat} {a : List (List Nat)} (ha : Spec.Lines rest a) : ∀ {b : List (List Nat)}, Spec.Lines rest b → a = b := by
  induction ha with
  | nil => intro b hb; cases hb with
    | nil => rfl
    | cons h _ => exact absurd rfl h.1
  | cons h _ ih => intro b hb; cases hb with
    | nil => exact absurd rfl h.1
    | cons h' t' =>
      obtain ⟨e1, e2⟩ := split_unique h h'
      subst e1; subst e2
      rw [ih t']

/-- C58, all lines: calling `ReadLine` until it gives none gives the lines of the data and nothing else. -/
theorem read_all (data : List Nat) (ls : List (List Nat)) : Spec.Lines data ls ↔ readAll data (data.length + 1) 0 = ls := by
  have h := readAll_lines data (data.length + 1) 0 (Nat.zero_le _) (by omega)
  rw [List.drop_zero] at h
  exact ⟨fun h' => lines_unique h h', fun e => e ▸ h⟩

/-- C58: text written line by line with `\n` (or `\r\n`) after each is read back line by line. -/
theorem read_back (nl : List Nat) (hnl : nl = [10] ∨ nl = [13, 10]) (ls : List (List Nat)) (h : ∀ l ∈ ls, Plain l) :
    readAll (ls.flatMap (· ++ nl)) ((ls.flatMap (· ++ nl)).length + 1) 0 = ls := by
  rw [← read_all]
  induction ls with
  | nil => exact .nil
  | cons l ls ih =>
    rw [List.flatMap_cons]
    refine .cons (l := l) (tail := ls.flatMap (· ++ nl)) ⟨?_, h l (List.mem_cons_self ..), ?_⟩ (ih fun x hx => h x (List.mem_cons_of_mem _ hx))
    · rcases hnl with e | e <;> rw [e] <;> simp
    · rcases hnl with e | e
      · left; rw [e, List.append_assoc]; rfl
      · right; left; rw [e, List.append_assoc]; rfl

/-! ## PipeReader -/

theorem pipeLine_plain (e : End) : ∀ (l bs acc : List Nat), Plain l → pipeLine e (l ++ bs) acc = pipeLine e bs (acc ++ l)
  | [], bs, acc, _ => by simp
  | b :: l, bs, acc, h => by
    have hb := h b (List.mem_cons_self ..)
    rw [List.cons_append, pipeLine.eq_def]
    simp only []
    rw [if_neg hb.1, if_neg hb.2, pipeLine_plain e l bs (acc ++ [b]) (fun c hc => h c (List.mem_cons_of_mem _ hc))]
    simp

theorem plain_or (bs : List Nat) : ∃ l tail, Plain l ∧ bs = l ++ tail ∧ (tail = [] ∨ (∃ t, tail = 10 :: t) ∨ (∃ t, tail = 13 :: t)) := by
  induction bs with
  | nil => exact ⟨[], [], plain_nil, rfl, Or.inl rfl⟩
  | cons b bs ih =>
    by_cases h10 : b = 10
    · exact ⟨[], b :: bs, plain_nil, rfl, Or.inr (Or.inl ⟨bs, by rw [h10]⟩)⟩
    · by_cases h13 : b = 13
      · exact ⟨[], b :: bs, plain_nil, rfl, Or.inr (Or.inr ⟨bs, by rw [h13]⟩)⟩
      · obtain ⟨l, tail, h1, h2, h3⟩ := ih
        refine ⟨b :: l, tail, ?_, by rw [h2, List.cons_append], h3⟩
        intro c hc
        rw [List.mem_cons] at hc
        rcases hc with hc | hc
        · rw [hc]; exact ⟨h10, h13⟩
        · exact h1 c hc

/-- C58, lines from a pipe: the bytes to come are `l`, without `\r` or `\n`, and then one of: `\n` or `\r\n` - the line `l`, and the rest stays in the pipe; a `\r` before another byte -
`NotSupportedException`; the pipe is closed (perhaps after a lone `\r`) - the line `l` when there is one, `PipeClosedException` when not; the read is cancelled - cancelled. -/
theorem pipe_line (e : End) (bs : List Nat) : ∃ l tail, Plain l ∧ bs = l ++ tail ∧
    ((∃ t, (tail = 10 :: t ∨ tail = 13 :: 10 :: t) ∧ pipeLine e bs [] = (.line l, t)) ∨
     (∃ c t, tail = 13 :: c :: t ∧ c ≠ 10 ∧ pipeLine e bs [] = (.notSupported, t)) ∨
     ((tail = [] ∨ tail = [13]) ∧ e = .closed ∧ l ≠ [] ∧ pipeLine e bs [] = (.line l, [])) ∨
     ((tail = [] ∨ tail = [13]) ∧ e = .closed ∧ l = [] ∧ pipeLine e bs [] = (.closed, [])) ∨
     ((tail = [] ∨ tail = [13]) ∧ e = .cancelled ∧ pipeLine e bs [] = (.cancelled, []))) := by
  obtain ⟨l, tail, hp, hb, ht⟩ := plain_or bs
  have key := pipeLine_plain e l tail [] hp
  rw [List.nil_append, ← hb] at key
  have fin : (pipeLine e bs [] = (atEnd e l, [])) → (tail = [] ∨ tail = [13]) →
     (((tail = [] ∨ tail = [13]) ∧ e = .closed ∧ l ≠ [] ∧ pipeLine e bs [] = (.line l, [])) ∨
     ((tail = [] ∨ tail = [13]) ∧ e = .closed ∧ l = [] ∧ pipeLine e bs [] = (.closed, [])) ∨
     ((tail = [] ∨ tail = [13]) ∧ e = .cancelled ∧ pipeLine e bs [] = (.cancelled, []))) := by
    intro he htl
    cases e with
    | closed =>
      by_cases hl : l = []
      · exact Or.inr (Or.inl ⟨htl, rfl, hl, by rw [he, atEnd, if_pos hl]⟩)
      · exact Or.inl ⟨htl, rfl, hl, by rw [he, atEnd, if_neg hl]⟩
    | cancelled => exact Or.inr (Or.inr ⟨htl, rfl, by rw [he, atEnd]⟩)
  refine ⟨l, tail, hp, hb, ?_⟩
  rcases ht with rfl | ⟨t, rfl⟩ | ⟨t, rfl⟩
  · exact Or.inr (Or.inr (fin (by rw [key, pipeLine.eq_def]) (Or.inl rfl)))
  · exact Or.inl ⟨t, Or.inl rfl, by rw [key, pipeLine.eq_def]; simp⟩
  · cases t with
    | nil => exact Or.inr (Or.inr (fin (by rw [key, pipeLine.eq_def]; simp) (Or.inr rfl)))
    | cons c t =>
      by_cases hc : c = 10
      · exact Or.inl ⟨t, Or.inr (by rw [hc]), by rw [key, pipeLine.eq_def]; simp [hc]⟩
      · exact Or.inr (Or.inl ⟨c, t, rfl, hc, by rw [key, pipeLine.eq_def]; simp [hc]⟩)

/-! ## BufferedPipe -/
namespace BPipe

structure BOk (s : BPipe) : Prop where
  off : s.offset ≤ s.filled
  fill : s.filled ≤ s.size
  len : s.buffer.length = s.size

theorem create_ok (src : List Nat) (n : Nat) : BOk (create src n) := ⟨Nat.le_refl _, Nat.zero_le _, by simp [create]⟩

theorem take_spec {s : BPipe} (h : BOk s) (n : Nat) : BOk (take s n).2 ∧ (take s n).1 = (pending s).take n ∧ pending (take s n).2 = (pending s).drop n ∧ (take s n).2.source = s.source := by
  have h1 := h.off; have h2 := h.fill; have h3 := h.len
  refine ⟨⟨?_, h.fill, h.len⟩, ?_, ?_, rfl⟩
  · unfold take; simp only []; omega
  · unfold take pending
    simp only []
    rw [List.drop_take, List.take_take, Nat.min_comm n]
  · unfold take pending
    simp only []
    rw [List.drop_drop]
    by_cases hn : n ≤ s.filled - s.offset
    · rw [Nat.min_eq_right hn]
    · rw [Nat.min_eq_left (by omega)]
      rw [List.drop_eq_nil_of_le (by rw [List.length_take]; omega), List.drop_eq_nil_of_le (by rw [List.length_take]; omega)]

theorem read_spec {s : BPipe} (h : BOk s) (g n : Nat) : BOk (read s g n).2 ∧ (read s g n).1 ++ pending (read s g n).2 ++ (read s g n).2.source = pending s ++ s.source ∧
    (read s g n).1.length ≤ n ∧ ((read s g n).1 = [] → n = 0 ∨ (pending s = [] ∧ (g = 0 ∨ s.size = 0 ∨ s.source = []))) := by
  have h1 := h.off; have h2 := h.fill; have h3 := h.len
  have hpl : (pending s).length = s.filled - s.offset := by unfold pending; rw [List.length_drop, List.length_take]; omega
  unfold read
  by_cases he : s.offset = s.filled
  · rw [if_pos he]
    have hp : pending s = [] := List.length_eq_zero_iff.mp (by omega)
    generalize hk : min g (min s.size s.source.length) = k
    by_cases h0 : k = 0
    · rw [if_pos h0]
      refine ⟨h, by simp, by simp, fun _ => Or.inr ⟨hp, ?_⟩⟩
      rw [← List.length_eq_zero_iff]; omega
    · rw [if_neg h0]
      have hok : BOk ⟨s.source.drop k, s.size, s.source.take k ++ s.buffer.drop k, 0, k⟩ := by
        refine ⟨Nat.zero_le _, by simp only []; omega, ?_⟩
        simp only [List.length_append, List.length_take, List.length_drop]; omega
      have hpend : pending ⟨s.source.drop k, s.size, s.source.take k ++ s.buffer.drop k, 0, k⟩ = s.source.take k := by
        unfold pending
        simp only [List.drop_zero]
        exact List.take_left' (by rw [List.length_take]; omega)
      obtain ⟨t1, t2, t3, t4⟩ := take_spec hok n
      refine ⟨t1, ?_, ?_, ?_⟩
      · rw [t2, t3, t4, List.take_append_drop, hpend, hp, List.nil_append]
        exact List.take_append_drop _ _
      · rw [t2, List.length_take]; omega
      · intro hnil
        rw [t2, hpend] at hnil
        have := congrArg List.length hnil
        simp only [List.length_take, List.length_nil] at this
        omega
  · rw [if_neg he]
    obtain ⟨t1, t2, t3, t4⟩ := take_spec h n
    refine ⟨t1, by rw [t2, t3, t4, List.take_append_drop], by rw [t2, List.length_take]; omega, ?_⟩
    intro hnil
    rw [t2] at hnil
    have := congrArg List.length hnil
    simp only [List.length_take, List.length_nil] at this
    omega

/-- C58, the buffering pipe: whatever is asked for and however the pipe below dribbles, the bytes handed out are the bytes of the pipe below, in order, none twice, none lost:
those not handed out yet are still pending or still in the pipe. Each read gives at most what was asked; it gives nothing only when nothing was asked, or nothing is pending and
the pipe below gave nothing; and `Peek` holds whenever something is pending. -/
theorem buffered_pipe (src : List Nat) (size : Nat) (ops : List (Nat × Nat)) :
    (reads (create src size) ops).1 ++ pending (reads (create src size) ops).2 ++ (reads (create src size) ops).2.source = src ∧
    (∀ g n, ((read (reads (create src size) ops).2 g n).1.length ≤ n) ∧
      ((read (reads (create src size) ops).2 g n).1 = [] → n = 0 ∨ (pending (reads (create src size) ops).2 = [] ∧ (g = 0 ∨ size = 0 ∨ (reads (create src size) ops).2.source = [])))) ∧
    (∀ b, peek (reads (create src size) ops).2 b = true ↔ (pending (reads (create src size) ops).2 ≠ [] ∨ b = true)) := by
  have main : ∀ (ops : List (Nat × Nat)) (s : BPipe), BOk s → s.size = size →
      BOk (reads s ops).2 ∧ (reads s ops).2.size = size ∧ (reads s ops).1 ++ pending (reads s ops).2 ++ (reads s ops).2.source = pending s ++ s.source := by
    intro ops
    induction ops with
    | nil => intro s h hs; exact ⟨h, hs, by simp [reads]⟩
    | cons op ops ih =>
      intro s h hs
      obtain ⟨g, n⟩ := op
      obtain ⟨r1, r2, _, _⟩ := read_spec h g n
      have hsz : (read s g n).2.size = size := by
        unfold read
        by_cases he : s.offset = s.filled
        · rw [if_pos he]
          by_cases h0 : min g (min s.size s.source.length) = 0
          · rw [if_pos h0]; exact hs
          · rw [if_neg h0]; exact hs
        · rw [if_neg he]; exact hs
      obtain ⟨i1, i2, i3⟩ := ih _ r1 hsz
      refine ⟨i1, i2, ?_⟩
      rw [reads]
      simp only []
      rw [List.append_assoc, List.append_assoc, ← List.append_assoc (reads _ _).1, i3, ← List.append_assoc, r2]
  obtain ⟨m1, m2, m3⟩ := main ops (create src size) (create_ok _ _) rfl
  refine ⟨by rw [m3]; simp [pending, create], fun g n => ?_, fun b => ?_⟩
  · obtain ⟨_, _, r3, r4⟩ := read_spec m1 g n
    rw [m2] at r4
    exact ⟨r3, r4⟩
  · unfold peek
    have hpl : (pending (reads (create src size) ops).2).length = (reads (create src size) ops).2.filled - (reads (create src size) ops).2.offset := by
      have := m1.fill; have := m1.len
      unfold pending; rw [List.length_drop, List.length_take]; omega
    rw [Bool.or_eq_true, bne_iff_ne, ← List.length_pos_iff, hpl]
    have := m1.off
    constructor
    · rintro (h | h)
      · exact Or.inl (by omega)
      · exact Or.inr h
    · rintro (h | h)
      · exact Or.inl (by omega)
      · exact Or.inr h

end BPipe

/-! Non-vacuity. -/
example : readAll [97, 10, 13, 98, 13, 10, 10, 99] 9 0 = [[97], [], [98], [], [99]] := by decide +kernel
example : Spec.Lines [97, 10, 13, 98, 13, 10, 10, 99] [[97], [], [98], [], [99]] := by rw [read_all]; decide +kernel
example : (∀ a b, a ≤ b → (fun t : Nat => decide (t < 3)) a = false → (fun t : Nat => decide (t < 3)) b = false) := by
  intro a b h; simp only [decide_eq_false_iff_not]; omega
example : readLine [97, 98, 99, 10] (fun t => decide (t < 3)) (fun _ => false) 0 = (.cancelled, 3) := by decide +kernel
example : pipeLine .closed [97, 98, 13, 10, 99] [] = (.line [97, 98], [99]) ∧ pipeLine .closed [97, 13] [] = (.line [97], []) ∧
    pipeLine .closed [97, 13, 98] [] = (.notSupported, []) := by decide +kernel
example : (BPipe.reads (BPipe.create [1, 2, 3, 4, 5, 6] 4) [(3, 2), (1, 5), (9, 1), (0, 9)]).1 = [1, 2, 3, 4, 5, 6] := by decide +kernel

end Verif.Stream.Line
