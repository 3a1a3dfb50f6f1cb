import Verif.Stream.AllSpec
/-!
`ReadAll`, `ReadToEnd`, `WriteAll`: nothing is lost, repeated or reordered however the stream cuts the data up and whenever the token is cancelled.
-/
namespace Verif.Stream.All
open Spec

variable {σ : Type} {E : Env σ}

theorem not_alive {t : Nat} (h : ¬ E.alive t = true) : Dead E t := by
  unfold Env.alive at h
  cases hc : E.cancelled t
  · cases ht : E.timedOut t
    · rw [hc, ht] at h; exact absurd rfl h
    · exact Or.inr ht
  · exact Or.inl hc

theorem dead_up (hs : Sticky E) {t u : Nat} (h : Dead E t) (hu : t ≤ u) : Dead E u := by
  induction u with
  | zero => have : t = 0 := by omega
            subst this; exact h
  | succ u ih =>
    by_cases e : t = u + 1
    · subst e; exact h
    · rcases ih (by omega) with h | h
      · exact Or.inl (hs.cancelled u h)
      · exact Or.inr (hs.timedOut u h)

theorem check_ok {α : Type} {t : Nat} {a : Out α} {x : α} (h : check E t a = .ok x) : a = .ok x ∧ E.cancelled t = false ∧ E.timedOut (t + 1) = false := by
  unfold check at h
  cases hc : E.cancelled t <;> rw [hc] at h
  · cases ht : E.timedOut (t + 1) <;> rw [ht] at h
    · exact ⟨h, rfl, rfl⟩
    · cases h
  · cases h

theorem check_dead {α : Type} (hs : Sticky E) {t : Nat} (h : Dead E t) (a : Out α) : check E t a = .operationCancelled ∨ check E t a = .timeout := by
  unfold check
  cases hc : E.cancelled t
  · rcases h with h | h
    · rw [hc] at h; cases h
    · right; rw [hs.timedOut t h]; rfl
  · left; rfl

theorem check_alive {α : Type} (h : ∀ u, ¬ Dead E u) (t : Nat) (a : Out α) : check E t a = a := by
  unfold check
  cases hc : E.cancelled t
  · cases ht : E.timedOut (t + 1)
    · rfl
    · exact absurd (Or.inr ht) (h _)
  · exact absurd (Or.inl hc) (h _)

/-- What the loop of `ReadAll` ends with. -/
theorem readLoop_result {rest : σ → List Nat} (hS : Source E rest) (all : List Nat) :
    ∀ (m t : Nat) (s : σ) (buffer : List Nat) (total : Nat) (last : Option Nat),
      total ≤ buffer.length → total ≤ all.length → rest s = all.drop total → buffer.take total = all.take total →
      m ≥ 1 → (last ≠ some 0 → m ≥ buffer.length - total + 1) →
      (last = some 0 → total = buffer.length ∨ all.length ≤ total ∨ ∃ u, u ≤ t ∧ Dead E u) →
      (∃ g, readLoop E m t s buffer total last = .ok g ∧ t < g.time ∧ total ≤ g.total ∧ g.total ≤ buffer.length ∧ g.total ≤ all.length ∧
        g.buffer = all.take g.total ++ buffer.drop g.total ∧ rest g.stream = all.drop g.total ∧
        (g.total = buffer.length ∨ g.total = all.length ∨ ∃ u, u < g.time ∧ Dead E u)) ∨
      (readLoop E m t s buffer total last = .thrown ∧ ∃ u s' n, E.read u s' n = none) := by
  intro m
  induction m with
  | zero => intro t s buffer total last _ _ _ _ h; omega
  | succ m ih =>
    intro t s buffer total last htb hta hr hb _ hm hl
    rw [readLoop]
    by_cases hg : E.alive t = true ∧ total < buffer.length ∧ last ≠ some 0
    · rw [if_pos hg]
      cases hc : E.read (t + 1) s (buffer.length - total) with
      | none => exact Or.inr ⟨rfl, _, _, _, hc⟩
      | some p =>
        obtain ⟨c, s'⟩ := p
        dsimp only
        obtain ⟨e1, e2⟩ := hS.takes _ _ _ _ _ hc
        have hlen : (all.drop total).length = c.length + (rest s').length := by rw [← hr, e1, List.length_append]
        rw [List.length_drop] at hlen
        have hput : (put buffer total c).length = buffer.length := by
          unfold put
          simp only [List.length_append, List.length_take, List.length_drop]
          omega
        have hpt : (put buffer total c).take (total + c.length) = all.take (total + c.length) := by
          unfold put
          rw [List.take_append_of_le_length (by simp only [List.length_append, List.length_take]; omega),
            List.take_of_length_le (by simp only [List.length_append, List.length_take]; omega), hb, List.take_add]
          congr 1
          rw [← hr, e1, List.take_append_of_le_length (Nat.le_refl _), List.take_length]
        have hpd : ∀ k, total + c.length ≤ k → (put buffer total c).drop k = buffer.drop k := by
          intro k hk
          unfold put
          rw [List.drop_append, List.drop_eq_nil_of_le (by simp only [List.length_append, List.length_take]; omega), List.nil_append,
            List.drop_drop]
          congr 1
          simp only [List.length_append, List.length_take]
          omega
        have := ih (t + 2) s' (put buffer total c) (total + c.length) (some c.length) (by omega) (by omega)
          (by rw [← List.drop_drop, ← hr, e1, List.drop_append_of_le_length (Nat.le_refl _), List.drop_length, List.nil_append]) hpt (by have := hm hg.2.2; omega)
          (by intro hne; have := hm hg.2.2
              have : c.length ≠ 0 := fun h0 => hne (by rw [h0])
              omega)
          (by intro h0
              have hc0 : c = [] := by injection h0 with h0; exact List.length_eq_zero_iff.mp h0
              subst hc0
              rcases hS.some _ _ _ _ hc with h | h | h
              · omega
              · right; left
                rw [h] at hr
                have := congrArg List.length hr
                simp only [List.length_nil, List.length_drop] at this ⊢
                omega
              · exact Or.inr (Or.inr ⟨t + 2, by omega, h⟩))
        rw [hput] at this
        rcases this with ⟨g, h1, h2, h3, h4, h5, h6, h7, h8⟩ | h
        · exact Or.inl ⟨g, h1, by omega, by omega, h4, h5, by rw [h6, hpd _ h3], h7, h8⟩
        · exact Or.inr h
    · rw [if_neg hg]
      refine Or.inl ⟨_, rfl, by dsimp only; omega, Nat.le_refl _, htb, hta, ?_, hr, ?_⟩
      · dsimp only; rw [← hb, List.take_append_drop]
      · dsimp only
        by_cases ha : E.alive t = true
        · by_cases hf : total < buffer.length
          · have h0 : last = some 0 := Classical.byContradiction fun h => hg ⟨ha, hf, h⟩
            rcases hl h0 with h | h | ⟨u, h1, h2⟩
            · exact Or.inl h
            · exact Or.inr (Or.inl (by omega))
            · exact Or.inr (Or.inr ⟨u, by omega, h2⟩)
          · exact Or.inl (by omega)
        · exact Or.inr (Or.inr ⟨t, by omega, not_alive ha⟩)

/-- `ReadAll` from any source: it ends; the buffer begins with the bytes of the source in their order, as many as the number returned, they are gone from
the source and no others, the rest of the buffer is as before; it is as many as fit or as there are, or the token was cancelled meanwhile.  It throws only
what the stream throws. -/
theorem readAll_result {rest : σ → List Nat} (hS : Source E rest) (t : Nat) (s : σ) (buffer : List Nat) :
    (∃ g, readAll E t s buffer = .ok g ∧ t < g.time ∧ g.total ≤ min buffer.length (rest s).length ∧
      g.buffer = (rest s).take g.total ++ buffer.drop g.total ∧ rest g.stream = (rest s).drop g.total ∧
      (g.total = min buffer.length (rest s).length ∨ ∃ u, u < g.time ∧ Dead E u)) ∨
    (readAll E t s buffer = .thrown ∧ ∃ u s' n, E.read u s' n = none) := by
  rcases readLoop_result hS (rest s) (buffer.length + 2) t s buffer 0 none (by omega) (by omega) rfl rfl (by omega) (fun _ => by omega)
    (fun h => nomatch h) with ⟨g, h1, h2, _, h4, h5, h6, h7, h8⟩ | h
  · refine Or.inl ⟨g, h1, h2, by omega, h6, h7, ?_⟩
    rcases h8 with h | h | h
    · exact Or.inl (by omega)
    · exact Or.inl (by omega)
    · exact Or.inr h
  · exact Or.inr h

theorem readAll_length {rest : σ → List Nat} (hS : Source E rest) {t : Nat} {s : σ} {buffer : List Nat} {g : Got σ} (h : readAll E t s buffer = .ok g) :
    t < g.time ∧ g.total ≤ buffer.length ∧ g.total ≤ (rest s).length ∧ g.buffer = (rest s).take g.total ++ buffer.drop g.total ∧ rest g.stream = (rest s).drop g.total ∧
      (g.total = min buffer.length (rest s).length ∨ ∃ u, u < g.time ∧ Dead E u) := by
  rcases readAll_result hS t s buffer with ⟨g', h1, h2, h3, h4, h5, h6⟩ | ⟨h', _⟩
  · rw [h1] at h; cases h; exact ⟨h2, by omega, by omega, h4, h5, h6⟩
  · rw [h'] at h; cases h

/-- `CheckedReadAll`: if it returns, the buffer is full of the next bytes of the source and they alone are gone from it; if the token is not cancelled
and the stream does not throw, it returns exactly if the source has as many, and otherwise tells how many there were. -/
theorem checkedReadAll_result {rest : σ → List Nat} (hS : Source E rest) (t : Nat) (s : σ) (buffer : List Nat) :
    (∀ s' b, checkedReadAll E t s buffer = .ok (s', b) → b = (rest s).take buffer.length ∧ b.length = buffer.length ∧ rest s' = (rest s).drop buffer.length) ∧
    ((∀ u, ¬ Dead E u) → (∀ u s n, E.read u s n ≠ none) →
      ((∃ r, checkedReadAll E t s buffer = .ok r) ↔ buffer.length ≤ (rest s).length) ∧
      ((rest s).length < buffer.length → checkedReadAll E t s buffer = .inputOutput (rest s).length)) := by
  refine ⟨fun s' b h => ?_, fun hd hn => ?_⟩
  · unfold checkedReadAll at h
    cases hr : readAll E t s buffer with
    | ok g =>
      rw [hr] at h; dsimp only at h
      obtain ⟨h, _, _⟩ := check_ok h
      obtain ⟨_, h2, h3, h4, h5, _⟩ := readAll_length hS hr
      by_cases e : g.total = buffer.length
      · rw [if_pos e] at h
        cases h
        rw [e] at h4 h5 h3
        rw [List.drop_length, List.append_nil] at h4
        exact ⟨h4, by rw [h4, List.length_take]; omega, h5⟩
      · rw [if_neg e] at h; cases h
    | thrown => rw [hr] at h; cases h
    | _ => rw [hr] at h; cases h
  · rcases readAll_result hS t s buffer with ⟨g, h1, h2, h3, h4, h5, h6⟩ | ⟨_, u, s', n, h⟩
    · have ht : g.total = min buffer.length (rest s).length := h6.resolve_right fun ⟨u, _, h⟩ => hd u h
      clear h6
      unfold checkedReadAll
      rw [h1]; dsimp only
      rw [check_alive hd]
      by_cases e : buffer.length ≤ (rest s).length
      · rw [if_pos (by omega)]
        exact ⟨⟨fun _ => e, fun _ => ⟨_, rfl⟩⟩, fun h => by omega⟩
      · rw [if_neg (by omega)]
        exact ⟨⟨fun ⟨r, h⟩ => (nomatch h), fun h => absurd h e⟩, fun h => by rw [show g.total = (rest s).length by omega]⟩
    · exact absurd h (hn _ _ _)

/-- The loop of `ReadToEnd`. -/
theorem toEndLoop_result {rest : σ → List Nat} (hk : Sticky E) (hS : Source E rest) (all : List Nat) : ∀ (m t : Nat) (s : σ) (buffer : List Nat) (offset : Nat),
    offset < buffer.length → offset ≤ all.length → rest s = all.drop offset → buffer.take offset = all.take offset →
    (∀ s' b, toEndLoop E m t s buffer offset = .ok (s', b) → b = all ∧ rest s' = []) ∧
    (m ≥ all.length - offset + 1 → toEndLoop E m t s buffer offset ≠ .stuck ∧
      ((∀ u, ¬ Dead E u) → (∀ u s n, E.read u s n ≠ none) → ∃ s', toEndLoop E m t s buffer offset = .ok (s', all))) := by
  intro m
  induction m with
  | zero => intro t s buffer offset _ _ _ _; exact ⟨fun s' b h => (nomatch h), fun h => by omega⟩
  | succ m ih =>
    intro t s buffer offset hob hoa hr hb
    rw [toEndLoop]
    by_cases ha : E.alive t = true
    · rw [if_pos ha]
      rcases readAll_result hS (t + 1) s (buffer.drop offset) with ⟨g, h1, h2, h3, h4, h5, h6⟩ | ⟨h, u, s', n, h'⟩
      · rw [h1]; dsimp only
        rw [hr, List.length_drop, List.length_drop] at h3
        rw [hr] at h4
        have hap : buffer.take offset ++ g.buffer = all.take (offset + g.total) ++ buffer.drop (offset + g.total) := by
          rw [h4, hb, List.drop_drop, ← List.append_assoc, ← List.take_add]
        have hrest : rest g.stream = all.drop (offset + g.total) := by rw [h5, hr, List.drop_drop]
        by_cases hf : g.total = (buffer.drop offset).length
        · rw [if_pos hf]
          rw [List.length_drop] at hf
          have hl : (buffer.take offset ++ g.buffer).length = buffer.length := by
            rw [hap, List.length_append, List.length_take, List.length_drop]; omega
          obtain ⟨i1, i2⟩ := ih g.time g.stream (buffer.take offset ++ g.buffer ++ List.replicate buffer.length 0) (offset + g.total)
            (by rw [List.length_append, hl, List.length_replicate]; omega) (by omega) hrest
            (by rw [hap, List.append_assoc, List.take_append_of_le_length (by rw [List.length_take]; omega), List.take_of_length_le (by rw [List.length_take]; omega)])
          exact ⟨i1, fun hm => i2 (by clear h6 i1 i2; omega)⟩
        · rw [if_neg hf]
          rw [List.length_drop] at hf
          rw [hr, List.length_drop, List.length_drop] at h6
          have hfin : (∀ u, u < g.time → ¬ Dead E u) → (buffer.take offset ++ g.buffer).take (offset + g.total) = all ∧ rest g.stream = [] := by
            intro hn
            have e : g.total = min (buffer.length - offset) (all.length - offset) := h6.resolve_right fun ⟨u, h, h'⟩ => hn u h h'
            clear h6
            rw [hrest, hap, List.take_append_of_le_length (by rw [List.length_take]; omega), List.take_of_length_le (by rw [List.length_take]; omega),
              List.take_of_length_le (by omega), List.drop_eq_nil_of_le (by omega)]
            exact ⟨rfl, rfl⟩
          refine ⟨fun s' b h => ?_, fun _ => ⟨fun h => ?_, fun hd hn => ?_⟩⟩
          · obtain ⟨h, c1, c2⟩ := check_ok h
            obtain ⟨f1, f2⟩ := hfin fun u hu hd => by
              rcases dead_up hk hd (Nat.le_of_lt hu) with h | h
              · rw [c1] at h; cases h
              · rw [hk.timedOut _ h] at c2; cases c2
            cases h
            exact ⟨f1, f2⟩
          · unfold check at h
            split at h
            · cases h
            · split at h <;> cases h
          · rw [check_alive hd, (hfin fun u _ => hd u).1]; exact ⟨_, rfl⟩
      · rw [h]
        exact ⟨fun _ _ h => (nomatch h), fun _ => ⟨fun h => (nomatch h), fun _ hn => absurd h' (hn _ _ _)⟩⟩
    · rw [if_neg ha]
      have hd := dead_up hk (not_alive ha) (Nat.le_succ t)
      rcases check_dead hk hd (.ok (s, buffer.take offset)) with h | h
      · rw [h]; exact ⟨fun _ _ h => (nomatch h), fun _ => ⟨fun h => (nomatch h), fun hn => absurd hd (hn _)⟩⟩
      · rw [h]; exact ⟨fun _ _ h => (nomatch h), fun _ => ⟨fun h => (nomatch h), fun hn => absurd hd (hn _)⟩⟩

/-- `ReadToEnd` never returns a part: whatever it returns is all that the source had, also if the token is cancelled while it reads.  On a finite source it
ends (`fuel`: rounds); if nobody cancels and nothing throws, it returns all, whatever the initial size, which must not be 0. -/
theorem readToEnd_result {rest : σ → List Nat} (hk : Sticky E) (hS : Source E rest) (fuel t : Nat) (s : σ) (initialSize : Nat) :
    (initialSize = 0 → readToEnd E fuel t s initialSize = .argument) ∧
    (∀ s' b, readToEnd E fuel t s initialSize = .ok (s', b) → b = rest s ∧ rest s' = []) ∧
    (0 < initialSize → (rest s).length < fuel → readToEnd E fuel t s initialSize ≠ .stuck ∧
      ((∀ u, ¬ Dead E u) → (∀ u s n, E.read u s n ≠ none) → ∃ s', readToEnd E fuel t s initialSize = .ok (s', rest s))) := by
  unfold readToEnd
  by_cases h0 : initialSize = 0
  · rw [if_pos h0]
    exact ⟨fun _ => rfl, fun _ _ h => (nomatch h), fun h => by omega⟩
  · rw [if_neg h0]
    obtain ⟨h1, h2⟩ := toEndLoop_result hk hS (rest s) fuel t s (List.replicate initialSize 0) 0 (by rw [List.length_replicate]; omega) (by omega) rfl rfl
    exact ⟨fun h => absurd h h0, h1, fun _ hf => h2 (by omega)⟩

/-- The loop of `WriteAll`. -/
theorem writeLoop_result {got : σ → List Nat} (hS : Sink E got) (data old : List Nat) : ∀ (m t : Nat) (s : σ) (total : Nat) (last : Option Nat),
    total ≤ data.length → got s = old ++ data.take total → m ≥ 1 → (last ≠ some 0 → m ≥ data.length - total + 1) →
    (last = some 0 → total = data.length ∨ ∃ u, u ≤ t ∧ Dead E u) →
    (∃ t' s' n, writeLoop E data m t s total last = .ok (t', s', n) ∧ n ≤ data.length ∧ got s' = old ++ data.take n ∧ (n = data.length ∨ ∃ u, u < t' ∧ Dead E u)) ∨
    (writeLoop E data m t s total last = .thrown ∧ ∃ u s' d, E.write u s' d = none) := by
  intro m
  induction m with
  | zero => intro t s total last _ _ h; omega
  | succ m ih =>
    intro t s total last ht hg _ hm hl
    rw [writeLoop]
    by_cases hc : E.alive t = true ∧ total < data.length ∧ last ≠ some 0
    · rw [if_pos hc]
      cases hw : E.write (t + 1) s (data.drop total) with
      | none => exact Or.inr ⟨rfl, _, _, _, hw⟩
      | some p =>
        obtain ⟨n, s'⟩ := p
        dsimp only
        obtain ⟨e1, e2⟩ := hS.appends _ _ _ _ _ hw
        rw [List.length_drop] at e1
        refine ih (t + 2) s' (total + n) (some n) (by omega) (by rw [e2, hg, List.append_assoc, ← List.take_add]) (by have := hm hc.2.2; omega)
          (fun hne => ?_) (fun h0 => ?_)
        · have := hm hc.2.2
          have : n ≠ 0 := fun h0 => hne (by rw [h0])
          omega
        · injection h0 with h0
          subst h0
          rcases hS.some _ _ _ _ hw with h | h
          · have := congrArg List.length h
            rw [List.length_drop, List.length_nil] at this
            omega
          · exact Or.inr ⟨t + 2, by omega, h⟩
    · rw [if_neg hc]
      refine Or.inl ⟨_, _, _, rfl, ht, hg, ?_⟩
      by_cases ha : E.alive t = true
      · by_cases hf : total < data.length
        · have h0 : last = some 0 := Classical.byContradiction fun h => hc ⟨ha, hf, h⟩
          rcases hl h0 with h | ⟨u, h1, h2⟩
          · exact Or.inl h
          · exact Or.inr ⟨u, by omega, h2⟩
        · exact Or.inl (by omega)
      · exact Or.inr ⟨t, by omega, not_alive ha⟩

/-- `WriteAll` into any sink: it ends; the sink has got the first bytes of the data, as many as the number returned; that is all of them, or the token was
cancelled meanwhile. -/
theorem writeAll_result {got : σ → List Nat} (hS : Sink E got) (t : Nat) (s : σ) (data : List Nat) :
    (∃ t' s' n, writeAll E t s data = .ok (t', s', n) ∧ n ≤ data.length ∧ got s' = got s ++ data.take n ∧ (n = data.length ∨ ∃ u, u < t' ∧ Dead E u)) ∨
    (writeAll E t s data = .thrown ∧ ∃ u s' d, E.write u s' d = none) :=
  writeLoop_result hS data (got s) (data.length + 2) t s 0 none (by omega) (by rw [List.take_zero, List.append_nil]) (by omega) (fun _ => by omega)
    (fun h => nomatch h)

/-- `CheckedWriteAll`: if it returns, the sink has got all the data; it returns if nobody cancels and nothing throws; it never says that too few bytes
were written unless the token was cancelled. -/
theorem checkedWriteAll_result {got : σ → List Nat} (hk : Sticky E) (hS : Sink E got) (t : Nat) (s : σ) (data : List Nat) :
    (∀ s', checkedWriteAll E t s data = .ok s' → got s' = got s ++ data) ∧
    ((∀ u, ¬ Dead E u) → (∀ u s d, E.write u s d ≠ none) → ∃ s', checkedWriteAll E t s data = .ok s') ∧
    (∀ n, checkedWriteAll E t s data ≠ .inputOutput n) := by
  rcases writeAll_result hS t s data with ⟨t', s', n, h1, h2, h3, h4⟩ | ⟨h, u, s', d, h'⟩
  · unfold checkedWriteAll
    rw [h1]; dsimp only
    refine ⟨fun s'' h => ?_, fun hd _ => ?_, fun k h => ?_⟩
    · obtain ⟨h, _, _⟩ := check_ok h
      by_cases e : n = data.length
      · rw [if_pos e] at h
        cases h
        rw [h3, e, List.take_length]
      · rw [if_neg e] at h; cases h
    · have e : n = data.length := h4.resolve_right fun ⟨u, _, h⟩ => hd u h
      rw [check_alive hd, if_pos e]
      exact ⟨_, rfl⟩
    · rcases h4 with e | ⟨u, hu, hd⟩
      · rw [if_pos e] at h
        unfold check at h
        split at h
        · cases h
        · split at h <;> cases h
      · rcases check_dead hk (dead_up hk hd (Nat.le_of_lt hu)) (if n = data.length then Out.ok s' else .inputOutput n) with h'' | h'' <;> rw [h''] at h <;> cases h
  · unfold checkedWriteAll
    rw [h]
    exact ⟨fun _ h => (nomatch h), fun _ hn => absurd h' (hn _ _ _), fun _ h => (nomatch h)⟩

/-! ## Not vacuous: a stream that gives (and takes) at most three bytes at a time, with a token cancelled at time `c`. -/

def sampleRead (c t : Nat) (s : List Nat) (n : Nat) : Option (List Nat × List Nat) :=
  if c ≤ t then some ([], s) else some (s.take (min 3 n), s.drop (min 3 n))
def sampleWrite (c t : Nat) (s d : List Nat) : Option (Nat × List Nat) :=
  if c ≤ t then some (0, s) else some (min 3 d.length, s ++ d.take 3)
def sample (c : Nat) : Env (List Nat) := ⟨sampleRead c, sampleWrite c, fun t => decide (c ≤ t), fun _ => false⟩

theorem sample_sticky (c : Nat) : Sticky (sample c) :=
  ⟨fun t h => decide_eq_true (Nat.le_succ_of_le (of_decide_eq_true h)), fun _ h => h⟩

theorem sample_source (c : Nat) : Source (sample c) id := by
  refine ⟨fun t s s' n b h => ?_, fun t s s' n h => ?_⟩
  all_goals
    simp only [sample, sampleRead] at h
    split at h
  · cases h; exact ⟨rfl, Nat.zero_le _⟩
  · cases h; exact ⟨(List.take_append_drop _ _).symm, by rw [List.length_take]; omega⟩
  · rename_i hc; exact Or.inr (Or.inr (Or.inl (decide_eq_true (Nat.le_succ_of_le hc))))
  · simp only [Option.some.injEq, Prod.mk.injEq, List.take_eq_nil_iff] at h
    rcases h.1 with h | h
    · left; omega
    · exact Or.inr (Or.inl h)

theorem sample_sink (c : Nat) : Sink (sample c) id := by
  refine ⟨fun t s s' d n h => ?_, fun t s s' d h => ?_⟩
  all_goals
    simp only [sample, sampleWrite] at h
    split at h
  · cases h; exact ⟨Nat.zero_le _, (List.append_nil _).symm⟩
  · simp only [Option.some.injEq, Prod.mk.injEq] at h
    obtain ⟨h1, h2⟩ := h
    subst h1; subst h2
    refine ⟨by omega, ?_⟩
    show s ++ d.take 3 = s ++ d.take (min 3 d.length)
    congr 1
    by_cases hl : d.length ≤ 3
    · rw [List.take_of_length_le hl, List.take_of_length_le (by omega)]
    · rw [show min 3 d.length = 3 by omega]
  · rename_i hc; exact Or.inr (Or.inl (decide_eq_true (Nat.le_succ_of_le hc)))
  · simp only [Option.some.injEq, Prod.mk.injEq] at h
    left
    exact List.length_eq_zero_iff.mp (by omega)

example : readToEnd (sample 1000) 20 0 [1, 2, 3, 4, 5, 6, 7, 8, 9, 10] 2 = .ok ([], [1, 2, 3, 4, 5, 6, 7, 8, 9, 10]) := by decide +kernel
example : readToEnd (sample 10) 20 0 [1, 2, 3, 4, 5, 6, 7, 8, 9, 10] 2 = .operationCancelled := by decide +kernel
example : checkedReadAll (sample 1000) 0 [1, 2, 3, 4, 5, 6, 7] [0, 0, 0, 0, 0] = .ok ([6, 7], [1, 2, 3, 4, 5]) := by decide +kernel
example : checkedReadAll (sample 1000) 0 [1, 2, 3] [0, 0, 0, 0, 0] = .inputOutput 3 := by decide +kernel
example : readAll (sample 3) 0 [1, 2, 3, 4, 5, 6, 7] [0, 0, 0, 0, 0] = .ok ⟨5, [4, 5, 6, 7], [1, 2, 3, 0, 0], 3⟩ := by decide +kernel
example : checkedWriteAll (sample 1000) 0 [9] [1, 2, 3, 4, 5, 6, 7] = .ok [9, 1, 2, 3, 4, 5, 6, 7] := by decide +kernel

/-- C166.  Neither `ReadAll` nor `WriteAll` goes on once the token is cancelled, or has timed out. -/
theorem dead_stops {σ : Type} (E : Env σ) (t : Nat) (s : σ) (buffer : List Nat) (h : E.cancelled t = true ∨ E.timedOut t = true) :
    readAll E t s buffer = .ok ⟨t + 1, s, buffer, 0⟩ := by
  unfold readAll readLoop
  have h1 : E.alive t = false := by
    unfold Env.alive
    rcases h with h | h <;> simp [h]
  rw [h1]
  simp

end Verif.Stream.All
