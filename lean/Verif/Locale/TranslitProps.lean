import Verif.Locale.Translit

/-
C156: matching a transliterated string finds only what the table of transliterations allows.
-/
namespace Verif.Translit

/-! ### Specification -/

/-- UTF-8 of a text. -/
def utf8 (s : String) : List Nat := s.toUTF8.toList.map UInt8.toNat

/-- `Spells t m`: the typed string `t` spells the text `m`: it is cut into pieces, each of which is a byte
that stands for itself or is a transliteration from the table. -/
inductive Spells : List Nat → List Nat → Prop where
  | nil : Spells [] []
  | same (c : Nat) {t m : List Nat} : Spells t m → Spells (c :: t) (c :: m)
  | entry {k v : List Nat} {t m : List Nat} : (k, v) ∈ table → Spells t m → Spells (k ++ t) (v ++ m)

/-! ### Lemmas -/

theorem table_nonempty : ∀ e ∈ table, e.1 ≠ [] ∧ e.2 ≠ [] := by decide

theorem table_no_zero : ∀ e ∈ table, 0 ∉ e.1 ∧ 0 ∉ e.2 := by decide

theorem matchEntries_some {t s : List Nat} {es : List (List Nat × List Nat)} {a b : Nat}
    (h : matchEntries t s es = some (a, b)) :
    ∃ e ∈ es, a = e.1.length ∧ b = e.2.length ∧ t = e.1 ++ t.drop a ∧ s = e.2 ++ s.drop b := by
  induction es with
  | nil => simp [matchEntries] at h
  | cons e es ih =>
    obtain ⟨k, v⟩ := e
    simp only [matchEntries] at h
    split at h
    · obtain ⟨e, he, r⟩ := ih h; exact ⟨e, List.mem_cons_of_mem _ he, r⟩
    · split at h
      · rename_i h1 h2
        simp only [Option.some.injEq, Prod.mk.injEq] at h
        simp only [Bool.and_eq_true, decide_eq_true_eq] at h2
        refine ⟨(k, v), List.mem_cons_self, h.1.symm, h.2.symm, ?_, ?_⟩
        · rw [← h.1]; conv => lhs; rw [← List.take_append_drop k.length t, h2.1]
        · rw [← h.2]; conv => lhs; rw [← List.take_append_drop v.length s, h2.2]
      · obtain ⟨e, he, r⟩ := ih h; exact ⟨e, List.mem_cons_of_mem _ he, r⟩

theorem drop_tail {α : Type} (c : α) (t : List α) (a : Nat) (ha : 0 < a) : (c :: t).drop a = t.drop (a - 1) := by
  cases a with
  | zero => omega
  | succ a => rfl

theorem matchChar_some {c d : Nat} {t s : List Nat} {a b : Nat} (h : matchChar (c :: t) (d :: s) = some (a, b)) :
    ∃ e ∈ table, c :: t = e.1 ++ t.drop (a - 1) ∧ d :: s = e.2 ++ s.drop (b - 1) ∧ 0 < a := by
  simp only [matchChar, List.length_cons, Nat.succ_ne_zero, decide_false, Bool.or_false, Bool.false_eq_true, if_false] at h
  obtain ⟨e, he, h1, h2, h3, h4⟩ := matchEntries_some h
  have ⟨hn1, hn2⟩ := table_nonempty e he
  have ha : 0 < a := by rw [h1]; exact List.length_pos_iff.mpr hn1
  have hb : 0 < b := by rw [h2]; exact List.length_pos_iff.mpr hn2
  rw [drop_tail _ _ _ ha] at h3
  rw [drop_tail _ _ _ hb] at h4
  exact ⟨e, he, h3, h4, ha⟩

theorem matchAt_yes (fuel : Nat) (t s : List Nat) (hz : 0 ∉ t) (h : matchAt fuel t s = .yes) :
    ∃ m rest, s = m ++ rest ∧ Spells t m := by
  induction fuel generalizing t s with
  | zero =>
    cases t with
    | nil => exact ⟨[], s, rfl, .nil⟩
    | cons c t => simp [matchAt] at h
  | succ fuel ih =>
    cases t with
    | nil => exact ⟨[], s, rfl, .nil⟩
    | cons c t =>
      have hz' : c ≠ 0 ∧ 0 ∉ t := by simp at hz; exact ⟨fun h => hz.1 h.symm, hz.2⟩
      cases s with
      | nil => simp [matchAt, hz'.1] at h
      | cons d s =>
        simp only [matchAt] at h
        split at h
        · rename_i hd
          subst hd
          obtain ⟨m, rest, hs, hm⟩ := ih t s hz'.2 h
          exact ⟨d :: m, rest, by rw [hs]; rfl, .same d hm⟩
        · split at h
          · rename_i a b hm
            obtain ⟨e, he, h1, h2, ha⟩ := matchChar_some hm
            obtain ⟨m, rest, hs, hsp⟩ := ih _ _ (fun hh => hz'.2 (List.mem_of_mem_drop hh)) h
            refine ⟨e.2 ++ m, rest, ?_, ?_⟩
            · rw [h2, hs, List.append_assoc]
            · rw [h1]; exact .entry he hsp
          · exact absurd h (by simp)

theorem matchAt_no_ub (fuel : Nat) (t s : List Nat) (hz : 0 ∉ t) : matchAt fuel t s ≠ .ub := by
  induction fuel generalizing t s with
  | zero => cases t <;> simp [matchAt]
  | succ fuel ih =>
    cases t with
    | nil => simp [matchAt]
    | cons c t =>
      have hz' : c ≠ 0 ∧ 0 ∉ t := by simp at hz; exact ⟨fun h => hz.1 h.symm, hz.2⟩
      cases s with
      | nil => simp [matchAt, hz'.1]
      | cons d s =>
        simp only [matchAt]
        split
        · exact ih t s hz'.2
        · split
          · exact ih _ _ (fun hh => hz'.2 (List.mem_of_mem_drop hh))
          · simp

theorem matchFrom_yes (t : List Nat) (hz : 0 ∉ t) (n : Nat) (s : List Nat) (h : matchFrom t n s = .yes) :
    ∃ pre m post, s = pre ++ m ++ post ∧ Spells t m := by
  induction n generalizing s with
  | zero => simp [matchFrom] at h
  | succ n ih =>
    simp only [matchFrom] at h
    split at h
    · rename_i hm
      obtain ⟨m, rest, hs, hsp⟩ := matchAt_yes _ _ _ hz hm
      exact ⟨[], m, rest, hs, hsp⟩
    · exact absurd h (by simp)
    · obtain ⟨pre, m, post, hs, hsp⟩ := ih _ h
      refine ⟨s.take 1 ++ pre, m, post, ?_, hsp⟩
      rw [List.append_assoc, List.append_assoc, ← List.append_assoc pre, ← hs, List.take_append_drop]

/-- **C156** A match is never false: if the typed string contains no zero byte and
`TranslitMatchSubstr` returns true, then the text contains something the typed string spells. -/
theorem match_sound (t s : List Nat) (hz : 0 ∉ t) (h : matchSubstr t s = .yes) :
    ∃ pre m post, s = pre ++ m ++ post ∧ Spells t m := by
  unfold matchSubstr at h
  split at h
  · exact absurd h (by simp)
  · exact matchFrom_yes t hz _ s h

/-- **C156** Without a zero byte in the typed string nothing is read out of bounds, whatever the text. -/
theorem match_in_bounds (t s : List Nat) (hz : 0 ∉ t) : matchSubstr t s ≠ .ub := by
  have key : ∀ n s, matchFrom t n s ≠ .ub := by
    intro n
    induction n with
    | zero => intro s; simp [matchFrom]
    | succ n ih =>
      intro s
      simp only [matchFrom]
      split
      · simp
      · exact absurd ‹_› (matchAt_no_ub _ _ _ hz)
      · exact ih _
  unfold matchSubstr
  split
  · simp
  · exact key _ _

theorem matchAt_self (t rest : List Nat) : matchAt t.length t (t ++ rest) = .yes := by
  induction t with
  | nil => rfl
  | cons c t ih => simp only [List.length_cons, List.cons_append, matchAt, if_true, ih]

/-- **C156** A text that contains the typed string itself is always found. -/
theorem substring_found (t pre post : List Nat) (hz : 0 ∉ t) : matchSubstr t (pre ++ t ++ post) = .yes := by
  have key : ∀ (n : Nat) (pre : List Nat), pre.length < n → matchFrom t n (pre ++ t ++ post) = .yes := by
    intro n
    induction n with
    | zero => intro pre h; omega
    | succ n ih =>
      intro pre h
      simp only [matchFrom]
      cases pre with
      | nil => rw [List.nil_append, matchAt_self]
      | cons p pre =>
        split
        · rfl
        · exact absurd ‹_› (matchAt_no_ub _ _ _ hz)
        · exact ih pre (by simp at h; omega)
  unfold matchSubstr
  rw [if_neg (by simp; omega)]
  exact key _ _ (by simp; omega)

/-! ### What is found, exactly -/

/-- One is a prefix of the other. -/
def comparable (a b : List Nat) : Bool := a.isPrefixOf b || b.isPrefixOf a

theorem table_unambiguous : ∀ e ∈ table, ∀ e' ∈ table, comparable e.1 e'.1 = true → comparable e.2 e'.2 = true → e = e' := by
  decide +kernel

theorem table_heads : ∀ e ∈ table, e.1.headD 0 ≠ e.2.headD 0 := by decide

theorem isPrefixOf_iff (a b : List Nat) : a.isPrefixOf b = true ↔ ∃ c, b = a ++ c := by
  rw [List.isPrefixOf_iff_prefix]
  exact ⟨fun ⟨c, h⟩ => ⟨c, h.symm⟩, fun ⟨c, h⟩ => ⟨c, h.symm⟩⟩

theorem comparable_of (a b x y : List Nat) (h : a ++ x = b ++ y) : comparable a b = true := by
  rw [comparable, Bool.or_eq_true, isPrefixOf_iff, isPrefixOf_iff]
  rcases List.append_eq_append_iff.mp h with ⟨c, h1, _⟩ | ⟨c, h1, _⟩
  · exact .inl ⟨c, h1⟩
  · exact .inr ⟨c, h1⟩

theorem matchEntries_complete {t s : List Nat} {es : List (List Nat × List Nat)} {e : List Nat × List Nat} (he : e ∈ es)
    {t' s' : List Nat} (ht : t = e.1 ++ t') (hs : s = e.2 ++ s') : matchEntries t s es ≠ none := by
  induction es with
  | nil => simp at he
  | cons f es ih =>
    obtain ⟨k, v⟩ := f
    simp only [matchEntries]
    rcases List.mem_cons.mp he with rfl | he
    · have h1 : ¬ ((decide (k.length > t.length) || decide (v.length > s.length)) = true) := by
        rw [ht, hs]; simp only [List.length_append, Bool.or_eq_true, decide_eq_true_eq]; omega
      rw [if_neg h1, if_pos]
      · simp
      · rw [ht, hs]; simp
    · split
      · exact ih he
      · split
        · simp
        · exact ih he

theorem matchChar_complete {e : List Nat × List Nat} (he : e ∈ table) (t' s' : List Nat) :
    matchChar (e.1 ++ t') (e.2 ++ s') = some (e.1.length, e.2.length) := by
  have ⟨hn1, hn2⟩ := table_nonempty e he
  have hl1 := List.length_pos_iff.mpr hn1
  have hl2 := List.length_pos_iff.mpr hn2
  have h0 : matchChar (e.1 ++ t') (e.2 ++ s') = matchEntries (e.1 ++ t') (e.2 ++ s') table := by
    unfold matchChar
    rw [if_neg]
    simp only [List.length_append, Bool.or_eq_true, decide_eq_true_eq]; omega
  rw [h0]
  cases h : matchEntries (e.1 ++ t') (e.2 ++ s') table with
  | none => exact absurd h (matchEntries_complete he rfl rfl)
  | some p =>
    obtain ⟨a, b⟩ := p
    obtain ⟨f, hf, h1, h2, h3, h4⟩ := matchEntries_some h
    have := table_unambiguous e he f hf (comparable_of _ _ _ _ h3) (comparable_of _ _ _ _ h4)
    rw [h1, h2, this]

theorem matchAt_complete {t m : List Nat} (h : Spells t m) (fuel : Nat) (hf : t.length ≤ fuel) (rest : List Nat) :
    matchAt fuel t (m ++ rest) = .yes := by
  induction h generalizing fuel with
  | nil => cases fuel <;> simp [matchAt]
  | same c _ ih =>
    cases fuel with
    | zero => simp at hf
    | succ fuel =>
      simp only [List.cons_append, matchAt, if_true]
      exact ih fuel (by simp at hf; omega)
  | @entry k v t m he _ ih =>
    have ⟨hn1, hn2⟩ := table_nonempty _ he
    have hh := table_heads _ he
    have hmc := matchChar_complete he t (m ++ rest)
    simp only [] at hn1 hn2 hh hmc
    cases k with
    | nil => exact absurd rfl hn1
    | cons c k =>
      cases v with
      | nil => exact absurd rfl hn2
      | cons d v =>
        cases fuel with
        | zero => simp at hf
        | succ fuel =>
          rw [List.append_assoc]
          simp only [List.headD_cons] at hh
          simp only [List.cons_append] at hmc ⊢
          simp only [matchAt]
          rw [if_neg (fun h => hh h.symm), hmc]
          simp only [List.length_cons, Nat.add_sub_cancel, List.drop_left']
          exact ih fuel (by simp at hf; omega)

theorem matchFrom_yes_at (t : List Nat) (n : Nat) (s : List Nat) (i : Nat) (hi : i < n) (hz : 0 ∉ t)
    (h : matchAt t.length t (s.drop i) = .yes) : matchFrom t n s = .yes := by
  induction n generalizing s i with
  | zero => omega
  | succ n ih =>
    simp only [matchFrom]
    cases i with
    | zero => rw [List.drop_zero] at h; rw [h]
    | succ i =>
      split
      · rfl
      · exact absurd ‹_› (matchAt_no_ub _ _ _ hz)
      · refine ih (s.drop 1) i (by omega) ?_
        rw [List.drop_drop, Nat.add_comm]; exact h

theorem matchFrom_yes_pos (t : List Nat) (hz : 0 ∉ t) (n : Nat) (s : List Nat) (h : matchFrom t n s = .yes) :
    ∃ pre m post, s = pre ++ m ++ post ∧ Spells t m ∧ pre.length < n := by
  induction n generalizing s with
  | zero => simp [matchFrom] at h
  | succ n ih =>
    simp only [matchFrom] at h
    split at h
    · rename_i hm
      obtain ⟨m, rest, hs, hsp⟩ := matchAt_yes _ _ _ hz hm
      exact ⟨[], m, rest, hs, hsp, by simp⟩
    · exact absurd h (by simp)
    · obtain ⟨pre, m, post, hs, hsp, hl⟩ := ih _ h
      refine ⟨s.take 1 ++ pre, m, post, ?_, hsp, ?_⟩
      · rw [List.append_assoc, List.append_assoc, ← List.append_assoc pre, ← hs, List.take_append_drop]
      · simp only [List.length_append, List.length_take]; omega

/-- **C156** Exactly this is found: something the typed string spells, that starts at least as many
bytes before the end of the text as the typed string is long. -/
theorem match_iff (t s : List Nat) (hz : 0 ∉ t) :
    matchSubstr t s = .yes ↔
      ∃ pre m post, s = pre ++ m ++ post ∧ Spells t m ∧ pre.length + t.length ≤ s.length := by
  unfold matchSubstr
  constructor
  · intro h
    split at h
    · exact absurd h (by simp)
    · obtain ⟨pre, m, post, hs, hsp, hl⟩ := matchFrom_yes_pos t hz _ s h
      exact ⟨pre, m, post, hs, hsp, by omega⟩
  · rintro ⟨pre, m, post, hs, hsp, hl⟩
    rw [if_neg (by omega)]
    refine matchFrom_yes_at t _ s pre.length (by omega) hz ?_
    rw [hs, List.append_assoc, List.drop_left']
    · exact matchAt_complete hsp _ (Nat.le_refl _) post
    · rfl

example : matchSubstr (utf8 "zhuk") (utf8 "а жуку") = .yes ∧ 0 ∉ utf8 "zhuk" := by decide +kernel

example : matchSubstr (utf8 "moskva") (utf8 "москва") = .no := by decide +kernel

/-- **C156** Not everything the typed string spells is found: a typed string with more bytes than
the text is rejected although it is in the table. -/
theorem match_complete_violated :
    (utf8 "sch", utf8 "щ") ∈ table ∧ matchSubstr (utf8 "sch") (utf8 "щ") = .no := by decide +kernel

/-- **C156** The letter `k` does not find `к` (its entry in the table has one letter too many), while
`q` does. -/
theorem letter_k_violated :
    matchSubstr (utf8 "k") (utf8 "к") = .no ∧ matchSubstr (utf8 "q") (utf8 "к") = .yes := by decide +kernel

/-- **C156** With zero bytes in the typed string the text is read out of bounds. -/
theorem zero_bytes_violated : matchSubstr [97, 97, 0, 0] (utf8 "аа") = .ub := by decide +kernel

end Verif.Translit
