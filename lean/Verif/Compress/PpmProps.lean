import Verif.Compress.Ppm
import Verif.Compress.CoderProps
/-
Property C69 of the model of the prediction by partial matching.
-/
namespace Verif.Compress

theorem sum_cons (x : Nat × Nat) (l : List (Nat × Nat)) : sum (x :: l) = x.2 + sum l := by simp [sum]
theorem sum_append (l r : List (Nat × Nat)) : sum (l ++ r) = sum l + sum r := by simp [sum]

theorem w32_id {v : Nat} (h : v < 4294967296) : w32 v = v := Nat.mod_eq_of_lt h

/-- The parts of a context. -/
theorem scale_eq {m : Nat} {c : Ctx} (h : Spec.CtxOk m c) : c.scale = sum c.syms + c.exit := by
  have := h.small
  exact w32_id (by omega)

theorem exitPart_eq {m : Nat} {c : Ctx} (h : Spec.CtxOk m c) : c.exitPart = ⟨sum c.syms, sum c.syms + c.exit, sum c.syms + c.exit⟩ := by
  have := h.small
  unfold Ctx.exitPart
  rw [scale_eq h]
  congr 1
  unfold w32; omega

/-- What `DoPredict` gives for a symbol: it is there with its part, or it is not there. -/
theorem doPredict_some {m : Nat} {c : Ctx} (h : Spec.CtxOk m c) (s : Nat) :
    (∃ (before rest : List (Nat × Nat)) (p : Nat), c.syms = before ++ (s, p) :: rest ∧ doPredict m c (some s) = (⟨sum before, sum before + p, c.scale⟩, true)) ∨
    ((∀ x ∈ c.syms, x.1 ≠ s) ∧ doPredict m c (some s) = (c.exitPart, false)) := by
  have hs := h.sorted
  have happ : c.syms.takeWhile (fun x => decide (x.1 < s)) ++ c.syms.dropWhile (fun x => decide (x.1 < s)) = c.syms := List.takeWhile_append_dropWhile
  have hless : ∀ x ∈ c.syms.takeWhile (fun x => decide (x.1 < s)), x.1 < s := fun x hx => by
    have := List.all_takeWhile (p := fun x : Nat × Nat => decide (x.1 < s)) (l := c.syms)
    have := List.all_eq_true.1 this x hx
    simpa using this
  unfold doPredict
  simp only []
  cases hd : c.syms.dropWhile (fun x => decide (x.1 < s)) with
  | nil =>
    right
    rw [hd, List.append_nil] at happ
    refine ⟨fun x hx e => ?_, rfl⟩
    rw [← happ] at hx
    have := hless x hx
    omega
  | cons y rest =>
    rw [hd] at happ
    have hy : ¬ y.1 < s := by
      have := List.head_dropWhile_not (fun x : Nat × Nat => decide (x.1 < s)) (l := c.syms) (by rw [hd]; exact fun e => nomatch e)
      simp only [hd, List.head_cons] at this
      simpa using this
    by_cases e : y.1 = s
    · left
      simp only [if_pos e]
      refine ⟨c.syms.takeWhile (fun x => decide (x.1 < s)), rest, y.2, ?_, ?_⟩
      · have : y = (s, y.2) := by rw [← e]
        rw [← this]; exact happ.symm
      · have h1 : sum (c.syms.takeWhile (fun x => decide (x.1 < s))) + y.2 ≤ sum c.syms := by
          conv => rhs; rw [← happ]
          rw [sum_append, sum_cons]; omega
        have hp : 0 < y.2 := h.pos y (by rw [← happ]; simp)
        have := h.fits
        have := h.small
        rw [Nat.mod_eq_of_lt (by omega), w32_id (by omega)]
    · right
      simp only [if_neg e]
      refine ⟨fun x hx ex => ?_, trivial⟩
      rw [← happ] at hx hs
      rcases List.mem_append.1 hx with hx | hx
      · have := hless x hx; omega
      · rcases List.mem_cons.1 hx with hx | hx
        · rw [hx] at ex; exact e ex
        · rw [List.map_append, List.map_cons, List.pairwise_append] at hs
          have := (List.pairwise_cons.1 hs.2.1).1 x.1 (List.mem_map_of_mem hx)
          omega

/-- The loop of `DoDecode` finds the part that a number is in. -/
theorem findPart_in (x sc : Nat) : ∀ (before : List (Nat × Nat)) (low s p : Nat) (rest : List (Nat × Nat)), low + sum before ≤ x → x < low + sum before + p → low + sum before + p < 4294967296 →
    findPart x sc low (before ++ (s, p) :: rest) = some (s, ⟨low + sum before, low + sum before + p, sc⟩) := by
  intro before
  induction before with
  | nil =>
    intro low s p rest h1 h2 h3
    simp only [sum, List.map_nil, List.sum_nil, Nat.add_zero] at h1 h2 h3 ⊢
    simp only [List.nil_append, findPart]
    rw [w32_id h3, if_pos ⟨h1, h2⟩]
  | cons b before ih =>
    intro low s p rest h1 h2 h3
    rw [sum_cons] at h1 h2 h3
    obtain ⟨a, q⟩ := b
    simp only [List.cons_append, findPart]
    simp only [] at h1 h2 h3
    rw [w32_id (by omega), if_neg (by omega), ih (low + q) s p rest (by omega) (by omega) (by omega), sum_cons]
    simp only [Nat.add_assoc]

theorem findPart_out (x sc : Nat) : ∀ (l : List (Nat × Nat)) (low : Nat), low + sum l ≤ x → low + sum l < 4294967296 → findPart x sc low l = none := by
  intro l
  induction l with
  | nil => intro low _ _; rfl
  | cons b l ih =>
    intro low h1 h2
    rw [sum_cons] at h1 h2
    obtain ⟨a, q⟩ := b
    simp only [findPart]
    simp only [] at h1 h2
    rw [w32_id (by omega), if_neg (by omega)]
    exact ih _ (by omega) (by omega)

/-- The decoder gets from a context what the compressor put into it. -/
theorem doDecode_doPredict {m : Nat} {c : Ctx} (h : Spec.CtxOk m c) (src : Nat → Bool) (d : Dec) (sym : Option Nat) (rest : List Part) (hf : Spec.Finds src d ((doPredict m c sym).1 :: rest)) :
    ∃ d', doDecode src c d = .ok (if (doPredict m c sym).2 then sym else none, d') ∧ Spec.Finds src d' rest := by
  have hsm := h.small
  obtain ⟨⟨x, h1, h2, h3⟩, d', h4, h5⟩ := hf
  have exitCase : (doPredict m c sym) = (c.exitPart, false) → ∃ d', doDecode src c d = .ok (if (doPredict m c sym).2 then sym else none, d') ∧ Spec.Finds src d' rest := by
    intro e
    have hx := exitPart_eq h
    have hsc := scale_eq h
    rw [e, hx] at h1 h2 h3 h4
    simp only [] at h1 h2 h3 h4
    refine ⟨d', ?_, h5⟩
    rw [e]
    unfold doDecode
    rw [hx, hsc, h1]
    simp only []
    rw [findPart_out x _ c.syms 0 (by omega) (by omega)]
    simp only [h4, Bool.false_eq_true, if_false, finishPart]
  cases sym with
  | none => exact exitCase rfl
  | some s =>
    rcases doPredict_some h s with ⟨before, after, p, e1, e2⟩ | ⟨_, e2⟩
    · have hsc := scale_eq h
      rw [e2, hsc] at h1 h2 h3 h4
      simp only [] at h1 h2 h3 h4
      refine ⟨d', ?_, h5⟩
      rw [e2]
      unfold doDecode
      rw [hsc, h1]
      simp only []
      have hle : sum before + p ≤ sum c.syms := by rw [e1, sum_append, sum_cons]; simp only []; omega
      have := findPart_in x (sum c.syms + c.exit) before 0 s p after (by omega) (by omega) (by omega)
      rw [Nat.zero_add] at this
      rw [← e1] at this
      rw [this]
      simp only [h4, if_true, finishPart]
    · exact exitCase e2

/-- All levels. -/
theorem decode_predict (src : Nat → Bool) (context : List Nat) (sym : Option Nat) : ∀ (ls : List Level) (ps rest : List Part) (d : Dec),
    (∀ l ∈ ls, ∀ c ∈ l.ctxs, Spec.CtxOk l.modulus c) → predict context sym ls = .ok ps → Spec.Finds src d (ps ++ rest) → ∃ d', decode src context ls d = .ok (sym, d') ∧ Spec.Finds src d' rest := by
  intro ls
  induction ls with
  | nil =>
    intro ps rest d _ h hf
    simp only [predict] at h
    by_cases e : sym = none
    · rw [if_pos e] at h
      injection h with h; subst h; subst e
      exact ⟨d, rfl, hf⟩
    · rw [if_neg e] at h; cases h
  | cons l ls ih =>
    intro ps rest d hok h hf
    have hok' : ∀ l' ∈ ls, ∀ c ∈ l'.ctxs, Spec.CtxOk l'.modulus c := fun l' hl => hok l' (List.mem_cons_of_mem _ hl)
    simp only [predict] at h
    simp only [decode]
    by_cases hc : context.length < l.size
    · rw [if_pos hc] at h ⊢; exact ih ps rest d hok' h hf
    · rw [if_neg hc] at h ⊢
      cases hk : l.lookup context with
      | none => rw [hk] at h; exact ih ps rest d hok' h hf
      | some c =>
        rw [hk] at h
        simp only [] at h ⊢
        have hcok : Spec.CtxOk l.modulus c := hok l List.mem_cons_self c (List.mem_of_find?_eq_some hk)
        by_cases hp : (doPredict l.modulus c sym).2 = true
        · rw [if_pos hp] at h
          injection h with h; subst h
          obtain ⟨d', h1, h2⟩ := doDecode_doPredict hcok src d sym rest hf
          rw [if_pos hp] at h1
          rw [h1]
          cases sym with
          | none => cases hp
          | some s => exact ⟨d', rfl, h2⟩
        · rw [if_neg hp] at h
          cases hx : predict context sym ls with
          | error e => rw [hx] at h; cases h
          | ok qs =>
            rw [hx] at h
            injection h with h; subst h
            obtain ⟨d', h1, h2⟩ := doDecode_doPredict hcok src d sym (qs ++ rest) hf
            rw [if_neg hp] at h1
            rw [h1]
            exact ih qs rest d' hok' hx h2

theorem decodeAll_data (src : Nat → Bool) (ls : List Level) (hok : ∀ l ∈ ls, ∀ c ∈ l.ctxs, Spec.CtxOk l.modulus c) : ∀ (data context : List Nat) (ps : List Part) (d : Dec) (n : Nat),
    data.length < n → dataParts ls context data = .ok ps → Spec.Finds src d ps → decodeAll src ls n context d = .ok data := by
  intro data
  induction data with
  | nil =>
    intro context ps d n hn h hf
    cases n with
    | zero => cases hn
    | succ n =>
      simp only [dataParts] at h
      obtain ⟨d', h1, _⟩ := decode_predict src context none ls ps [] d hok h (by rw [List.append_nil]; exact hf)
      simp only [decodeAll, h1]
  | cons s data ih =>
    intro context ps d n hn h hf
    cases n with
    | zero => cases hn
    | succ n =>
      simp only [dataParts] at h
      cases hx : predict context (some s) ls with
      | error e => rw [hx] at h; cases h
      | ok qs =>
        rw [hx] at h
        simp only [] at h
        cases hy : dataParts ls (pushCtx (topSize ls) context s) data with
        | error e => rw [hy] at h; cases h
        | ok rs =>
          rw [hy] at h
          injection h with h; subst h
          obtain ⟨d', h1, h2⟩ := decode_predict src context (some s) ls qs rs d hok hx hf
          simp only [decodeAll, h1]
          rw [ih _ rs d' n (by simp at hn; omega) hy h2]

/-! ### Compressing succeeds -/

/-- A level of size 0 that knows every byte. -/
def Spec.Complete (l : Level) : Prop := l.size = 0 ∧ ∃ (c : Ctx) (rest : List Ctx), l.ctxs = c :: rest ∧ ∀ s, s < 256 → s ∈ c.syms.map (·.1)

theorem lexLess_nil (k : List Nat) : lexLess k [] = false := by cases k <;> rfl

theorem lookup_zero {l : Level} (h : l.size = 0) (context : List Nat) {c : Ctx} {rest : List Ctx} (hc : l.ctxs = c :: rest) : l.lookup context = some c := by
  unfold Level.lookup
  rw [hc, h, Nat.sub_zero, List.drop_length]
  simp [lexLess_nil]

/-- The first place where two texts differ decides; a beginning comes first. -/
inductive Spec.Before : List Nat → List Nat → Prop
  | prefix_ {x : Nat} {xs : List Nat} : Spec.Before [] (x :: xs)
  | differ {a b : Nat} {as bs : List Nat} : a < b → Spec.Before (a :: as) (b :: bs)
  | same {a : Nat} {as bs : List Nat} : Spec.Before as bs → Spec.Before (a :: as) (a :: bs)

theorem lexLess_iff (a : List Nat) : ∀ b, lexLess a b = true ↔ Spec.Before a b := by
  induction a with
  | nil =>
    intro b
    cases b with
    | nil => exact ⟨fun h => by simp [lexLess] at h, fun h => by cases h⟩
    | cons b bs => exact ⟨fun _ => .prefix_, fun _ => rfl⟩
  | cons a as ih =>
    intro b
    cases b with
    | nil => exact ⟨fun h => by simp [lexLess] at h, fun h => by cases h⟩
    | cons b bs =>
      rw [lexLess]
      by_cases h1 : a < b
      · rw [if_pos h1]; exact ⟨fun _ => .differ h1, fun _ => rfl⟩
      · rw [if_neg h1]
        by_cases h2 : b < a
        · rw [if_pos h2]
          refine ⟨fun h => (by cases h), fun h => ?_⟩
          cases h with
          | differ h => exact absurd h h1
          | same _ => omega
        · rw [if_neg h2, ih]
          have e : a = b := by omega
          subst e
          refine ⟨.same, fun h => ?_⟩
          cases h with
          | differ h => exact absurd h h1
          | same h => exact h

theorem before_irrefl (a : List Nat) : ¬ Spec.Before a a := by
  induction a with
  | nil => intro h; cases h
  | cons x a ih =>
    intro h
    cases h with
    | differ h => omega
    | same h => exact ih h

/-- C69.  In a level whose contexts are in ascending order the context looked for is found: it is the one with the last `size` symbols as
its key.  If there is none, the first one after it is taken instead (see `Level.lookup`), and none if it would be the last. -/
theorem lookup_found {l : Level} (hs : (l.ctxs.map (·.key)).Pairwise Spec.Before) {context : List Nat} {c : Ctx} (hc : c ∈ l.ctxs)
    (hk : c.key = context.drop (context.length - l.size)) : l.lookup context = some c := by
  unfold Level.lookup
  rw [← hk]
  generalize l.ctxs = cs at hs hc
  induction cs with
  | nil => cases hc
  | cons d cs ih =>
    rw [List.map_cons, List.pairwise_cons] at hs
    rw [List.find?_cons]
    rcases List.mem_cons.mp hc with rfl | hc
    · have : lexLess c.key c.key = false := by
        cases h : lexLess c.key c.key with
        | false => rfl
        | true => exact absurd ((lexLess_iff _ _).mp h) (before_irrefl _)
      rw [this]; rfl
    · have h := (lexLess_iff _ _).mpr (hs.1 c.key (List.mem_map_of_mem hc))
      rw [h]
      exact ih hs.2 hc

example : (([⟨[1, 2], 1, []⟩, ⟨[2, 1], 1, []⟩] : List Ctx).map (·.key)).Pairwise Spec.Before ∧
    Level.lookup ⟨2, 256, [⟨[1, 2], 1, []⟩, ⟨[2, 1], 3, []⟩]⟩ [7, 2, 1] = some ⟨[2, 1], 3, []⟩ :=
  ⟨.cons (fun a h => by rw [List.mem_singleton.mp h]; exact .differ (by decide)) (.cons (fun _ h => (nomatch h)) .nil), by decide⟩

def PartOk (p : Part) : Prop := p.lo < p.hi ∧ p.hi ≤ p.scale ∧ p.scale ≤ 536870912

theorem doPredict_ok {m : Nat} {c : Ctx} (h : Spec.CtxOk m c) (sym : Option Nat) : PartOk (doPredict m c sym).1 := by
  have hsm := h.small
  have hex := h.exit
  have exitOk : PartOk c.exitPart := by
    rw [exitPart_eq h]; exact ⟨by show _ < _; simp only []; omega, by show _ ≤ _; simp only []; omega, hsm⟩
  cases sym with
  | none => exact exitOk
  | some s =>
    rcases doPredict_some h s with ⟨before, after, p, e1, e2⟩ | ⟨_, e2⟩
    · rw [e2, scale_eq h]
      have hp : 0 < p := h.pos (s, p) (by rw [e1]; simp)
      have hle : sum before + p ≤ sum c.syms := by rw [e1, sum_append, sum_cons]; simp only []; omega
      exact ⟨by show _ < _; simp only []; omega, by show _ ≤ _; simp only []; omega, hsm⟩
    · rw [e2]; exact exitOk

theorem predict_ok (context : List Nat) (sym : Option Nat) (hsym : ∀ s, sym = some s → s < 256) : ∀ (ls : List Level), (∀ l ∈ ls, ∀ c ∈ l.ctxs, Spec.CtxOk l.modulus c) → (sym = none ∨ ∃ l ∈ ls, Spec.Complete l) →
    ∃ ps, predict context sym ls = .ok ps ∧ ∀ p ∈ ps, PartOk p := by
  intro ls
  induction ls with
  | nil =>
    intro _ h
    rcases h with h | ⟨l, hl, _⟩
    · simp only [predict, if_pos h]; exact ⟨[], rfl, fun _ h => nomatch h⟩
    · cases hl
  | cons l ls ih =>
    intro hok h
    have hok' : ∀ l' ∈ ls, ∀ c ∈ l'.ctxs, Spec.CtxOk l'.modulus c := fun l' hl => hok l' (List.mem_cons_of_mem _ hl)
    have child : (¬ (∃ s, sym = some s ∧ Spec.Complete l)) → ∃ ps, predict context sym ls = .ok ps ∧ ∀ p ∈ ps, PartOk p := by
      intro hn
      refine ih hok' ?_
      rcases h with h | ⟨l', hl, hc⟩
      · exact Or.inl h
      · rcases List.mem_cons.1 hl with e | e
        · cases sym with
          | none => exact Or.inl rfl
          | some s => exact absurd ⟨s, rfl, e ▸ hc⟩ hn
        · exact Or.inr ⟨l', e, hc⟩
    simp only [predict]
    by_cases hlen : context.length < l.size
    · rw [if_pos hlen]
      exact child (fun ⟨_, _, hc⟩ => by rw [hc.1] at hlen; omega)
    · rw [if_neg hlen]
      cases hk : l.lookup context with
      | none =>
        refine child (fun ⟨_, _, hc⟩ => ?_)
        obtain ⟨h0, c, rest, hcs, _⟩ := hc
        rw [lookup_zero h0 context hcs] at hk; cases hk
      | some c =>
        simp only []
        have hcok : Spec.CtxOk l.modulus c := hok l List.mem_cons_self c (List.mem_of_find?_eq_some hk)
        have hpo := doPredict_ok hcok sym
        by_cases hp : (doPredict l.modulus c sym).2 = true
        · rw [if_pos hp]
          exact ⟨_, rfl, fun p hm => by rw [List.mem_singleton.1 hm]; exact hpo⟩
        · rw [if_neg hp]
          obtain ⟨ps, h1, h2⟩ := child (fun ⟨s, hs, hc⟩ => by
            obtain ⟨h0, c', rest, hcs, hall⟩ := hc
            rw [lookup_zero h0 context hcs] at hk
            injection hk with hk; subst hk; subst hs
            rcases doPredict_some hcok s with ⟨_, _, _, _, e2⟩ | ⟨e1, _⟩
            · rw [e2] at hp; exact hp rfl
            · obtain ⟨x, hx, e⟩ := List.mem_map.1 (hall s (hsym s rfl))
              exact e1 x hx e)
          rw [h1]
          refine ⟨_, rfl, fun p hm => ?_⟩
          rcases List.mem_cons.1 hm with e | e
          · rw [e]; exact hpo
          · exact h2 p e

theorem dataParts_ok (ls : List Level) (hok : ∀ l ∈ ls, ∀ c ∈ l.ctxs, Spec.CtxOk l.modulus c) (hcomp : ∃ l ∈ ls, Spec.Complete l) : ∀ (data context : List Nat), (∀ s ∈ data, s < 256) →
    ∃ ps, dataParts ls context data = .ok ps ∧ ∀ p ∈ ps, PartOk p := by
  intro data
  induction data with
  | nil => intro context _; exact predict_ok context none (fun _ h => nomatch h) ls hok (Or.inl rfl)
  | cons s data ih =>
    intro context hd
    obtain ⟨ps, h1, h2⟩ := predict_ok context (some s) (fun s' e => by injection e with e; rw [← e]; exact hd s List.mem_cons_self) ls hok (Or.inr hcomp)
    obtain ⟨qs, h3, h4⟩ := ih (pushCtx (topSize ls) context s) (fun s' hs => hd s' (List.mem_cons_of_mem _ hs))
    simp only [dataParts, h1, h3]
    refine ⟨_, rfl, fun p hp => ?_⟩
    rcases List.mem_append.1 hp with e | e
    · exact h2 p e
    · exact h4 p e

/-! ### The levels that are made -/

/-- Counts of symbols as the builder has them. -/
structure Spec.Counts (counts : List (Nat × Nat)) : Prop where
  sorted : (counts.map (·.1)).Pairwise (· < ·)
  bytes : ∀ x ∈ counts, x.1 < 256
  pos : ∀ x ∈ counts, 0 < x.2

theorem addCount_mem {s : Nat} : ∀ {l : List (Nat × Nat)} {x : Nat × Nat}, x ∈ addCount s l → (x.1 = s ∨ ∃ y ∈ l, y.1 = x.1) ∧ (0 < x.2 ∨ x ∈ l)
  | [], x, h => by rw [addCount, List.mem_singleton] at h; subst h; exact ⟨Or.inl rfl, Or.inl Nat.one_pos⟩
  | (a, n) :: l, x, h => by
    simp only [addCount] at h
    split at h
    · rcases List.mem_cons.1 h with e | e
      · subst e; exact ⟨Or.inr ⟨_, List.mem_cons_self, rfl⟩, Or.inr List.mem_cons_self⟩
      · obtain ⟨h1, h2⟩ := addCount_mem e
        exact ⟨h1.imp id fun ⟨y, hy, e⟩ => ⟨y, List.mem_cons_of_mem _ hy, e⟩, h2.imp id (List.mem_cons_of_mem _)⟩
    · split at h
      · rcases List.mem_cons.1 h with e | e
        · subst e; exact ⟨Or.inr ⟨_, List.mem_cons_self, rfl⟩, Or.inl (Nat.succ_pos _)⟩
        · exact ⟨Or.inr ⟨_, List.mem_cons_of_mem _ e, rfl⟩, Or.inr (List.mem_cons_of_mem _ e)⟩
      · rcases List.mem_cons.1 h with e | e
        · subst e; exact ⟨Or.inl rfl, Or.inl Nat.one_pos⟩
        · exact ⟨Or.inr ⟨_, e, rfl⟩, Or.inr e⟩

/-- Adding a symbol keeps the counts in order. -/
theorem addCount_counts {s : Nat} (hs : s < 256) {l : List (Nat × Nat)} (h : Spec.Counts l) : Spec.Counts (addCount s l) := by
  refine ⟨?_, fun x hx => ?_, fun x hx => ?_⟩
  · have := h.sorted
    clear h
    induction l with
    | nil => simp [addCount]
    | cons b l ih =>
      obtain ⟨a, n⟩ := b
      rw [List.map_cons, List.pairwise_cons] at this
      simp only [addCount]
      split
      · rename_i hlt
        rw [List.map_cons, List.pairwise_cons]
        refine ⟨fun y hy => ?_, ih this.2⟩
        obtain ⟨x, hx, e⟩ := List.mem_map.1 hy
        rcases (addCount_mem hx).1 with e1 | ⟨z, hz, e1⟩
        · simp only [] at e e1 ⊢; omega
        · have := this.1 z.1 (List.mem_map_of_mem hz)
          simp only [] at e this ⊢; omega
      · split
        · rw [List.map_cons, List.pairwise_cons]; exact this
        · rw [List.map_cons, List.pairwise_cons]
          refine ⟨fun y hy => ?_, by rw [List.map_cons, List.pairwise_cons]; exact this⟩
          rw [List.map_cons] at hy
          rcases List.mem_cons.1 hy with e | e
          · simp only [] at e ⊢; omega
          · have := this.1 y e; simp only [] at this ⊢; omega
  · rcases (addCount_mem hx).1 with e | ⟨y, hy, e⟩
    · rw [e]; exact hs
    · rw [← e]; exact h.bytes y hy
  · exact (addCount_mem hx).2.elim id (h.pos x)

theorem allSymbols_keys (m mx : Nat) : ∀ (n s : Nat) (counts : List (Nat × Nat)), (allSymbols m mx s n counts).map (·.1) = List.range' s n := by
  intro n
  induction n with
  | zero => intro s counts; rfl
  | succ n ih =>
    intro s counts
    cases counts with
    | nil => simp only [allSymbols, List.map_cons, ih]; rfl
    | cons b rest =>
      obtain ⟨a, k⟩ := b
      simp only [allSymbols]
      split <;> (simp only [List.map_cons, ih]; rfl)

theorem allSymbols_pos (m mx : Nat) : ∀ (n s : Nat) (counts : List (Nat × Nat)), ∀ x ∈ allSymbols m mx s n counts, 0 < x.2 := by
  intro n
  induction n with
  | zero => intro s counts x hx; cases hx
  | succ n ih =>
    intro s counts x hx
    cases counts with
    | nil =>
      simp only [allSymbols] at hx
      rcases List.mem_cons.1 hx with e | e
      · subst e; exact Nat.one_pos
      · exact ih _ _ x e
    | cons b rest =>
      obtain ⟨a, k⟩ := b
      simp only [allSymbols] at hx
      split at hx
      · rcases List.mem_cons.1 hx with e | e
        · subst e; exact Nat.lt_of_lt_of_le Nat.one_pos (Nat.le_max_right _ _)
        · exact ih _ _ x e
      · rcases List.mem_cons.1 hx with e | e
        · subst e; exact Nat.one_pos
        · exact ih _ _ x e

/-- A context that the constructor of the model makes is as it should be, provided that its probabilities do not exceed their type when added up. -/
theorem ppm_context_ok (size modulus : Nat) (key : List Nat) (counts : List (Nat × Nat)) (hc : Spec.Counts counts) (hfit : sum (makeCtx size modulus key counts).syms ≤ modulus) (hm : modulus < 536870912) :
    Spec.CtxOk modulus (makeCtx size modulus key counts) := by
  have hs : ((makeCtx size modulus key counts).syms.map (·.1)).Pairwise (· < ·) ∧ ∀ x ∈ (makeCtx size modulus key counts).syms, 0 < x.2 := by
    unfold makeCtx
    simp only []
    by_cases h0 : size ≠ 0
    · rw [if_pos h0]
      constructor
      · have hsub : (((counts.map fun x => (x.1, probability modulus (maxCount counts) x.2)).filter (fun x => decide (x.2 ≠ 0))).map (·.1)).Sublist (counts.map (·.1)) := by
          have h1 := (List.filter_sublist (l := counts.map fun x => (x.1, probability modulus (maxCount counts) x.2)) (p := fun x => decide (x.2 ≠ 0))).map (·.1)
          rw [List.map_map] at h1
          exact h1
        exact hc.sorted.sublist hsub
      · intro x hx
        have := (List.mem_filter.1 hx).2
        simp at this; omega
    · rw [if_neg h0]
      exact ⟨by rw [allSymbols_keys]; exact List.pairwise_lt_range', allSymbols_pos _ _ _ _ _⟩
  refine ⟨hs.1, hs.2, Nat.one_pos, hfit, ?_⟩
  show sum _ + 1 ≤ _
  omega

/-- The level of size 0 knows every byte as soon as it has a context. -/
theorem ppm_order0_complete (modulus : Nat) (key : List Nat) (counts : List (Nat × Nat)) (rest : List (List Nat × List (Nat × Nat))) : Spec.Complete (makeLevel 0 modulus ((key, counts) :: rest)) := by
  have hk : (makeCtx 0 modulus key counts).syms.map (·.1) = List.range' 0 256 := allSymbols_keys _ _ _ _ _
  have hne : (makeCtx 0 modulus key counts).syms ≠ [] := by
    intro e; rw [e] at hk; exact absurd (congrArg List.length hk) (by rw [List.length_range']; exact fun h => nomatch h)
  refine ⟨rfl, makeCtx 0 modulus key counts, ((rest.map fun x => makeCtx 0 modulus x.1 x.2).filter (fun c => c.syms ≠ [])), ?_, fun s hs => ?_⟩
  · show List.filter (fun c : Ctx => decide (c.syms ≠ [])) (makeCtx 0 modulus key counts :: rest.map fun x => makeCtx 0 modulus x.1 x.2) = _
    rw [List.filter_cons, if_pos (by simpa using hne)]
  · rw [hk, List.mem_range'_1]; omega

/-! ### C69 -/

/-- Compressing bytes succeeds. -/
theorem ppm_compress_succeeds (ls : List Level) (hok : ∀ l ∈ ls, ∀ c ∈ l.ctxs, Spec.CtxOk l.modulus c) (hcomp : ∃ l ∈ ls, Spec.Complete l) (data : List Nat) (hd : ∀ s ∈ data, s < 256) :
    ∃ bs, ppmCompress ls data = .ok bs := by
  obtain ⟨ps, h1, h2⟩ := dataParts_ok ls hok hcomp data [] hd
  obtain ⟨bs, h3⟩ := coder_never_fails ps h2
  unfold ppmCompress
  rw [h1]; simp only []; rw [h3]
  exact ⟨bs, rfl⟩

/-- If the decoder finds what the coder was given, the decompressor gives the data. -/
theorem ppm_decompress_data (ls : List Level) (hok : ∀ l ∈ ls, ∀ c ∈ l.ctxs, Spec.CtxOk l.modulus c) (data : List Nat) (ps : List Part) (src : Nat → Bool) (hp : dataParts ls [] data = .ok ps)
    (hf : Spec.Finds src (Dec.init src) ps) (n : Nat) (hn : data.length < n) : ppmDecompress src ls n = .ok data :=
  decodeAll_data src ls hok data [] ps (Dec.init src) n hn hp hf

/-- Decompressing gives back the data, whatever follows, if the coder's bits are ended in the right way. -/
theorem ppm_roundtrip_terminated (ls : List Level) (hok : ∀ l ∈ ls, ∀ c ∈ l.ctxs, Spec.CtxOk l.modulus c) (hcomp : ∃ l ∈ ls, Spec.Complete l) (data : List Nat) (hd : ∀ s ∈ data, s < 256) :
    ∃ (ps : List Part) (e : Enc) (bs t : List Bool), dataParts ls [] data = .ok ps ∧ encodeAll Enc.init ps = .ok (e, bs) ∧ t.length = e.under + 2 ∧
      ∀ src, Spec.Begins src 0 (bs ++ t) → ∀ n, data.length < n → ppmDecompress src ls n = .ok data := by
  obtain ⟨ps, h1, h2⟩ := dataParts_ok ls hok hcomp data [] hd
  obtain ⟨e, bs, h3⟩ := encodeAll_ok ps Enc.init init_wide h2
  obtain ⟨t, h4, h5⟩ := coder_roundtrip_terminated ps e bs h3
  exact ⟨ps, e, bs, t, h1, h3, h4, fun src hs n hn => ppm_decompress_data ls hok data ps src h1 (h5 src hs) n hn⟩

/-- With the bits that the compressor really writes: decompressing gives back the data if no bits were pending in the coder at the end, and its registers differ in the last bit. -/
theorem ppm_roundtrip_partial (ls : List Level) (hok : ∀ l ∈ ls, ∀ c ∈ l.ctxs, Spec.CtxOk l.modulus c) (data : List Nat) (ps : List Part) (e : Enc) (bs out : List Bool) (hp : dataParts ls [] data = .ok ps)
    (he : encodeAll Enc.init ps = .ok (e, bs)) (hu : e.under = 0) (hb : e.low % 2 ≠ e.high % 2) (hout : ppmCompress ls data = .ok out) (src : Nat → Bool) (hsrc : Spec.Begins src 0 out) (n : Nat)
    (hn : data.length < n) : ppmDecompress src ls n = .ok data := by
  obtain ⟨t, ht, _⟩ := encEnd_spec (encodeAll_wide ps _ _ _ init_wide he).toOk
  unfold ppmCompress at hout
  rw [hp] at hout
  simp only [compress, he, ht] at hout
  injection hout with hout; subst hout
  exact ppm_decompress_data ls hok data ps src hp (coder_roundtrip_partial ps e bs t src he hu ht hsrc (Or.inl hb)) n hn

/-- The dictionary of one level of size 0 that was made from the single byte 0: all bytes are equally probable. -/
def uniform : List Level := [makeLevel 0 65536 [([], addCount 0 [])]]

/-- The dictionary with bytes as probabilities that was made from a hundred zeros. -/
def zeros : List Level := [makeLevel 0 256 [([], [(0, 100)])]]

example : ((List.range 100).foldl (fun l _ => addCount 0 l) []) = [(0, 100)] := by decide +kernel

theorem uniform_ok : (∀ l ∈ uniform, ∀ c ∈ l.ctxs, Spec.CtxOk l.modulus c) ∧ ∃ l ∈ uniform, Spec.Complete l := by
  refine ⟨fun l hl c hc => ?_, _, List.mem_singleton.2 rfl, ppm_order0_complete _ _ _ _⟩
  have e := List.mem_singleton.1 hl; subst e
  have hc := (List.mem_filter.1 hc).1
  have e := List.mem_singleton.1 hc; subst e
  exact ppm_context_ok 0 65536 [] _ (addCount_counts (by decide) ⟨List.Pairwise.nil, fun _ h => (nomatch h), fun _ h => (nomatch h)⟩) (by decide +kernel) (by decide)

deriving instance DecidableEq for Except

def parts2 : List Part := [⟨10, 11, 257⟩, ⟨20, 21, 257⟩, ⟨30, 31, 257⟩, ⟨256, 257, 257⟩]

def enc2 : Enc := match encodeAll Enc.init parts2 with | .ok (e, _) => e | .error _ => Enc.init

/-- Three bytes for which the hypotheses of `ppm_roundtrip_partial` hold. -/
example : dataParts uniform [] [10, 20, 30] = .ok parts2 ∧ enc2.under = 0 ∧ enc2.low % 2 ≠ enc2.high % 2 ∧ (encodeAll Enc.init parts2).toOption.isSome = true := by decide +kernel

theorem decLoop_congr {src src0 : Nat → Bool} {n : Nat} (h : ∀ i, i < n → src i = src0 i) : ∀ (k : Nat) (d d' : Dec), decLoop src0 k d = .ok d' → d'.pos ≤ n → d.pos ≤ d'.pos ∧ decLoop src k d = .ok d' := by
  intro k
  induction k with
  | zero => intro d d' h1; cases h1
  | succ k ih =>
    intro d d' h1 hn
    simp only [decLoop] at h1 ⊢
    by_cases h2 : firstBit d.low = firstBit d.high
    · rw [if_pos h2] at h1 ⊢
      obtain ⟨a, b⟩ := ih _ _ h1 hn
      have a : d.pos + 1 ≤ d'.pos := a
      have e : d.shift src = d.shift src0 := by unfold Dec.shift; rw [h d.pos (by omega)]
      rw [e]; exact ⟨by omega, b⟩
    · rw [if_neg h2] at h1 ⊢
      by_cases h3 : secondBit d.low = true ∧ secondBit d.high = false
      · rw [if_pos h3] at h1 ⊢
        obtain ⟨a, b⟩ := ih _ _ h1 hn
        have a : d.pos + 1 ≤ d'.pos := a
        have e : ∀ x : Dec, x.pos = d.pos → x.shift src = x.shift src0 := fun x hx => by unfold Dec.shift; rw [hx, h d.pos (by omega)]
        rw [e ⟨d.low &&& 0x1FFFFFFF, d.high ||| 0x20000000, d.code ^^^ 0x20000000, d.pos⟩ rfl]; exact ⟨by omega, b⟩
      · rw [if_neg h3] at h1 ⊢
        injection h1 with h1; subst h1
        exact ⟨Nat.le_refl _, rfl⟩

def bits201 : List Bool := [true, true, false, false, true, false, false, true, false, false, true, true, false, true, false, true, true, false, false, true, false, true, false, false, true, true, false, false, true, true, false, false, false, false, false, false, false, false, false, false, false, false, false, false, false]

theorem begins_congr {src : Nat → Bool} {bs : List Bool} (h : Spec.Begins src 0 bs) : ∀ i, i < bs.length → src i = (fun i => bs.getD i false) i := by
  intro i hi
  have := h i bs[i] (List.getElem?_eq_getElem hi)
  rw [Nat.zero_add] at this
  rw [this]; simp [hi]

theorem decoded_congr {src src0 : Nat → Bool} {n : Nat} (h : ∀ i, i < n → src i = src0 i) (d d' : Dec) (lo hi sc : Nat) (h1 : d.decoded src0 lo hi sc = .ok d') (hn : d'.pos ≤ n) :
    d.pos ≤ d'.pos ∧ d.decoded src lo hi sc = .ok d' := by
  unfold Dec.decoded at h1 ⊢
  split at h1
  · rename_i hc
    rw [if_pos hc]
    exact decLoop_congr h loopRounds _ _ h1 hn
  · cases h1

theorem finishPart_ok {o : Option Nat} {x : Except Err Dec} {r : Option Nat × Dec} (h : finishPart o x = .ok r) : x = .ok r.2 ∧ r.1 = o := by
  cases x with
  | error e => cases h
  | ok d => injection h with h; subst h; exact ⟨rfl, rfl⟩

theorem doDecode_congr {src src0 : Nat → Bool} {n : Nat} (h : ∀ i, i < n → src i = src0 i) (c : Ctx) (d : Dec) (r : Option Nat × Dec) (h1 : doDecode src0 c d = .ok r) (hn : r.2.pos ≤ n) :
    d.pos ≤ r.2.pos ∧ doDecode src c d = .ok r := by
  have key : ∀ o lo hi sc, finishPart o (d.decoded src0 lo hi sc) = .ok r → d.pos ≤ r.2.pos ∧ finishPart o (d.decoded src lo hi sc) = .ok r := by
    intro o lo hi sc h2
    obtain ⟨a, b⟩ := finishPart_ok h2
    obtain ⟨a', b'⟩ := decoded_congr h d r.2 lo hi sc a hn
    rw [b', ← b]; exact ⟨a', rfl⟩
  unfold doDecode at h1 ⊢
  cases hp : d.prob c.scale with
  | error e => rw [hp] at h1; cases h1
  | ok x =>
    rw [hp] at h1
    simp only [] at h1 ⊢
    cases hf : findPart x c.scale 0 c.syms with
    | none => rw [hf] at h1; exact key none c.exitPart.lo c.exitPart.hi c.exitPart.scale h1
    | some sp => rw [hf] at h1; exact key (some sp.1) sp.2.lo sp.2.hi sp.2.scale h1

theorem decode_congr {src src0 : Nat → Bool} {n : Nat} (h : ∀ i, i < n → src i = src0 i) (context : List Nat) : ∀ (ls : List Level) (d : Dec) (r : Option Nat × Dec),
    decode src0 context ls d = .ok r → r.2.pos ≤ n → d.pos ≤ r.2.pos ∧ decode src context ls d = .ok r := by
  intro ls
  induction ls with
  | nil => intro d r h1 _; injection h1 with h1; subst h1; exact ⟨Nat.le_refl _, rfl⟩
  | cons l ls ih =>
    intro d r h1 hn
    simp only [decode] at h1 ⊢
    split at h1
    · rename_i hc; rw [if_pos hc]; exact ih _ _ h1 hn
    · rename_i hc; rw [if_neg hc]
      cases hl : l.lookup context with
      | none => rw [hl] at h1; exact ih _ _ h1 hn
      | some c =>
        rw [hl] at h1
        simp only [] at h1 ⊢
        cases hd : doDecode src0 c d with
        | error e => rw [hd] at h1; cases h1
        | ok q =>
          obtain ⟨o, d'⟩ := q
          rw [hd] at h1
          cases o with
          | some s =>
            injection h1 with h1; subst h1
            obtain ⟨a, b⟩ := doDecode_congr h c d _ hd hn
            rw [b]; exact ⟨a, rfl⟩
          | none =>
            simp only [] at h1
            obtain ⟨a, b⟩ := ih _ _ h1 hn
            obtain ⟨a', b'⟩ := doDecode_congr h c d _ hd (Nat.le_trans a hn)
            have a' : d.pos ≤ d'.pos := a'
            rw [b']; exact ⟨Nat.le_trans a' a, b⟩

/-- What a level of size 0 with one context finds is what this context finds. -/
theorem single_decodes (m : Nat) (c : Ctx) (hk : c.key = []) (src : Nat → Bool) (context : List Nat) (d : Dec) (x : Nat) (sp : Nat × Part) (hp : d.prob c.scale = .ok x)
    (hf : findPart x c.scale 0 c.syms = some sp) (o : Option Nat) (d' : Dec) (h : decode src context [⟨0, m, [c]⟩] d = .ok (o, d')) : o = some sp.1 := by
  have hlook : Level.lookup ⟨0, m, [c]⟩ context = some c := by
    unfold Level.lookup
    show List.find? (fun c => !lexLess c.key (context.drop (context.length - 0))) [c] = _
    rw [Nat.sub_zero, List.drop_length, List.find?_cons, hk]
    rfl
  rw [decode, if_neg (Nat.not_lt_zero _), hlook] at h
  simp only [] at h
  unfold doDecode at h
  rw [hp] at h
  simp only [] at h
  rw [hf] at h
  simp only [] at h
  split at h
  · cases h
  · rename_i s d2 hx
    obtain ⟨_, b⟩ := finishPart_ok hx
    injection h with h; injection h with h4 h5
    rw [← h4]; exact b
  · rename_i d2 hx
    obtain ⟨_, b⟩ := finishPart_ok hx
    cases b

theorem decodeAll_first (src : Nat → Bool) (ls : List Level) (context : List Nat) (d : Dec) (s t : Nat) (data : List Nat) (n : Nat) (h : ∀ o d', decode src context ls d = .ok (o, d') → o = some t) (hst : s ≠ t) :
    decodeAll src ls n context d ≠ .ok [] ∧ decodeAll src ls n context d ≠ .ok (s :: data) := by
  cases n with
  | zero => exact ⟨fun e => (nomatch e), fun e => (nomatch e)⟩
  | succ n =>
    simp only [decodeAll]
    cases h4 : decode src context ls d with
    | error e => exact ⟨fun e => (nomatch e), fun e => (nomatch e)⟩
    | ok r =>
      obtain ⟨o, d'⟩ := r
      have := h o d' h4; subst this
      simp only []
      cases decodeAll src ls n (pushCtx (topSize ls) context t) d' with
      | error e => exact ⟨fun e => (nomatch e), fun e => (nomatch e)⟩
      | ok r => exact ⟨fun e => (nomatch e), fun e => by injection e with e; injection e with e1 e2; exact hst e1.symm⟩

theorem decodeAll_second (src : Nat → Bool) (ls : List Level) (d d' : Dec) (s t : Nat) (n : Nat) (h1 : decode src [] ls d = .ok (some s, d')) (hc : pushCtx (topSize ls) [] s = [])
    (h2 : ∀ o d'', decode src [] ls d' = .ok (o, d'') → o = some t) : decodeAll src ls n [] d ≠ .ok [s] := by
  cases n with
  | zero => exact fun e => (nomatch e)
  | succ n =>
    simp only [decodeAll, h1, hc]
    have h3 := (decodeAll_first src ls [] d' (t + 1) t [] n h2 (by omega)).1
    cases h4 : decodeAll src ls n [] d' with
    | error e => exact fun e => (nomatch e)
    | ok r =>
      intro e
      injection e with e; injection e with e1 e2; subst e2
      exact h3 h4

def uniformCtx : Ctx := makeCtx 0 65536 [] (addCount 0 [])

def zerosCtx : Ctx := makeCtx 0 256 [] [(0, 100)]

theorem uniform_eq : uniform = [⟨0, 65536, [uniformCtx]⟩] := by decide +kernel

theorem zeros_eq : zeros = [⟨0, 256, [zerosCtx]⟩] := by decide +kernel

theorem readBits_congr {src src0 : Nat → Bool} {n : Nat} (hc : ∀ i, i < n → src i = src0 i) : ∀ (k pos code : Nat), pos + k ≤ n → readBits src k pos code = readBits src0 k pos code := by
  intro k
  induction k with
  | zero => intro _ _ _; rfl
  | succ k ih => intro pos code hk; simp only [readBits]; rw [hc pos (by omega)]; exact ih _ _ (by omega)

def dec201 : Dec := ⟨233954176, 1303517951, 1298477824, 38⟩

theorem decode201 : decode (fun i => bits201.getD i false) [] uniform (Dec.init (fun i => bits201.getD i false)) = .ok (some 201, dec201) := by decide +kernel

/-- The byte 201 is compressed to these bits, and whatever follows them, decompressing does not give back that byte: a second byte comes after it. -/
theorem ppm_pending_violated : ppmCompress uniform [201] = .ok bits201 ∧ ∀ src, Spec.Begins src 0 bits201 → ∀ n, ppmDecompress src uniform n ≠ .ok [201] := by
  refine ⟨by decide +kernel, fun src hsrc n => ?_⟩
  have hc := begins_congr hsrc
  have hinit : Dec.init src = Dec.init (fun i => bits201.getD i false) := by
    unfold Dec.init
    rw [readBits_congr hc 31 0 0 (by decide)]
  unfold ppmDecompress
  rw [hinit]
  refine decodeAll_second src uniform _ dec201 201 255 n (decode_congr hc [] uniform _ _ decode201 (by decide)).2 (by decide +kernel) (fun o d'' h => ?_)
  rw [uniform_eq] at h
  exact single_decodes 65536 uniformCtx rfl src [] dec201 255 (255, ⟨255, 256, 257⟩) (by decide +kernel) (by decide +kernel) o d'' h

def parts200 : List Part := [⟨43, 44, 356⟩, ⟨355, 356, 356⟩]

/-- The byte 200 is encoded with the part that the decoder takes for the byte 0, because the probabilities of the bytes before it are added up in the type of a probability: as soon as the
decoder finds what was encoded, the data is wrong. -/
theorem ppm_wrap_violated : dataParts zeros [] [200] = .ok parts200 ∧ ∀ src, Spec.Finds src (Dec.init src) parts200 → ∀ n, ppmDecompress src zeros n ≠ .ok [200] := by
  refine ⟨by decide +kernel, fun src hf n => ?_⟩
  obtain ⟨⟨x, h1, h2, h3⟩, _⟩ := hf
  have hx : x = 43 := by simp only [] at h2 h3; omega
  subst hx
  refine (decodeAll_first src zeros [] _ 200 0 [] n (fun o d' h => ?_) (by decide)).2
  rw [zeros_eq] at h
  have e : zerosCtx.scale = 356 := by decide +kernel
  exact single_decodes 256 zerosCtx rfl src [] _ 43 (0, ⟨0, 100, 356⟩) (by rw [e]; exact h1) (by decide +kernel) o d' h

/-- There are bits in which the decoder finds what was encoded. -/
example : ∃ src, Spec.Finds src (Dec.init src) parts200 := by
  obtain ⟨e, bs, h⟩ := encodeAll_ok parts200 Enc.init init_wide (by decide)
  obtain ⟨t, _, h2⟩ := coder_roundtrip_terminated parts200 e bs h
  exact ⟨fun i => (bs ++ t).getD i false, h2 _ (fun i b hb => by rw [Nat.zero_add]; simp [List.getD, hb])⟩

end Verif.Compress
