import Verif.Scope.Exit
/-
What a user of scope guards relies on: whatever way a scope is left, the function of each of its guards that was not cancelled runs then, once, innermost first.
-/
namespace Verif.Scope.Exit

/-- Guards run in the reverse order of their construction: what is logged is like brackets (specification).  A bracket that is not closed is a guard that was cancelled, or that the
end of the program came before. -/
inductive Nested : List Ev → Prop
  | nil : Nested []
  | did (tag : Nat) : Nested [.did tag]
  | cancelled (a : Nat) : Nested [.cancelled a]
  | append {s t : List Ev} : Nested s → Nested t → Nested (s ++ t)
  | guard {a : Nat} {t : List Ev} : Nested t → Nested (.made a :: t ++ [.ran a])
  | open {a : Nat} {t : List Ev} : Nested t → Nested (.made a :: t)

/-- How the program goes without its guards (specification): what its own statements do. -/
inductive Goes : Prog → Flow → List Nat → Prop
  | done : Goes .done .next []
  | act {tag : Nat} {rest : Prog} {f : Flow} {l : List Nat} : Goes rest f l → Goes (.act tag .normal rest) f (tag :: l)
  | throw {tag : Nat} {out : Out} {rest : Prog} : out ≠ .normal → Goes (.act tag out rest) (.thrown out) [tag]
  | guard {func : Out} {rest : Prog} {f : Flow} {l : List Nat} : Goes rest f l → Goes (.guard func rest) f l
  | cancel {i : Nat} {rest : Prog} {f : Flow} {l : List Nat} : Goes rest f l → Goes (.cancel i rest) f l
  | ret : Goes .ret .left []
  | block {body rest : Prog} {f : Flow} {l m : List Nat} : Goes body .next l → Goes rest f m → Goes (.block body rest) f (l ++ m)
  | leave {body rest : Prog} {f : Flow} {l : List Nat} : Goes body f l → f ≠ .next → Goes (.block body rest) f l

/-- No function of a guard throws what is not a `std::exception`. -/
def Civil : Prog → Prop
  | .done | .ret => True
  | .act _ _ rest | .cancel _ rest => Civil rest
  | .guard func rest => func ≠ .other ∧ Civil rest
  | .block body rest => Civil body ∧ Civil rest

/-- The statements of the program that were executed. -/
def tags : List Ev → List Nat
  | [] => []
  | .did tag :: l => tag :: tags l
  | _ :: l => tags l

theorem tags_append : ∀ a b : List Ev, tags (a ++ b) = tags a ++ tags b
  | [], _ => rfl
  | .did _ :: a, b => by simp [tags, tags_append a b]
  | .made _ :: a, b => by simp [tags, tags_append a b]
  | .cancelled _ :: a, b => by simp [tags, tags_append a b]
  | .ran _ :: a, b => by simp [tags, tags_append a b]

/-- What a piece of execution, with guards number `n` to `m` made in it, has logged. -/
structure Piece (n m : Nat) (env : List Nat) (before after : List Bool) (flow : Flow) (t : List Ev) : Prop where
  lens : before.length = n ∧ after.length = m ∧ n ≤ m
  nested : Nested t
  old : ∀ a, a < n → (after[a]? = if Ev.cancelled a ∈ t then some false else before[a]?)
  made : ∀ a, t.count (.made a) = if n ≤ a ∧ a < m then 1 else 0
  ranIn : ∀ a, ¬ (n ≤ a ∧ a < m) → t.count (.ran a) = 0
  ran : ∀ a, n ≤ a → a < m → t.count (.ran a) ≤ 1 ∧ (Ev.cancelled a ∈ t → t.count (.ran a) = 0) ∧ (flow ≠ .terminated → Ev.cancelled a ∉ t → t.count (.ran a) = 1)
  visible : ∀ a, Ev.cancelled a ∈ t → a ∈ env ∨ (n ≤ a ∧ a < m)

theorem Piece.seq {n m k : Nat} {env : List Nat} {b c d : List Bool} {f g : Flow} {s t : List Ev} (hf : f ≠ .terminated) (he : ∀ a ∈ env, a < n)
    (h1 : Piece n m env b c f s) (h2 : Piece m k env c d g t) : Piece n k env b d g (s ++ t) := by
  have l1 := h1.lens
  have l2 := h2.lens
  refine ⟨⟨l1.1, l2.2.1, by omega⟩, .append h1.nested h2.nested, fun a ha => ?_, fun a => ?_, fun a ha => ?_, fun a h3 h4 => ?_, fun a ha => ?_⟩
  · rw [h2.old a (by omega), h1.old a ha]
    simp only [List.mem_append]
    by_cases p : Ev.cancelled a ∈ s <;> by_cases q : Ev.cancelled a ∈ t <;> simp [p, q]
  · rw [List.count_append, h1.made, h2.made]
    split <;> split <;> split <;> omega
  · rw [List.count_append, h1.ranIn a (by omega), h2.ranIn a (by omega)]
  · rw [List.count_append, List.mem_append]
    by_cases hm : a < m
    · have q : Ev.cancelled a ∉ t := by
        intro q
        rcases h2.visible a q with q | q
        · have := he a q; omega
        · omega
      rw [h2.ranIn a (by omega)]
      have r := h1.ran a h3 hm
      refine ⟨by have := r.1; omega, fun c => ?_, fun _ c => ?_⟩
      · rcases c with c | c
        · rw [r.2.1 c]
        · exact absurd c q
      · rw [r.2.2 hf (fun x => c (.inl x))]
    · have q : Ev.cancelled a ∉ s := by
        intro q
        rcases h1.visible a q with q | q
        · have := he a q; omega
        · omega
      rw [h1.ranIn a (by omega)]
      have r := h2.ran a (by omega) h4
      refine ⟨by have := r.1; omega, fun c => ?_, fun u c => ?_⟩
      · rcases c with c | c
        · exact absurd c q
        · rw [r.2.1 c]
      · rw [r.2.2 u (fun x => c (.inr x))]
  · rcases List.mem_append.mp ha with ha | ha
    · rcases h1.visible a ha with h | h
      · exact .inl h
      · exact .inr (by omega)
    · rcases h2.visible a ha with h | h
      · exact .inl h
      · exact .inr (by omega)

theorem Piece.nil {env : List Nat} {b : List Bool} {f : Flow} : Piece b.length b.length env b b f [] :=
  ⟨⟨rfl, rfl, Nat.le_refl _⟩, .nil, fun a _ => by simp, fun a => by rw [if_neg (by omega)]; rfl, fun _ _ => rfl, fun a h1 h2 => by omega, fun a h => by simp at h⟩

theorem Piece.did {env : List Nat} {b : List Bool} {f : Flow} (tag : Nat) : Piece b.length b.length env b b f [.did tag] :=
  ⟨⟨rfl, rfl, Nat.le_refl _⟩, .did tag, fun a _ => by simp, fun a => by rw [if_neg (by omega)]; simp, fun _ _ => by simp, fun a h1 h2 => by omega, fun a h => by simp at h⟩

theorem Piece.cancel {env : List Nat} {b : List Bool} {f : Flow} {a : Nat} (ha : a ∈ env) (hl : a < b.length) : Piece b.length b.length env b (b.set a false) f [.cancelled a] := by
  refine ⟨⟨rfl, by simp, Nat.le_refl _⟩, .cancelled a, fun c hc => ?_, fun c => by rw [if_neg (by omega)]; simp, fun _ _ => by simp, fun c h1 h2 => by omega, fun c h => ?_⟩
  · by_cases hac : c = a
    · subst hac
      simp [hl]
    · rw [List.getElem?_set_ne (fun h => hac h.symm)]
      simp [hac]
  · simp at h
    subst h
    exact .inl ha

/-- Every execution. -/
theorem exec_piece : ∀ (p : Prog) (env : List Nat) (s : State), (∀ a ∈ env, a < s.active.length) →
    ∃ t, (exec p env s).1.log = s.log ++ t ∧ Piece s.active.length (exec p env s).1.active.length env s.active (exec p env s).1.active (exec p env s).2 t
  | .done, env, s, _ => ⟨[], by simp [exec], Piece.nil⟩
  | .ret, env, s, _ => ⟨[], by simp [exec], Piece.nil⟩
  | .act tag out rest, env, s, he => by
    simp only [exec]
    by_cases ho : out = .normal
    · rw [if_pos ho]
      obtain ⟨t, h1, h2⟩ := exec_piece rest env ⟨s.active, s.log ++ [.did tag]⟩ he
      refine ⟨.did tag :: t, by rw [h1]; simp, ?_⟩
      exact Piece.seq (s := [.did tag]) (f := .next) (by simp) he (Piece.did tag) h2
    · rw [if_neg ho]
      exact ⟨[.did tag], rfl, Piece.did tag⟩
  | .cancel i rest, env, s, he => by
    simp only [exec]
    cases hi : env[i]? with
    | none => exact exec_piece rest env s he
    | some a =>
      simp only
      have ha : a ∈ env := List.mem_of_getElem? hi
      obtain ⟨t, h1, h2⟩ := exec_piece rest env ⟨s.active.set a false, s.log ++ [.cancelled a]⟩ (by simpa using he)
      refine ⟨.cancelled a :: t, by rw [h1]; simp, ?_⟩
      have h3 := Piece.cancel (f := .next) ha (he a ha)
      simp only [List.length_set] at h2
      exact Piece.seq (s := [.cancelled a]) (by simp) he h3 h2
  | .block body rest, env, s, he => by
    simp only [exec]
    obtain ⟨t, h1, h2⟩ := exec_piece body env s he
    cases hb : exec body env s with
    | mk s' f =>
      rw [hb] at h1 h2
      cases f with
      | next =>
        simp only
        simp only at h1 h2
        obtain ⟨u, h3, h4⟩ := exec_piece rest env s' (fun a ha => Nat.lt_of_lt_of_le (he a ha) h2.lens.2.2)
        exact ⟨t ++ u, by rw [h3, h1]; simp, Piece.seq (by simp) he h2 h4⟩
      | left => exact ⟨t, h1, h2⟩
      | thrown o => exact ⟨t, h1, h2⟩
      | terminated => exact ⟨t, h1, h2⟩
  | .guard func rest, env, s, he => by
    simp only [exec]
    obtain ⟨t, h1, h2⟩ := exec_piece rest (s.active.length :: env) ⟨s.active ++ [true], s.log ++ [.made s.active.length]⟩ (by
      intro a ha
      simp only [List.length_append, List.length_singleton]
      rcases List.mem_cons.mp ha with rfl | ha
      · omega
      · have := he a ha; omega)
    generalize exec rest (s.active.length :: env) ⟨s.active ++ [true], s.log ++ [.made s.active.length]⟩ = r at h1 h2 ⊢
    obtain ⟨s', f⟩ := r
    simp only [List.length_append, List.length_singleton] at h1 h2
    have hl := h2.lens
    have hflag := h2.old s.active.length (by omega)
    rw [List.getElem?_append_right (by omega), Nat.sub_self] at hflag
    have hnran := h2.ranIn s.active.length (by omega)
    have hmade : ∀ (x : List Ev), (∀ a, x.count (.made a) = 0) → ∀ a, (Ev.made s.active.length :: t ++ x).count (.made a) = if s.active.length ≤ a ∧ a < s'.active.length then 1 else 0 := by
      intro x hx a
      rw [List.count_append, List.count_cons, h2.made, hx]
      by_cases h : s.active.length = a
      · subst h
        rw [if_neg (by omega), if_pos (by simp), if_pos (by omega)]
      · rw [if_neg (c := (Ev.made s.active.length == Ev.made a) = true) (by simpa using h)]
        split <;> split <;> omega
    -- the three ways
    have stay : ∀ g : Flow, (g ≠ .terminated → f ≠ .terminated ∧ s'.active[s.active.length]? ≠ some true) →
        Piece s.active.length s'.active.length env s.active s'.active g (.made s.active.length :: t) := by
      intro g hg
      refine ⟨⟨rfl, rfl, by omega⟩, .open h2.nested, fun a ha => ?_, fun a => ?_, fun a ha => ?_, fun a h3 h4 => ?_, fun a ha => ?_⟩
      · rw [h2.old a (by omega), List.getElem?_append_left ha]
        simp
      · have := hmade [] (fun _ => rfl) a
        simpa using this
      · rw [List.count_cons, h2.ranIn a (by omega)]; simp
      · rw [List.count_cons]
        simp only [List.mem_cons, reduceCtorEq, false_or, Nat.add_zero, beq_iff_eq, if_false]
        by_cases hn : a = s.active.length
        · subst hn
          refine ⟨by omega, fun _ => hnran, fun hgt hc => ?_⟩
          have := (hg hgt).2
          rw [hflag, if_neg hc] at this
          exact absurd rfl this
        · have r := h2.ran a (by omega) h4
          exact ⟨r.1, r.2.1, fun hgt hc => r.2.2 (hg hgt).1 hc⟩
      · simp only [List.mem_cons, reduceCtorEq, false_or] at ha
        rcases h2.visible a ha with h | h
        · rcases List.mem_cons.mp h with rfl | h
          · exact .inr (by omega)
          · exact .inl h
        · exact .inr (by omega)
    have go : ∀ g : Flow, f ≠ .terminated → s'.active[s.active.length]? = some true →
        Piece s.active.length s'.active.length env s.active s'.active g (.made s.active.length :: t ++ [.ran s.active.length]) := by
      intro g hf hact
      have hnc : Ev.cancelled s.active.length ∉ t := by
        intro hc
        rw [hflag, if_pos hc] at hact
        cases hact
      refine ⟨⟨rfl, rfl, by omega⟩, .guard h2.nested, fun a ha => ?_, fun a => ?_, fun a ha => ?_, fun a h3 h4 => ?_, fun a ha => ?_⟩
      · rw [h2.old a (by omega), List.getElem?_append_left ha]
        simp
      · exact hmade _ (fun _ => by simp) a
      · rw [List.count_append, List.count_cons, h2.ranIn a (by omega)]
        have : ¬ s.active.length = a := by omega
        simp [this]
      · rw [List.count_append, List.count_cons]
        simp only [List.mem_append, List.mem_cons, reduceCtorEq, false_or, Nat.add_zero, beq_iff_eq, if_false, List.not_mem_nil, or_false]
        by_cases hn : a = s.active.length
        · subst hn
          rw [hnran]
          exact ⟨by simp, fun h => absurd h hnc, fun _ _ => by simp⟩
        · have hne : ¬ s.active.length = a := fun h => hn h.symm
          have z : List.count (Ev.ran a) [Ev.ran s.active.length] = 0 := by simp [hne]
          rw [z, Nat.add_zero]
          have r := h2.ran a (by omega) h4
          exact ⟨r.1, r.2.1, fun _ hc => r.2.2 hf hc⟩
      · simp only [List.mem_append, List.mem_cons, reduceCtorEq, false_or, List.not_mem_nil, or_false] at ha
        rcases h2.visible a ha with h | h
        · rcases List.mem_cons.mp h with rfl | h
          · exact .inr (by omega)
          · exact .inl h
        · exact .inr (by omega)
    have lv : ∀ g : Flow, g = f → f ≠ .terminated → ∃ t_1, (leave s' s.active.length func g).1.log = s.log ++ t_1 ∧
        Piece s.active.length (leave s' s.active.length func g).1.active.length env s.active (leave s' s.active.length func g).1.active (leave s' s.active.length func g).2 t_1 := by
      intro g hg hf
      unfold leave
      by_cases hact : s'.active[s.active.length]? = some true
      · rw [if_pos hact]
        exact ⟨_, by simp [h1], go _ hf hact⟩
      · rw [if_neg hact]
        exact ⟨_, by simp [h1], stay _ (fun _ => ⟨hf, hact⟩)⟩
    cases f with
    | terminated => exact ⟨_, by simp [h1], stay .terminated (fun h => absurd rfl h)⟩
    | next => exact lv _ rfl (by simp)
    | left => exact lv _ rfl (by simp)
    | thrown o => exact lv _ rfl (by simp)

/-- C186.  In every program, whatever way its blocks are left: a guard runs its function at most once; never if it was cancelled; exactly once if not, unless the program ends
with `std::terminate`. -/
theorem guards_run_once (p : Prog) (a : Nat) (h : Ev.made a ∈ (call p).1.log) :
    (call p).1.log.count (.ran a) ≤ 1 ∧ (Ev.cancelled a ∈ (call p).1.log → (call p).1.log.count (.ran a) = 0) ∧
    ((call p).2 ≠ .terminated → Ev.cancelled a ∉ (call p).1.log → (call p).1.log.count (.ran a) = 1) := by
  unfold call at *
  obtain ⟨t, h1, h2⟩ := exec_piece p [] ⟨[], []⟩ (by simp)
  rw [h1] at h ⊢
  simp only [List.nil_append] at h ⊢
  have hm := h2.made a
  have := List.count_pos_iff.mpr h
  by_cases hr : (⟨[], []⟩ : State).active.length ≤ a ∧ a < (exec p [] ⟨[], []⟩).1.active.length
  · exact h2.ran a hr.1 hr.2
  · rw [if_neg hr] at hm; omega

/-- C186.  Only guards that were made run, or are cancelled. -/
theorem only_guards (p : Prog) (a : Nat) (h : Ev.made a ∉ (call p).1.log) : Ev.ran a ∉ (call p).1.log ∧ Ev.cancelled a ∉ (call p).1.log := by
  unfold call at *
  obtain ⟨t, h1, h2⟩ := exec_piece p [] ⟨[], []⟩ (by simp)
  rw [h1] at h ⊢
  simp only [List.nil_append] at h ⊢
  have hm := h2.made a
  have := List.count_eq_zero.mpr h
  by_cases hr : (⟨[], []⟩ : State).active.length ≤ a ∧ a < (exec p [] ⟨[], []⟩).1.active.length
  · rw [if_pos hr] at hm; omega
  · refine ⟨List.count_eq_zero.mp (h2.ranIn a hr), fun hc => ?_⟩
    rcases h2.visible a hc with h | h
    · simp at h
    · exact hr h

/-- C186.  The functions run in the reverse order of the guards, each at the end of its own block: after everything that its block did, before anything that follows. -/
theorem reverse_order (p : Prog) : Nested (call p).1.log := by
  unfold call
  obtain ⟨t, h1, h2⟩ := exec_piece p [] ⟨[], []⟩ (by simp)
  rw [h1]
  exact h2.nested

/-- C186.  The end of a block, also of one that is left by an exception or `return`, anywhere in a program: when it is left, each guard made in it has run or was cancelled, and
nothing happens to those guards in what follows. -/
theorem at_block_end (body rest : Prog) (env : List Nat) (s : State) (he : ∀ a ∈ env, a < s.active.length) (h : (exec body env s).2 ≠ .terminated) :
    ∃ t u, (exec body env s).1.log = s.log ++ t ∧ (exec (.block body rest) env s).1.log = s.log ++ t ++ u ∧
      ∀ a, Ev.made a ∈ t → (Ev.cancelled a ∈ t ∨ Ev.ran a ∈ t) ∧ Ev.made a ∉ u ∧ Ev.cancelled a ∉ u ∧ Ev.ran a ∉ u := by
  obtain ⟨t, h1, h2⟩ := exec_piece body env s he
  have inT : ∀ a, Ev.made a ∈ t → s.active.length ≤ a ∧ a < (exec body env s).1.active.length := by
    intro a ha
    have hm := h2.made a
    have := List.count_pos_iff.mpr ha
    apply Decidable.byContradiction
    intro hc
    rw [if_neg hc] at hm
    omega
  have ended : ∀ a, Ev.made a ∈ t → Ev.cancelled a ∈ t ∨ Ev.ran a ∈ t := by
    intro a ha
    have r := h2.ran a (inT a ha).1 (inT a ha).2
    by_cases hc : Ev.cancelled a ∈ t
    · exact .inl hc
    · exact .inr (List.count_pos_iff.mp (by rw [r.2.2 h hc]; omega))
  by_cases hn : (exec body env s).2 = .next
  · have hl := h2.lens
    obtain ⟨u, h3, h4⟩ := exec_piece rest env (exec body env s).1 (fun a ha => by have := he a ha; omega)
    refine ⟨t, u, h1, ?_, fun a ha => ⟨ended a ha, fun hm => ?_, fun hm => ?_, fun hm => ?_⟩⟩
    · rw [← h1, ← h3]
      simp only [exec]
      generalize exec body env s = r at hn ⊢
      obtain ⟨s', f⟩ := r
      simp only at hn
      subst hn
      rfl
    · have hi := inT a ha
      have q := h4.made a
      rw [if_neg (by omega)] at q
      exact absurd hm (List.count_eq_zero.mp q)
    · have hi := inT a ha
      rcases h4.visible a hm with h | h
      · have := he a h; omega
      · omega
    · have hi := inT a ha
      exact absurd hm (List.count_eq_zero.mp (h4.ranIn a (by omega)))
  · refine ⟨t, [], h1, ?_, fun a ha => ⟨ended a ha, by simp, by simp, by simp⟩⟩
    rw [List.append_nil, ← h1]
    simp only [exec]
    generalize exec body env s = r at hn ⊢
    obtain ⟨s', f⟩ := r
    cases f with
    | next => exact absurd rfl hn
    | _ => rfl

theorem exec_goes : ∀ (p : Prog) (env : List Nat) (s : State), Civil p →
    ∃ l, Goes p (exec p env s).2 l ∧ tags (exec p env s).1.log = tags s.log ++ l ∧ (exec p env s).2 ≠ .terminated
  | .done, env, s, _ => ⟨[], .done, by simp [exec], by simp [exec]⟩
  | .ret, env, s, _ => ⟨[], .ret, by simp [exec], by simp [exec]⟩
  | .act tag out rest, env, s, hc => by
    simp only [exec]
    by_cases ho : out = .normal
    · rw [if_pos ho]
      obtain ⟨l, h1, h2, h3⟩ := exec_goes rest env ⟨s.active, s.log ++ [.did tag]⟩ hc
      exact ⟨tag :: l, by rw [ho]; exact .act h1, by rw [h2]; simp [tags_append, tags], h3⟩
    · rw [if_neg ho]
      exact ⟨[tag], .throw ho, by simp [tags_append, tags], by simp⟩
  | .cancel i rest, env, s, hc => by
    simp only [exec]
    cases env[i]? with
    | none =>
      obtain ⟨l, h1, h2, h3⟩ := exec_goes rest env s hc
      exact ⟨l, .cancel h1, h2, h3⟩
    | some a =>
      obtain ⟨l, h1, h2, h3⟩ := exec_goes rest env ⟨s.active.set a false, s.log ++ [.cancelled a]⟩ hc
      exact ⟨l, .cancel h1, by simpa [tags_append, tags] using h2, h3⟩
  | .block body rest, env, s, hc => by
    simp only [exec]
    obtain ⟨l, h1, h2, h3⟩ := exec_goes body env s hc.1
    cases hb : exec body env s with
    | mk s' f =>
      rw [hb] at h1 h2 h3
      cases f with
      | next =>
        obtain ⟨m, k1, k2, k3⟩ := exec_goes rest env s' hc.2
        exact ⟨l ++ m, .block h1 k1, by rw [k2, h2, List.append_assoc], k3⟩
      | left => exact ⟨l, .leave h1 (by simp), h2, h3⟩
      | thrown o => exact ⟨l, .leave h1 (by simp), h2, h3⟩
      | terminated => exact absurd rfl h3
  | .guard func rest, env, s, hc => by
    simp only [exec]
    obtain ⟨l, h1, h2, h3⟩ := exec_goes rest (s.active.length :: env) ⟨s.active ++ [true], s.log ++ [.made s.active.length]⟩ hc.2
    generalize exec rest (s.active.length :: env) ⟨s.active ++ [true], s.log ++ [.made s.active.length]⟩ = r at h1 h2 h3 ⊢
    obtain ⟨s', f⟩ := r
    have lv : ∀ g : Flow, g = f → ∃ l, Goes (.guard func rest) (leave s' s.active.length func g).2 l ∧ tags (leave s' s.active.length func g).1.log = tags s.log ++ l ∧
        (leave s' s.active.length func g).2 ≠ .terminated := by
      intro g hg
      subst hg
      have e : tags s'.log = tags s.log ++ l := by simpa [tags_append, tags] using h2
      unfold leave
      split
      · rw [if_neg hc.1]
        exact ⟨l, .guard h1, by simpa [tags_append, tags] using e, h3⟩
      · exact ⟨l, .guard h1, e, h3⟩
    cases f with
    | terminated => exact absurd rfl h3
    | next => exact lv _ rfl
    | left => exact lv _ rfl
    | thrown o => exact lv _ rfl

/-- C186.  Guards do not change how the program goes: its own statements are the same ones, and it returns or throws the same, also if functions of guards throw a
`std::exception`, which is swallowed. -/
theorem guards_invisible_partial (p : Prog) (h : Civil p) : ∃ l, Goes p (call p).2 l ∧ tags (call p).1.log = l ∧ (call p).2 ≠ .terminated := by
  obtain ⟨l, h1, h2, h3⟩ := exec_goes p [] ⟨[], []⟩ h
  exact ⟨l, h1, by simpa [call, tags] using h2, h3⟩

/-- The specification of how the program goes is unambiguous. -/
theorem goes_unique {p : Prog} {f : Flow} {l : List Nat} (h : Goes p f l) : ∀ {g : Flow} {m : List Nat}, Goes p g m → f = g ∧ l = m := by
  induction h with
  | done => intro g m k; cases k; exact ⟨rfl, rfl⟩
  | ret => intro g m k; cases k; exact ⟨rfl, rfl⟩
  | act _ ih =>
    intro g m k
    cases k with
    | act k => obtain ⟨a, b⟩ := ih k; exact ⟨a, by rw [b]⟩
    | throw k => exact absurd rfl k
  | throw hn =>
    intro g m k
    cases k with
    | act k => exact absurd rfl hn
    | throw k => exact ⟨rfl, rfl⟩
  | guard _ ih => intro g m k; cases k with | guard k => exact ih k
  | cancel _ ih => intro g m k; cases k with | cancel k => exact ih k
  | block _ _ ih1 ih2 =>
    intro g m k
    cases k with
    | block k1 k2 => obtain ⟨_, b⟩ := ih1 k1; obtain ⟨c, d⟩ := ih2 k2; exact ⟨c, by rw [b, d]⟩
    | leave k1 k2 => exact absurd (ih1 k1).1.symm k2
  | leave _ hn ih =>
    intro g m k
    cases k with
    | block k1 k2 => exact absurd (ih k1).1 hn
    | leave k1 k2 => exact ih k1

/-- C186 does not hold for other exceptions: one thrown by the function of a guard ends the program, and the outer guards do not run. -/
theorem other_exception_violated : call (.guard .normal (.guard .other .done)) = (⟨[true, true], [.made 0, .made 1, .ran 1]⟩, .terminated) := by decide

/-- A program: a guard is cancelled in an inner block, which throws; the inner guard's function throws too. -/
example : Civil (.guard .normal (.guard .normal (.block (.guard .std (.cancel 1 (.act 7 .std .done))) (.act 8 .normal .done)))) ∧
    call (.guard .normal (.guard .normal (.block (.guard .std (.cancel 1 (.act 7 .std .done))) (.act 8 .normal .done)))) =
      (⟨[true, false, true], [.made 0, .made 1, .made 2, .cancelled 1, .did 7, .ran 2, .ran 0]⟩, .thrown .std) := by
  exact ⟨⟨by decide, by decide, ⟨by decide, trivial⟩, trivial⟩, by decide⟩

end Verif.Scope.Exit
