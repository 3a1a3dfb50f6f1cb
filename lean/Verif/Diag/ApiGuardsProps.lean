import Verif.Diag.ApiGuards
/-!
`GetLocation` names the calls the thread is in, in their order, if the guards are destroyed in the reverse order.
-/
namespace Verif.Diag.ApiGuards

/-! ## What is claimed -/

/-- The calls a thread is in: begun and not ended, in the order of their beginnings, of those that had a stack. -/
def calls (gs : List (Nat × Entry × Bool)) : List Entry := (gs.filter (fun g => g.2.2)).map (fun g => g.2.1)

/-- The text for them. -/
def text : List Entry → List Char
  | [] => "<external API guard stack empty>".toList
  | e :: es => (if ((e :: es).getLast (by simp)).leave then "in stingray: ".toList else "in external API: ".toList) ++
      List.intercalate " -> ".toList ((e :: es).map Entry.name)

/-- Guards are destroyed in the reverse order: the one destroyed is the last one made of those alive. -/
def Nested (s : St) : List Act → Prop
  | [] => True
  | a :: as => (∀ id, a = .exit id → ∃ x, s.guards.getLast? = some (id, x)) ∧ ∀ s', step s a = some s' → Nested s' as

/-! ## Proofs -/

theorem walk_text (es : List Entry) : ∀ acc, walk acc false es = acc ++ (es.map (fun e => " -> ".toList ++ e.name)).flatten := by
  induction es with
  | nil => intro acc; simp [walk]
  | cons e es ih => intro acc; rw [walk, ih]; simp

theorem intercalate_text (sep : List Char) (x : List Char) (xs : List (List Char)) :
    List.intercalate sep (x :: xs) = x ++ (xs.map (fun y => sep ++ y)).flatten := by
  induction xs generalizing x with
  | nil => simp [List.intercalate]
  | cons y ys ih =>
    have := ih y
    simp only [List.intercalate] at this ⊢
    rw [List.intersperse_cons₂, List.flatten_cons, List.flatten_cons, this]
    simp

/-- The text is that of the entries on the stack. -/
theorem get_text (es : List Entry) : get es = text es := by
  cases es with
  | nil => rfl
  | cons e es =>
    unfold get text
    rw [List.getLast?_eq_some_getLast (by simp)]
    dsimp only
    rw [walk, walk_text, List.map_cons, intercalate_text, List.map_map]
    simp only [Function.comp_def, if_true, List.nil_append, List.append_assoc]

theorem find_append {id : Nat} {gs : List (Nat × Entry × Bool)} (g : Nat × Entry × Bool) (h : find id gs = none) (hg : g.1 = id) : find id (gs ++ [g]) = some g.2 := by
  induction gs with
  | nil => obtain ⟨i, x⟩ := g; simp only at hg; subst hg; simp [find]
  | cons a gs ih =>
    obtain ⟨i, x⟩ := a
    rw [List.cons_append]
    rw [find] at h ⊢
    by_cases e : i = id
    · rw [if_pos e] at h; cases h
    · rw [if_neg e] at h; rw [if_neg e]; exact ih h

theorem find_none {id : Nat} {gs : List (Nat × Entry × Bool)} : find id gs = none ↔ id ∉ gs.map Prod.fst := by
  induction gs with
  | nil => simp [find]
  | cons a gs ih =>
    obtain ⟨i, x⟩ := a
    rw [find]
    by_cases e : i = id
    · rw [if_pos e]; subst e; simp
    · rw [if_neg e, ih]
      have : ¬ id = i := fun h => e h.symm
      simp [this]

theorem without_append {id : Nat} {gs : List (Nat × Entry × Bool)} (x : Entry × Bool) (h : id ∉ gs.map Prod.fst) : without id (gs ++ [(id, x)]) = gs := by
  induction gs with
  | nil => simp [without]
  | cons a gs ih =>
    obtain ⟨i, y⟩ := a
    simp only [List.map_cons, List.mem_cons, not_or] at h
    rw [List.cons_append, without, if_neg (fun e => h.1 e.symm), ih h.2]

/-- Guards alive have different numbers. -/
theorem without_sub {id : Nat} {gs : List (Nat × Entry × Bool)} : List.Sublist (without id gs) gs := by
  induction gs with
  | nil => exact List.Sublist.refl _
  | cons a gs ih =>
    obtain ⟨i, y⟩ := a
    rw [without]
    split
    · exact List.sublist_cons_self _ _
    · exact ih.cons₂ _

theorem step_nodup {s s' : St} {a : Act} (hn : (s.guards.map Prod.fst).Nodup) (h : step s a = some s') : (s'.guards.map Prod.fst).Nodup := by
  cases a with
  | enter id e =>
    simp only [step] at h
    split at h
    · rename_i hf; cases h
      rw [List.map_append, List.nodup_append]
      refine ⟨hn, by simp, fun x hx y hy => ?_⟩
      simp only [List.map_cons, List.map_nil, List.mem_cons, List.not_mem_nil, or_false] at hy
      subst hy
      exact fun e => find_none.mp hf (e ▸ hx)
    · cases h
  | exit id =>
    simp only [step] at h
    split at h
    · cases h
    · cases h; exact hn.sublist (without_sub.map _)
    · split at h
      · cases h
      · cases h; exact hn.sublist (without_sub.map _)
  | tls b => cases h; exact hn

theorem calls_append (gs hs : List (Nat × Entry × Bool)) : calls (gs ++ hs) = calls gs ++ calls hs := by simp [calls]

theorem step_calls {s s' : St} {a : Act} (hn : (s.guards.map Prod.fst).Nodup) (hi : s.stack = calls s.guards)
    (hl : ∀ id, a = .exit id → ∃ x, s.guards.getLast? = some (id, x)) (h : step s a = some s') : s'.stack = calls s'.guards := by
  cases a with
  | enter id e =>
    simp only [step] at h
    split at h
    · cases h
      dsimp only
      rw [calls_append, hi]
      cases s.tls <;> simp [calls]
    · cases h
  | exit id =>
    obtain ⟨x, hx⟩ := hl id rfl
    obtain ⟨gs, hgs⟩ := List.getLast?_eq_some_iff.mp hx
    rw [hgs, List.map_append, List.nodup_append] at hn
    have hni : id ∉ gs.map Prod.fst := fun hm => hn.2.2 id hm id (by simp) rfl
    have hf : find id s.guards = some x := by rw [hgs]; exact find_append (id, x) (find_none.mpr hni) rfl
    have hw : without id s.guards = gs := by rw [hgs]; exact without_append x hni
    rw [hgs, calls_append] at hi
    obtain ⟨e, b⟩ := x
    simp only [step] at h
    rw [hf] at h
    cases b with
    | false => dsimp only at h; cases h; dsimp only; rw [hw, hi]; simp [calls]
    | true =>
      dsimp only at h
      split at h
      · cases h
      · cases h; dsimp only; rw [hw, hi]; simp [calls]
  | tls b => cases h; exact hi

/-- Well nested guards: no guard ever pops an empty stack, and `GetLocation` names exactly the calls the thread is in, oldest first, and the side the last one
is on.  Missing: guards destroyed in another order, see `order_violated`. -/
theorem location_partial : ∀ (as : List Act) (s0 s : St), (s0 = init ∨ ((s0.guards.map Prod.fst).Nodup ∧ s0.stack = calls s0.guards)) → Nested s0 as →
    run s0 as = some s → s.stack = calls s.guards ∧ location s = if s.tls then text (calls s.guards) else "<no tls>".toList := by
  intro as
  induction as with
  | nil =>
    intro s0 s h _ hr
    cases hr
    have hc : s0.stack = calls s0.guards := by
      rcases h with rfl | h
      · rfl
      · exact h.2
    exact ⟨hc, by unfold location; rw [get_text, hc]⟩
  | cons a as ih =>
    intro s0 s h hn hr
    rw [run] at hr
    have h : (s0.guards.map Prod.fst).Nodup ∧ s0.stack = calls s0.guards := by
      rcases h with rfl | h
      · exact ⟨List.nodup_nil, rfl⟩
      · exact h
    cases hs : step s0 a with
    | none => rw [hs] at hr; cases hr
    | some s1 =>
      rw [hs] at hr
      exact ih s1 s (Or.inr ⟨step_nodup h.1 hs, step_calls h.1 h.2 hn.1 hs⟩) (hn.2 s1 hs) hr

/-- As many entries as calls, in whatever order the guards are destroyed, so that no `pop_back` of an empty stack happens: a guard alive can be destroyed. -/
theorem exit_possible {as : List Act} {s : St} (h : run init as = some s) (id : Nat) (hid : id ∈ s.guards.map Prod.fst) : (step s (.exit id)).isSome = true := by
  have hlen : ∀ (as : List Act) (s0 s : St), s0.stack.length = (calls s0.guards).length → run s0 as = some s → s.stack.length = (calls s.guards).length := by
    intro as
    induction as with
    | nil => intro s0 s h hr; cases hr; exact h
    | cons a as ih =>
      intro s0 s h hr
      rw [run] at hr
      cases hs : step s0 a with
      | none => rw [hs] at hr; cases hr
      | some s1 =>
        rw [hs] at hr
        refine ih s1 s ?_ hr
        have hw (id : Nat) (x : Entry × Bool) : ∀ gs : List (Nat × Entry × Bool), find id gs = some x →
            (calls (without id gs)).length + (if x.2 then 1 else 0) = (calls gs).length := by
          intro gs
          induction gs with
          | nil => intro e; cases e
          | cons g gs ihg =>
            obtain ⟨i, y⟩ := g
            intro e
            rw [find] at e
            rw [without]
            by_cases ei : i = id
            · rw [if_pos ei] at e; rw [if_pos ei]
              obtain ⟨x, b⟩ := x
              cases e
              cases b <;> simp [calls]
            · rw [if_neg ei] at e; rw [if_neg ei]
              have := ihg e
              obtain ⟨y, b⟩ := y
              cases b <;> simp [calls] at this ⊢ <;> omega
        cases a with
        | enter id e =>
          simp only [step] at hs
          split at hs
          · cases hs
            dsimp only
            rw [calls_append, List.length_append, ← h]
            cases s0.tls <;> simp [calls]
          · cases hs
        | exit id =>
          simp only [step] at hs
          split at hs
          · cases hs
          · rename_i e hf; cases hs; have := hw id _ _ hf; simp at this; rw [h]; exact this.symm
          · rename_i e hf
            split at hs
            · cases hs
            · cases hs; have := hw id _ _ hf; simp at this; dsimp only; rw [List.length_dropLast, h]; omega
        | tls b => cases hs; exact h
  have hl := hlen as init s rfl h
  cases hf : find id s.guards with
  | none => exact absurd hid (find_none.mp hf)
  | some x =>
    obtain ⟨e, b⟩ := x
    cases b with
    | false => simp [step, hf]
    | true =>
      have hne : s.stack ≠ [] := by
        intro e0
        rw [e0] at hl
        have : calls s.guards ≠ [] := by
          have hm : ∀ gs : List (Nat × Entry × Bool), find id gs = some (e, true) → calls gs ≠ [] := by
            intro gs
            induction gs with
            | nil => intro e; cases e
            | cons g gs ihg =>
              obtain ⟨i, y⟩ := g
              intro e
              rw [find] at e
              by_cases ei : i = id
              · rw [if_pos ei] at e; cases e; simp [calls]
              · rw [if_neg ei] at e
                have := ihg e
                obtain ⟨y, b⟩ := y
                cases b
                · simpa [calls] using this
                · simp [calls]
          exact hm _ hf
        exact this (List.length_eq_zero_iff.mp hl.symm)
      simp [step, hf, hne]

/-- Guards destroyed in the order they were made in (on the heap, say): the thread is in call "b" only, and "a" is named. -/
theorem order_violated : ∃ s, run init [.enter 1 ⟨false, ['a']⟩, .enter 2 ⟨true, ['b']⟩, .exit 1] = some s ∧ s.guards = [(2, ⟨true, ['b']⟩, true)] ∧
    location s = "in external API: a".toList := ⟨_, rfl, rfl, by decide +kernel⟩

/-! Not vacuous. -/
example : (run init [.enter 1 ⟨false, ['f']⟩, .enter 2 ⟨true, ['g']⟩, .enter 3 ⟨false, ['h']⟩, .exit 3]).map location = some "in stingray: f -> g".toList := by decide +kernel
example : Nested init [.enter 1 ⟨false, ['f']⟩, .enter 2 ⟨true, ['g']⟩, .exit 2] :=
  ⟨fun _ e => (nomatch e), fun s1 h1 => ⟨fun _ e => (nomatch e), fun s2 h2 => ⟨fun id e => (by injection e with e; subst e; cases h1; cases h2; exact ⟨_, rfl⟩), fun _ _ => trivial⟩⟩⟩

end Verif.Diag.ApiGuards
