import Verif.Thread.Future
/-
Properties C44 and C46 of the model of `promise` and `future`.
-/
namespace Verif.Thread.Future

structure Inv (s : State) : Prop where
  eff : ∀ c r, s.cells c = some r ↔ (c, r) ∈ s.effects
  once : (s.effects.map Prod.fst).Nodup
  sleep : ∀ t c g, s.threads t = .waiting c g false → s.cells c = none
  wait : ∀ t c g w, s.threads t = .waiting c g w → c < s.created
  prom : ∀ p x, s.promises p = some x → x.cell < s.created
  uniq : ∀ p q x y, s.promises p = some x → s.promises q = some y → x.cell = y.cell → p = q
  hand : ∀ h x c, s.handles h = some x → x.cell = some c → c < s.created
  gone : ∀ c, c < s.created → (∀ p x, s.promises p = some x → x.cell ≠ c) → s.cells c ≠ none
  fresh : ∀ c, s.created ≤ c → s.cells c = none

theorem init_inv : Inv init where
  eff := fun _ _ => ⟨fun h => (nomatch h), fun h => (nomatch h)⟩
  once := List.nodup_nil
  sleep := fun _ _ _ h => (nomatch h)
  wait := fun _ _ _ _ h => (nomatch h)
  prom := fun _ _ h => (nomatch h)
  uniq := fun _ _ _ _ h => (nomatch h)
  hand := fun _ _ _ h => (nomatch h)
  gone := fun _ h => (nomatch h)
  fresh := fun _ _ => rfl

theorem set_self {α : Type} (f : Nat → α) (i : Nat) (x : α) : set f i x i = x := by unfold set; rw [if_pos rfl]
theorem set_ne {α : Type} (f : Nat → α) {i j : Nat} (x : α) (h : j ≠ i) : set f i x j = f j := by unfold set; rw [if_neg h]

theorem set_some {α : Type} {f : Nat → Option α} {i j : Nat} {x : Option α} {y : α} (h : set f i x j = some y) : (j = i ∧ x = some y) ∨ (j ≠ i ∧ f j = some y) := by
  by_cases e : j = i
  · subst e; rw [set_self] at h; exact Or.inl ⟨rfl, h⟩
  · rw [set_ne _ _ e] at h; exact Or.inr ⟨e, h⟩

theorem set_thread {f : Nat → Pc} {i j : Nat} {x y : Pc} (h : set f i x j = y) : (j = i ∧ x = y) ∨ f j = y := by
  by_cases e : j = i
  · subst e; rw [set_self] at h; exact Or.inl ⟨rfl, h⟩
  · rw [set_ne _ _ e] at h; exact Or.inr h

/-- A step that changes one thread only. -/
theorem inv_thread {s : State} (h : Inv s) (t : Nat) (p : Pc) (h1 : ∀ c g, p = .waiting c g false → s.cells c = none) (h2 : ∀ c g w, p = .waiting c g w → c < s.created) :
    Inv { s with threads := set s.threads t p } := by
  refine { h with sleep := fun u c g hu => ?_, wait := fun u c g w hu => ?_ }
  · rcases set_thread hu with ⟨_, e⟩ | e
    · exact h1 c g e
    · exact h.sleep u c g e
  · rcases set_thread hu with ⟨_, e⟩ | e
    · exact h2 c g w e
    · exact h.wait u c g w e

/-- A step that changes one handle only. -/
theorem inv_handle {s : State} (h : Inv s) (k : Nat) (x : Handle) (hx : ∀ c, x.cell = some c → c < s.created) : Inv { s with handles := set s.handles k (some x) } := by
  refine { h with hand := fun j y c hj hy => ?_ }
  rcases set_some hj with ⟨_, e⟩ | ⟨_, e⟩
  · injection e with e; subst e; exact hx c hy
  · exact h.hand j y c e hy

/-- The assignment of a result to a shared state that has none. -/
theorem inv_assign {s : State} (h : Inv s) (c : Nat) (r : Res) (hc : c < s.created) (hn : s.cells c = none) : Inv (assign s c r) := by
  have hw : ∀ t d g w, (s.threads t).wake c = .waiting d g w → ∃ w', s.threads t = .waiting d g w' ∧ (w = false → w' = false ∧ d ≠ c) := by
    intro t d g w ht
    cases hp : s.threads t with
    | idle => rw [hp] at ht; cases ht
    | waiting d' g' w' =>
      rw [hp] at ht
      unfold Pc.wake at ht
      injection ht with e1 e2 e3
      subst e1; subst e2
      refine ⟨w', rfl, fun hw => ?_⟩
      by_cases e : d' = c
      · rw [if_pos e, hw] at e3; cases e3
      · rw [if_neg e, hw] at e3; exact ⟨e3, e⟩
  refine { h with eff := fun d q => ?_, once := ?_, sleep := fun t d g ht => ?_, wait := fun t d g w ht => ?_, gone := fun d hd hp => ?_, fresh := fun d hd => ?_ }
  · show set s.cells c (some r) d = some q ↔ (d, q) ∈ s.effects ++ [(c, r)]
    rw [List.mem_append, List.mem_singleton]
    by_cases e : d = c
    · subst e; rw [set_self]
      constructor
      · intro hq; injection hq with hq; subst hq; exact Or.inr rfl
      · rintro (hq | hq)
        · have := (h.eff d q).2 hq; rw [hn] at this; cases this
        · injection hq with _ hq; rw [hq]
    · rw [set_ne _ _ e, h.eff d q]
      exact ⟨Or.inl, fun hq => hq.resolve_right (fun hq => by injection hq with hq _; exact e hq)⟩
  · show ((s.effects ++ [(c, r)]).map Prod.fst).Nodup
    rw [List.map_append, List.nodup_append]
    refine ⟨h.once, by simp, fun d hd e he hde => ?_⟩
    simp only [List.map_cons, List.map_nil, List.mem_singleton] at he
    rw [hde, he, List.mem_map] at hd
    obtain ⟨⟨d', q⟩, hm, rfl⟩ := hd
    have := (h.eff d' q).2 hm
    rw [hn] at this; cases this
  · obtain ⟨w', h1, h2⟩ := hw t d g false ht
    obtain ⟨h2, h3⟩ := h2 rfl
    subst h2
    show set s.cells c (some r) d = none
    rw [set_ne _ _ h3]; exact h.sleep t d g h1
  · obtain ⟨w', h1, _⟩ := hw t d g w ht
    exact h.wait t d g w' h1
  · show set s.cells c (some r) d ≠ none
    by_cases e : d = c
    · subst e; rw [set_self]; exact fun h => (nomatch h)
    · rw [set_ne _ _ e]; exact h.gone d hd hp
  · show set s.cells c (some r) d = none
    have : s.created ≤ d := hd
    rw [set_ne _ _ (by omega)]; exact h.fresh d hd

/-- A promise whose shared state has a result is destroyed. -/
theorem inv_drop {s : State} (h : Inv s) (p : Nat) (x : Promise) (hp : s.promises p = some x) (hx : s.cells x.cell ≠ none) : Inv { s with promises := set s.promises p none } := by
  refine { h with prom := fun q y hq => ?_, uniq := fun q q' y y' hq hq' he => ?_, gone := fun c hc hn => ?_ }
  · rcases set_some hq with ⟨_, e⟩ | ⟨_, e⟩
    · cases e
    · exact h.prom q y e
  · rcases set_some hq with ⟨_, e⟩ | ⟨_, e⟩
    · cases e
    · rcases set_some hq' with ⟨_, e'⟩ | ⟨_, e'⟩
      · cases e'
      · exact h.uniq q q' y y' e e' he
  · by_cases e : x.cell = c
    · rw [← e]; exact hx
    · refine h.gone c hc fun q y hq => ?_
      by_cases eq : q = p
      · subst eq; rw [hp] at hq; injection hq with hq; rw [← hq]; exact e
      · exact hn q y (by show set s.promises p none q = some y; rw [set_ne _ _ eq]; exact hq)

theorem step_inv {s s' : State} {a : Act} {o : Out} (h : Inv s) (hs : step s a = some (o, s')) : Inv s' := by
  cases a with
  | create p =>
    simp only [step, create] at hs
    by_cases hp : s.promises p = none
    · rw [if_pos hp] at hs; injection hs with hs; injection hs with _ hs; subst hs
      refine { h with wait := fun t c g w ht => ?_, prom := fun q y hq => ?_, uniq := fun q q' y y' hq hq' he => ?_, hand := fun k y c hk hy => ?_, gone := fun c hc hn => ?_, fresh := fun c hc => ?_ }
      · have := h.wait t c g w ht; show c < s.created + 1; omega
      · show y.cell < s.created + 1
        rcases set_some hq with ⟨_, e⟩ | ⟨_, e⟩
        · injection e with e; subst e; exact Nat.lt_succ_self _
        · have := h.prom q y e; omega
      · rcases set_some hq with ⟨e1, e⟩ | ⟨e1, e⟩
        · injection e with e; subst e
          rcases set_some hq' with ⟨e2, e'⟩ | ⟨_, e'⟩
          · rw [e1, e2]
          · have := h.prom q' y' e'; simp only [] at he; omega
        · rcases set_some hq' with ⟨e2, e'⟩ | ⟨_, e'⟩
          · injection e' with e'; subst e'
            have := h.prom q y e; simp only [] at he; omega
          · exact h.uniq q q' y y' e e' he
      · have := h.hand k y c hk hy; show c < s.created + 1; omega
      · have hc : c < s.created + 1 := hc
        have hne : c ≠ s.created := fun e => hn p ⟨s.created, false⟩ (set_self _ _ _) e.symm
        refine h.gone c (by omega) fun q y hq => hn q y ?_
        show set s.promises p _ q = some y
        rw [set_ne _ _ (fun e => by rw [e, hp] at hq; cases hq)]; exact hq
      · exact h.fresh c (by have : s.created + 1 ≤ c := hc; omega)
    · rw [if_neg hp] at hs; cases hs
  | destroy p =>
    simp only [step, destroy] at hs
    cases hp : s.promises p with
    | none => rw [hp] at hs; cases hs
    | some x =>
      rw [hp] at hs; simp only [] at hs
      cases hc : s.cells x.cell with
      | some r =>
        rw [hc] at hs; injection hs with hs; injection hs with _ hs; subst hs
        exact inv_drop h p x hp (by rw [hc]; exact fun h => (nomatch h))
      | none =>
        rw [hc] at hs; injection hs with hs; injection hs with _ hs; subst hs
        have h1 := inv_assign h x.cell .brokenPromise (h.prom p x hp) hc
        exact inv_drop h1 p x hp (by show set s.cells x.cell _ x.cell ≠ none; rw [set_self]; exact fun h => (nomatch h))
  | swap p q =>
    simp only [step, swap] at hs
    cases hp : s.promises p with
    | none => rw [hp] at hs; cases hs
    | some x =>
      cases hq : s.promises q with
      | none => rw [hp, hq] at hs; cases hs
      | some y =>
        rw [hp, hq] at hs; injection hs with hs; injection hs with _ hs; subst hs
        /- who has which shared state after the swap -/
        have key : ∀ k z, set (set s.promises p (some { x with cell := y.cell })) q (some { y with cell := x.cell }) k = some z →
            (k = q ∧ z.cell = x.cell) ∨ (k = p ∧ k ≠ q ∧ z.cell = y.cell) ∨ (k ≠ p ∧ k ≠ q ∧ s.promises k = some z) := by
          intro k z hz
          rcases set_some hz with ⟨e1, e⟩ | ⟨e1, e⟩
          · injection e with e; subst e; exact Or.inl ⟨e1, rfl⟩
          · rcases set_some e with ⟨e2, e'⟩ | ⟨e2, e'⟩
            · injection e' with e'; subst e'; exact Or.inr (Or.inl ⟨e2, e1, rfl⟩)
            · exact Or.inr (Or.inr ⟨e2, e1, e'⟩)
        refine { h with prom := fun k z hk => ?_, uniq := fun k k' z z' hk hk' he => ?_, gone := fun c hc hn => ?_ }
        · rcases key k z hk with ⟨_, e⟩ | ⟨_, _, e⟩ | ⟨_, _, e⟩
          · show z.cell < s.created
            rw [e]; exact h.prom p x hp
          · show z.cell < s.created
            rw [e]; exact h.prom q y hq
          · exact h.prom k z e
        · rcases key k z hk with ⟨e1, e⟩ | ⟨e1, e2, e⟩ | ⟨e1, e2, e⟩
          · rcases key k' z' hk' with ⟨e1', e'⟩ | ⟨e1', e2', e'⟩ | ⟨e1', e2', e'⟩
            · rw [e1, e1']
            · have := h.uniq p q x y hp hq (by rw [← e, he, e']); rw [e1, e1', this]
            · exact absurd (h.uniq k' p z' x e' hp (by rw [← he, e])) e1'
          · rcases key k' z' hk' with ⟨e1', e'⟩ | ⟨e1', e2', e'⟩ | ⟨e1', e2', e'⟩
            · have := h.uniq q p y x hq hp (by rw [← e, he, e']); rw [e1, e1', this]
            · rw [e1, e1']
            · exact absurd (h.uniq k' q z' y e' hq (by rw [← he, e])) e2'
          · rcases key k' z' hk' with ⟨e1', e'⟩ | ⟨e1', e2', e'⟩ | ⟨e1', e2', e'⟩
            · exact absurd (h.uniq k p z x e hp (by rw [he, e'])) e1
            · exact absurd (h.uniq k q z y e hq (by rw [he, e'])) e2
            · exact h.uniq k k' z z' e e' he
        · refine h.gone c hc fun k z hk => ?_
          intro hz
          by_cases ekp : k = p
          · subst ekp
            have hx : x = z := by rw [hp] at hk; injection hk
            exact hn q { y with cell := x.cell } (set_self _ _ _) (by rw [hx]; exact hz)
          · by_cases ekq : k = q
            · subst ekq
              have hy : y = z := by rw [hq] at hk; injection hk
              exact hn p { x with cell := y.cell } (by simp only []; rw [set_ne _ _ (fun e => ekp e.symm), set_self]) (by rw [hy]; exact hz)
            · exact hn k z (by simp only []; rw [set_ne _ _ ekq, set_ne _ _ ekp]; exact hk) hz
  | getFuture p k =>
    simp only [step, getFuture] at hs
    cases hp : s.promises p with
    | none => rw [hp] at hs; cases hs
    | some x =>
      rw [hp] at hs; simp only [] at hs
      by_cases hr : x.retrieved = true
      · rw [if_pos hr] at hs; injection hs with hs; injection hs with _ hs; exact hs ▸ h
      · rw [if_neg hr] at hs; injection hs with hs; injection hs with _ hs; subst hs
        have h1 := inv_handle h k ⟨some x.cell, false⟩ (fun c hc => by injection hc with hc; rw [← hc]; exact h.prom p x hp)
        refine { h1 with prom := fun q y hq => ?_, uniq := fun q q' y y' hq hq' he => ?_, gone := fun c hc hn => ?_ }
        · rcases set_some hq with ⟨_, e⟩ | ⟨_, e⟩
          · injection e with e; subst e; exact h.prom p x hp
          · exact h.prom q y e
        · rcases set_some hq with ⟨e1, e⟩ | ⟨e1, e⟩
          · injection e with e; subst e
            rcases set_some hq' with ⟨e2, e'⟩ | ⟨e2, e'⟩
            · rw [e1, e2]
            · exact absurd (h.uniq q' p y' x e' hp he.symm) e2
          · rcases set_some hq' with ⟨e2, e'⟩ | ⟨_, e'⟩
            · injection e' with e'; subst e'
              exact absurd (h.uniq q p y x e hp he) e1
            · exact h.uniq q q' y y' e e' he
        · refine h.gone c hc fun q y hq hy => ?_
          by_cases e : q = p
          · subst e
            have hx : x = y := by rw [hp] at hq; injection hq
            exact hn q { x with retrieved := true } (set_self _ _ _) (by rw [hx]; exact hy)
          · exact hn q y (by simp only []; rw [set_ne _ _ e]; exact hq) hy
  | setValue p v =>
    simp only [step, setValue] at hs
    cases hp : s.promises p with
    | none => rw [hp] at hs; cases hs
    | some x =>
      rw [hp] at hs; simp only [] at hs
      cases hc : s.cells x.cell with
      | some r => rw [hc] at hs; injection hs with hs; injection hs with _ hs; exact hs ▸ h
      | none => rw [hc] at hs; injection hs with hs; injection hs with _ hs; subst hs; exact inv_assign h _ _ (h.prom p x hp) hc
  | setException p v =>
    simp only [step, setException] at hs
    cases hp : s.promises p with
    | none => rw [hp] at hs; cases hs
    | some x =>
      rw [hp] at hs; simp only [] at hs
      cases hc : s.cells x.cell with
      | some r => rw [hc] at hs; injection hs with hs; injection hs with _ hs; exact hs ▸ h
      | none => rw [hc] at hs; injection hs with hs; injection hs with _ hs; subst hs; exact inv_assign h _ _ (h.prom p x hp) hc
  | share k j =>
    simp only [step, share] at hs
    cases hk : s.handles k with
    | none => rw [hk] at hs; cases hs
    | some x =>
      obtain ⟨c, b⟩ := x
      cases b with
      | true => rw [hk] at hs; cases hs
      | false =>
        rw [hk] at hs; injection hs with hs; injection hs with _ hs; subst hs
        have h1 := inv_handle h k ⟨none, false⟩ (fun c hc => (nomatch hc))
        exact inv_handle h1 j ⟨c, true⟩ (fun d hd => h.hand k ⟨c, false⟩ d hk hd)
  | get t k =>
    simp only [step, get] at hs
    cases hk : s.handles k with
    | none => rw [hk] at hs; cases hs
    | some x =>
      obtain ⟨c, sh⟩ := x
      cases ht : s.threads t with
      | waiting d g w => rw [hk, ht] at hs; cases c <;> cases hs
      | idle =>
        rw [hk, ht] at hs
        cases c with
        | none => injection hs with hs; injection hs with _ hs; exact hs ▸ h
        | some c =>
          simp only [] at hs
          have h1 := inv_handle h k ⟨if sh then some c else none, sh⟩ (fun d hd => by
            cases sh with
            | true => injection hd with hd; rw [← hd]; exact h.hand k ⟨some c, true⟩ c hk rfl
            | false => cases hd)
          cases hc : s.cells c with
          | some r => rw [hc] at hs; injection hs with hs; injection hs with _ hs; subst hs; exact h1
          | none =>
            rw [hc] at hs; injection hs with hs; injection hs with _ hs; subst hs
            exact inv_thread h1 t _ (fun d g e => by injection e with e; rw [← e]; exact hc) (fun d g w e => by injection e with e; rw [← e]; exact h.hand k _ c hk rfl)
  | wait t k =>
    simp only [step, wait] at hs
    cases hk : s.handles k with
    | none => rw [hk] at hs; cases hs
    | some x =>
      obtain ⟨c, sh⟩ := x
      cases ht : s.threads t with
      | waiting d g w => rw [hk, ht] at hs; cases c <;> cases hs
      | idle =>
        rw [hk, ht] at hs
        cases c with
        | none => injection hs with hs; injection hs with _ hs; exact hs ▸ h
        | some c =>
          simp only [] at hs
          cases hc : s.cells c with
          | some r => rw [hc] at hs; injection hs with hs; injection hs with _ hs; exact hs ▸ h
          | none =>
            rw [hc] at hs; injection hs with hs; injection hs with _ hs; subst hs
            exact inv_thread h t _ (fun d g e => by injection e with e; rw [← e]; exact hc) (fun d g w e => by injection e with e; rw [← e]; exact h.hand k _ c hk rfl)
  | resume t =>
    simp only [step, resume] at hs
    cases ht : s.threads t with
    | idle => rw [ht] at hs; cases hs
    | waiting c g w =>
      cases w with
      | false => rw [ht] at hs; cases hs
      | true =>
        rw [ht] at hs; simp only [] at hs
        cases hc : s.cells c with
        | some r =>
          rw [hc] at hs; injection hs with hs; injection hs with _ hs; subst hs
          exact inv_thread h t _ (fun _ _ e => (nomatch e)) (fun _ _ _ e => (nomatch e))
        | none =>
          rw [hc] at hs; injection hs with hs; injection hs with _ hs; subst hs
          exact inv_thread h t _ (fun d g' e => by injection e with e; rw [← e]; exact hc) (fun d g' w e => by injection e with e; rw [← e]; exact h.wait t c g true ht)
  | spurious t =>
    simp only [step, spurious] at hs
    cases ht : s.threads t with
    | idle => rw [ht] at hs; cases hs
    | waiting c g w =>
      rw [ht] at hs; injection hs with hs; injection hs with _ hs; subst hs
      exact inv_thread h t _ (fun d g' e => by injection e with _ _ e; cases e) (fun d g' w' e => by injection e with e; rw [← e]; exact h.wait t c g w ht)
  | abort t b =>
    simp only [step, abort] at hs
    cases ht : s.threads t with
    | idle => rw [ht] at hs; cases hs
    | waiting c g w =>
      cases g with
      | true => rw [ht] at hs; cases hs
      | false =>
        rw [ht] at hs; injection hs with hs; injection hs with _ hs; subst hs
        exact inv_thread h t _ (fun _ _ e => (nomatch e)) (fun _ _ _ e => (nomatch e))

theorem run_inv : ∀ {as : List Act} {s s' : State}, Inv s → run s as = some s' → Inv s'
  | [], s, s', hi, h => by injection h with h; exact h ▸ hi
  | a :: as, s, s', hi, h => by
    rw [run] at h
    cases hs : step s a with
    | none => rw [hs] at h; cases h
    | some t => obtain ⟨o, t⟩ := t; rw [hs] at h; exact run_inv (step_inv hi hs) h

/-- The assignments are only added to. -/
theorem step_effects {s s' : State} {a : Act} {o : Out} (hs : step s a = some (o, s')) : ∃ l, s'.effects = s.effects ++ l := by
  have nil : ∀ {t : State}, t.effects = s.effects → ∃ l, t.effects = s.effects ++ l := fun e => ⟨[], by rw [e, List.append_nil]⟩
  cases a <;> simp only [step, create, destroy, swap, getFuture, setValue, setException, share, get, wait, resume, spurious, abort] at hs
  all_goals
    repeat' split at hs
  all_goals first
    | (cases hs; done)
    | (injection hs with hs; injection hs with _ hs; subst hs; first | exact nil rfl | exact ⟨_, rfl⟩)

theorem run_effects : ∀ {as : List Act} {s s' : State}, run s as = some s' → ∃ l, s'.effects = s.effects ++ l
  | [], s, s', h => by injection h with h; exact ⟨[], by rw [h, List.append_nil]⟩
  | a :: as, s, s', h => by
    rw [run] at h
    cases hs : step s a with
    | none => rw [hs] at h; cases h
    | some t =>
      obtain ⟨o, t⟩ := t; rw [hs] at h
      obtain ⟨l, hl⟩ := step_effects hs
      obtain ⟨m, hm⟩ := run_effects h
      exact ⟨l ++ m, by rw [hm, hl, List.append_assoc]⟩

/-- C44: each shared state is assigned at most once, what it holds is that assignment, and it stays whatever happens later. -/
theorem assigned_once {as bs : List Act} {s s' : State} (h : run init as = some s) (h' : run s bs = some s') :
    (s.effects.map Prod.fst).Nodup ∧ (∀ c r, s.cells c = some r ↔ (c, r) ∈ s.effects) ∧ (∀ c r, s.cells c = some r → s'.cells c = some r) := by
  have hi := run_inv init_inv h
  have hi' := run_inv hi h'
  refine ⟨hi.once, hi.eff, fun c r hc => ?_⟩
  obtain ⟨l, hl⟩ := run_effects h'
  rw [hi'.eff, hl, List.mem_append]
  exact Or.inl ((hi.eff c r).1 hc)

/-- C44: `set_value` succeeds and takes effect if nothing was assigned before, and throws `PromiseAlreadySatisfied`, with no effect, otherwise; `set_exception` takes effect
under the same condition and is ignored otherwise. -/
theorem setters {s : State} (p : Nat) (x : Promise) (hp : s.promises p = some x) (v : Nat) :
    (s.cells x.cell = none → (∃ s', step s (.setValue p v) = some (.none, s') ∧ s'.cells x.cell = some (.value v)) ∧
      (∃ s', step s (.setException p v) = some (.none, s') ∧ s'.cells x.cell = some (.exception v))) ∧
    (s.cells x.cell ≠ none → step s (.setValue p v) = some (.promiseAlreadySatisfied, s) ∧ step s (.setException p v) = some (.none, s)) := by
  simp only [step, setValue, setException, hp]
  refine ⟨fun hc => ?_, fun hc => ?_⟩
  · rw [hc]
    exact ⟨⟨_, rfl, set_self _ _ _⟩, ⟨_, rfl, set_self _ _ _⟩⟩
  · cases hx : s.cells x.cell with
    | none => exact absurd hx hc
    | some r => exact ⟨rfl, rfl⟩

/-- C44: whatever `get` returns or throws, at once or after waiting, is what was assigned to the shared state of the future. -/
theorem get_result {s s' : State} {t : Nat} {r : Res} :
    (∀ h, step s (.get t h) = some (.got r, s') → ∃ c sh, s.handles h = some ⟨some c, sh⟩ ∧ s.cells c = some r) ∧
    (step s (.resume t) = some (.got r, s') → ∃ c w, s.threads t = .waiting c true w ∧ s.cells c = some r) := by
  refine ⟨fun h hs => ?_, fun hs => ?_⟩
  · simp only [step, get] at hs
    cases hk : s.handles h with
    | none => rw [hk] at hs; cases hs
    | some x =>
      obtain ⟨c, sh⟩ := x
      cases ht : s.threads t with
      | waiting d g w => rw [hk, ht] at hs; cases c <;> cases hs
      | idle =>
        rw [hk, ht] at hs
        cases c with
        | none => injection hs with hs; injection hs with hs _; cases hs
        | some c =>
          simp only [] at hs
          cases hc : s.cells c with
          | none => rw [hc] at hs; injection hs with hs; injection hs with hs _; cases hs
          | some q => rw [hc] at hs; injection hs with hs; injection hs with hs _; injection hs with hs; subst hs; exact ⟨c, sh, rfl, hc⟩
  · simp only [step, resume] at hs
    cases ht : s.threads t with
    | idle => rw [ht] at hs; cases hs
    | waiting c g w =>
      cases w with
      | false => rw [ht] at hs; cases hs
      | true =>
        rw [ht] at hs; simp only [] at hs
        cases hc : s.cells c with
        | none => rw [hc] at hs; injection hs with hs; injection hs with hs _; cases hs
        | some q =>
          rw [hc] at hs; injection hs with hs; injection hs with hs _
          cases g with
          | false => cases hs
          | true => injection hs with hs; subst hs; exact ⟨c, true, rfl, hc⟩

/-- C44: `wait` returns `ready` only when there is a result. -/
theorem wait_ready {s s' : State} {t : Nat} :
    (∀ h, step s (.wait t h) = some (.ready, s') → ∃ c sh, s.handles h = some ⟨some c, sh⟩ ∧ s.cells c ≠ none) ∧
    (step s (.resume t) = some (.ready, s') → ∃ c w, s.threads t = .waiting c false w ∧ s.cells c ≠ none) := by
  refine ⟨fun h hs => ?_, fun hs => ?_⟩
  · simp only [step, wait] at hs
    cases hk : s.handles h with
    | none => rw [hk] at hs; cases hs
    | some x =>
      obtain ⟨c, sh⟩ := x
      cases ht : s.threads t with
      | waiting d g w => rw [hk, ht] at hs; cases c <;> cases hs
      | idle =>
        rw [hk, ht] at hs
        cases c with
        | none => injection hs with hs; injection hs with hs _; cases hs
        | some c =>
          simp only [] at hs
          cases hc : s.cells c with
          | none => rw [hc] at hs; injection hs with hs; injection hs with hs _; cases hs
          | some q => exact ⟨c, sh, rfl, by rw [hc]; exact fun h => (nomatch h)⟩
  · simp only [step, resume] at hs
    cases ht : s.threads t with
    | idle => rw [ht] at hs; cases hs
    | waiting c g w =>
      cases w with
      | false => rw [ht] at hs; cases hs
      | true =>
        rw [ht] at hs; simp only [] at hs
        cases hc : s.cells c with
        | none => rw [hc] at hs; injection hs with hs; injection hs with hs _; cases hs
        | some q =>
          rw [hc] at hs; injection hs with hs; injection hs with hs _
          cases g with
          | true => cases hs
          | false => exact ⟨c, true, rfl, by rw [hc]; exact fun h => (nomatch h)⟩

/-- C44, no lost wakeup: a thread waiting for a shared state that has a result, or whose promise is gone, can go on at once, and ends its wait with it. -/
theorem no_lost_wakeup {as : List Act} {s : State} (h : run init as = some s) (t c : Nat) (g w : Bool) (ht : s.threads t = .waiting c g w)
    (hr : s.cells c ≠ none ∨ ∀ p x, s.promises p = some x → x.cell ≠ c) :
    ∃ r s', s.cells c = some r ∧ step s (.resume t) = some (if g then .got r else .ready, s') ∧ s'.threads t = .idle := by
  have hi := run_inv init_inv h
  have hc : s.cells c ≠ none := by
    rcases hr with hr | hr
    · exact hr
    · exact hi.gone c (hi.wait t c g w ht) hr
  cases hx : s.cells c with
  | none => exact absurd hx hc
  | some r =>
    cases w with
    | false => exact absurd (hi.sleep t c g ht) hc
    | true =>
      simp only [step, resume, ht, hx]
      exact ⟨r, _, rfl, rfl, set_self _ _ _⟩

/-- C44, broken promises: destroying a promise leaves a result, `BrokenPromise` exactly if there was none. -/
theorem broken_promise {s s' : State} {p : Nat} {x : Promise} {o : Out} (hp : s.promises p = some x) (hs : step s (.destroy p) = some (o, s')) :
    (s.cells x.cell = none → s'.cells x.cell = some .brokenPromise) ∧ (∀ r, s.cells x.cell = some r → s'.cells x.cell = some r) := by
  simp only [step, destroy, hp] at hs
  cases hc : s.cells x.cell with
  | some r =>
    rw [hc] at hs; injection hs with hs; injection hs with _ hs; subst hs
    exact ⟨fun h => (nomatch h), fun q hq => by rw [← hq]; exact hc⟩
  | none =>
    rw [hc] at hs; injection hs with hs; injection hs with _ hs; subst hs
    exact ⟨fun _ => set_self _ _ _, fun r hr => (nomatch hr)⟩

/-- C44, a future is used up by `get`, a shared future is not. -/
theorem get_invalidates {s s' : State} {t h c : Nat} {sh : Bool} {o : Out} (hh : s.handles h = some ⟨some c, sh⟩) (hs : step s (.get t h) = some (o, s')) :
    s'.handles h = some ⟨if sh then some c else none, sh⟩ := by
  simp only [step, get, hh] at hs
  cases ht : s.threads t with
  | waiting d g w => rw [ht] at hs; cases hs
  | idle =>
    rw [ht] at hs; simp only [] at hs
    cases hc : s.cells c with
    | some r => rw [hc] at hs; injection hs with hs; injection hs with _ hs; subst hs; exact set_self _ _ _
    | none => rw [hc] at hs; injection hs with hs; injection hs with _ hs; subst hs; exact set_self _ _ _

/-- C44: a thread in `get` leaves it only with the result that was assigned: neither a timeout nor a cancellation ends `get`. -/
theorem get_ends_with_result {s s' : State} {a : Act} {o : Out} {t c : Nat} {w : Bool} (ht : s.threads t = .waiting c true w) (hs : step s a = some (o, s')) :
    (∃ w', s'.threads t = .waiting c true w') ∨ (a = .resume t ∧ ∃ r, s.cells c = some r ∧ o = .got r ∧ s'.threads t = .idle) := by
  have hwake : ∀ d, ∃ w', (s.threads t).wake d = .waiting c true w' := fun d => by rw [ht]; exact ⟨_, rfl⟩
  have hself : ∃ w', s.threads t = .waiting c true w' := ⟨w, ht⟩
  have hset : ∀ u p, u ≠ t → ∃ w', set s.threads u p t = .waiting c true w' := fun u p hu => by rw [set_ne _ _ (Ne.symm hu)]; exact hself
  cases a with
  | resume u =>
    by_cases hu : u = t
    · subst hu
      simp only [step, resume, ht] at hs
      cases w with
      | false => cases hs
      | true =>
        simp only [] at hs
        cases hc : s.cells c with
        | none => rw [hc] at hs; injection hs with hs; injection hs with _ hs; subst hs; exact Or.inl ⟨_, set_self _ _ _⟩
        | some r => rw [hc] at hs; injection hs with hs; injection hs with ho hs; subst hs; exact Or.inr ⟨rfl, r, rfl, ho.symm, set_self _ _ _⟩
    · simp only [step, resume] at hs
      left
      repeat' split at hs
      all_goals first | (cases hs; done) | (injection hs with hs; injection hs with _ hs; subst hs; exact hset u _ hu)
  | spurious u =>
    left
    by_cases hu : u = t
    · subst hu
      simp only [step, spurious, ht] at hs
      injection hs with hs; injection hs with _ hs; subst hs; exact ⟨_, set_self _ _ _⟩
    · simp only [step, spurious] at hs
      split at hs
      · injection hs with hs; injection hs with _ hs; subst hs; exact hset u _ hu
      · cases hs
  | abort u b =>
    left
    by_cases hu : u = t
    · subst hu
      simp only [step, abort, ht] at hs
      cases hs
    · simp only [step, abort] at hs
      split at hs
      · injection hs with hs; injection hs with _ hs; subst hs; exact hset u _ hu
      · cases hs
  | get u h =>
    left
    have hu : u ≠ t ∨ u = t := by omega
    rcases hu with hu | hu
    · simp only [step, get] at hs
      repeat' split at hs
      all_goals first | (cases hs; done) | (injection hs with hs; injection hs with _ hs; subst hs; first | exact hself | exact hset u _ hu)
    · subst hu
      simp only [step, get, ht] at hs
      repeat' split at hs
      all_goals first | (cases hs; done) | contradiction
  | wait u h =>
    left
    have hu : u ≠ t ∨ u = t := by omega
    rcases hu with hu | hu
    · simp only [step, wait] at hs
      repeat' split at hs
      all_goals first | (cases hs; done) | (injection hs with hs; injection hs with _ hs; subst hs; first | exact hself | exact hset u _ hu)
    · subst hu
      simp only [step, wait, ht] at hs
      repeat' split at hs
      all_goals first | (cases hs; done) | contradiction
  | _ =>
    left
    simp only [step, create, destroy, swap, getFuture, setValue, setException, share] at hs
    repeat' split at hs
    all_goals first | (cases hs; done) | (injection hs with hs; injection hs with _ hs; subst hs; first | exact hself | exact hwake _)

/-- C44: `wait` returns at once if the result is there and makes the thread wait for it otherwise; when that thread is resumed it
returns "ready" exactly if the result is there, and the future keeps its state. -/
theorem wait_begins_ends {s s' : State} {t c : Nat} {o : Out} :
    (∀ h sh, s.handles h = some ⟨some c, sh⟩ → step s (.wait t h) = some (o, s') → s'.handles = s.handles ∧ s'.cells = s.cells ∧
      ((s.cells c ≠ none ∧ o = .ready ∧ s'.threads t = .idle) ∨ (s.cells c = none ∧ o = .none ∧ ∃ w, s'.threads t = .waiting c false w))) ∧
    (∀ w, s.threads t = .waiting c false w → step s (.resume t) = some (o, s') → s'.handles = s.handles ∧
      ((s.cells c ≠ none ∧ o = .ready ∧ s'.threads t = .idle) ∨ (s.cells c = none ∧ o = .none ∧ ∃ w, s'.threads t = .waiting c false w))) := by
  constructor
  · intro h sh hh hs
    simp only [step, wait, hh] at hs
    cases ht : s.threads t with
    | waiting d g w => rw [ht] at hs; cases hs
    | idle =>
      rw [ht] at hs; simp only [] at hs
      cases hc : s.cells c with
      | some r => rw [hc] at hs; injection hs with hs; injection hs with ho hs; subst hs; exact ⟨rfl, rfl, .inl ⟨by simp, ho.symm, ht⟩⟩
      | none => rw [hc] at hs; injection hs with hs; injection hs with ho hs; subst hs; exact ⟨rfl, rfl, .inr ⟨rfl, ho.symm, _, set_self _ _ _⟩⟩
  · intro w ht hs
    simp only [step, resume, ht] at hs
    cases w with
    | false => cases hs
    | true =>
      simp only [] at hs
      cases hc : s.cells c with
      | some r => rw [hc] at hs; injection hs with hs; injection hs with ho hs; subst hs; exact ⟨rfl, .inl ⟨by simp, ho.symm, set_self _ _ _⟩⟩
      | none => rw [hc] at hs; injection hs with hs; injection hs with ho hs; subst hs; exact ⟨rfl, .inr ⟨rfl, ho.symm, _, set_self _ _ _⟩⟩

/-! ### C46 -/

/-- A shared state is marked as retrieved in its promise exactly if a future was made of it. -/
structure Inv2 (s : State) : Prop where
  nodup : s.futures.Nodup
  mark : ∀ p x, s.promises p = some x → (x.retrieved = true ↔ x.cell ∈ s.futures)
  bound : ∀ c ∈ s.futures, c < s.created

theorem init_inv2 : Inv2 init := ⟨List.nodup_nil, fun _ _ h => (nomatch h), fun _ h => (nomatch h)⟩

theorem step_inv2 {s s' : State} {a : Act} {o : Out} (h : Inv s) (h2 : Inv2 s) (hn : ∀ p q, a ≠ .swap p q) (hs : step s a = some (o, s')) : Inv2 s' := by
  cases a with
  | swap p q => exact absurd rfl (hn p q)
  | create p =>
    simp only [step, create] at hs
    by_cases hp : s.promises p = none
    · rw [if_pos hp] at hs; injection hs with hs; injection hs with _ hs; subst hs
      refine ⟨h2.nodup, fun q y hq => ?_, fun c hc => ?_⟩
      · rcases set_some hq with ⟨_, e⟩ | ⟨_, e⟩
        · injection e with e; subst e
          exact ⟨fun e => (nomatch e), fun e => absurd (h2.bound _ e) (Nat.lt_irrefl _)⟩
        · exact h2.mark q y e
      · have := h2.bound c hc; show c < s.created + 1; omega
    · rw [if_neg hp] at hs; cases hs
  | destroy p =>
    simp only [step, destroy] at hs
    cases hp : s.promises p with
    | none => rw [hp] at hs; cases hs
    | some x =>
      rw [hp] at hs; simp only [] at hs
      have key : ∀ q y, set s.promises p none q = some y → (y.retrieved = true ↔ y.cell ∈ s.futures) := fun q y hq => by
        rcases set_some hq with ⟨_, e⟩ | ⟨_, e⟩
        · cases e
        · exact h2.mark q y e
      cases hc : s.cells x.cell with
      | some r => rw [hc] at hs; injection hs with hs; injection hs with _ hs; subst hs; exact ⟨h2.nodup, key, h2.bound⟩
      | none => rw [hc] at hs; injection hs with hs; injection hs with _ hs; subst hs; exact ⟨h2.nodup, key, h2.bound⟩
  | getFuture p k =>
    simp only [step, getFuture] at hs
    cases hp : s.promises p with
    | none => rw [hp] at hs; cases hs
    | some x =>
      rw [hp] at hs; simp only [] at hs
      by_cases hr : x.retrieved = true
      · rw [if_pos hr] at hs; injection hs with hs; injection hs with _ hs; exact hs ▸ h2
      · rw [if_neg hr] at hs; injection hs with hs; injection hs with _ hs; subst hs
        have hx : x.cell ∉ s.futures := fun e => hr ((h2.mark p x hp).2 e)
        refine ⟨?_, fun q y hq => ?_, fun c hc => ?_⟩
        · show (s.futures ++ [x.cell]).Nodup
          rw [List.nodup_append]
          exact ⟨h2.nodup, by simp, fun c hc d hd e => hx (by rw [List.mem_singleton] at hd; rw [← hd, ← e]; exact hc)⟩
        · show y.retrieved = true ↔ y.cell ∈ s.futures ++ [x.cell]
          rw [List.mem_append, List.mem_singleton]
          rcases set_some hq with ⟨_, e⟩ | ⟨e1, e⟩
          · injection e with e; subst e; exact ⟨fun _ => Or.inr rfl, fun _ => rfl⟩
          · rw [h2.mark q y e]
            exact ⟨Or.inl, fun he => he.resolve_right (fun he => e1 (h.uniq q p y x e hp he))⟩
        · have hc : c ∈ s.futures ++ [x.cell] := hc
          rw [List.mem_append, List.mem_singleton] at hc
          rcases hc with hc | hc
          · exact h2.bound c hc
          · rw [hc]; exact h.prom p x hp
  | setValue p v =>
    simp only [step, setValue] at hs
    repeat' split at hs
    all_goals first | (cases hs; done) | (injection hs with hs; injection hs with _ hs; subst hs; exact ⟨h2.nodup, h2.mark, h2.bound⟩)
  | setException p v =>
    simp only [step, setException] at hs
    repeat' split at hs
    all_goals first | (cases hs; done) | (injection hs with hs; injection hs with _ hs; subst hs; exact ⟨h2.nodup, h2.mark, h2.bound⟩)
  | share k j =>
    simp only [step, share] at hs
    repeat' split at hs
    all_goals first | (cases hs; done) | (injection hs with hs; injection hs with _ hs; subst hs; exact ⟨h2.nodup, h2.mark, h2.bound⟩)
  | get t k =>
    simp only [step, get] at hs
    repeat' split at hs
    all_goals first | (cases hs; done) | (injection hs with hs; injection hs with _ hs; subst hs; exact ⟨h2.nodup, h2.mark, h2.bound⟩)
  | wait t k =>
    simp only [step, wait] at hs
    repeat' split at hs
    all_goals first | (cases hs; done) | (injection hs with hs; injection hs with _ hs; subst hs; exact ⟨h2.nodup, h2.mark, h2.bound⟩)
  | resume t =>
    simp only [step, resume] at hs
    repeat' split at hs
    all_goals first | (cases hs; done) | (injection hs with hs; injection hs with _ hs; subst hs; exact ⟨h2.nodup, h2.mark, h2.bound⟩)
  | spurious t =>
    simp only [step, spurious] at hs
    repeat' split at hs
    all_goals first | (cases hs; done) | (injection hs with hs; injection hs with _ hs; subst hs; exact ⟨h2.nodup, h2.mark, h2.bound⟩)
  | abort t b =>
    simp only [step, abort] at hs
    repeat' split at hs
    all_goals first | (cases hs; done) | (injection hs with hs; injection hs with _ hs; subst hs; exact ⟨h2.nodup, h2.mark, h2.bound⟩)

theorem run_inv2 : ∀ {as : List Act} {s s' : State}, Inv s → Inv2 s → (∀ p q, .swap p q ∉ as) → run s as = some s' → Inv2 s'
  | [], s, s', _, hi, _, h => by injection h with h; exact h ▸ hi
  | a :: as, s, s', hi, hi2, hn, h => by
    rw [run] at h
    cases hs : step s a with
    | none => rw [hs] at h; cases h
    | some t =>
      obtain ⟨o, t⟩ := t; rw [hs] at h
      exact run_inv2 (step_inv hi hs) (step_inv2 hi hi2 (fun p q e => hn p q (by rw [e]; exact List.mem_cons_self)) hs) (fun p q e => hn p q (List.mem_cons_of_mem _ e)) h

/-- A `wait` with a token that times out or is cancelled says which of the two it was, and the thread goes on; nothing else changes, and
a `get`, which has no token, cannot end like that. -/
theorem abort_result {s s' : State} {t : Nat} {b : Bool} {o : Out} (hs : step s (.abort t b) = some (o, s')) :
    (b = true → o = .timeout) ∧ (b = false → o = .cancelled) ∧ s'.threads t = .idle ∧ s'.cells = s.cells ∧
    (∃ c w, s.threads t = .waiting c false w) ∧ ∀ u, u ≠ t → s'.threads u = s.threads u := by
  simp only [step, abort] at hs
  split at hs
  · rename_i c w e
    cases hs
    refine ⟨fun e => by rw [e]; rfl, fun e => by rw [e]; rfl, set_self _ _ _, rfl, ⟨c, w, e⟩, fun u hu => set_ne _ _ hu⟩
  · cases hs

/-- C46 for histories without `swap`: of each shared state a future is retrieved at most once, and `get_future` fails exactly when it was. Missing: `swap`, see
`get_future_swap_violated`. -/
theorem get_future_partial {as : List Act} {s : State} (hn : ∀ p q, .swap p q ∉ as) (h : run init as = some s) :
    s.futures.Nodup ∧ ∀ p x k o s', s.promises p = some x → step s (.getFuture p k) = some (o, s') →
      (o = .futureAlreadyRetrieved ↔ x.cell ∈ s.futures) ∧ (o = .none → s'.handles k = some ⟨some x.cell, false⟩) := by
  have h2 := run_inv2 init_inv init_inv2 hn h
  refine ⟨h2.nodup, fun p x k o s' hp hs => ?_⟩
  have hm := h2.mark p x hp
  simp only [step, getFuture, hp] at hs
  by_cases hr : x.retrieved = true
  · rw [if_pos hr] at hs; injection hs with hs; injection hs with ho _; subst ho
    exact ⟨⟨fun _ => hm.1 hr, fun _ => rfl⟩, fun e => (nomatch e)⟩
  · rw [if_neg hr] at hs; injection hs with hs; injection hs with ho hs; subst ho; subst hs
    exact ⟨⟨fun e => (nomatch e), fun e => absurd (hm.2 e) hr⟩, fun _ => set_self _ _ _⟩

/-- C46 refuted: the flag is not swapped. Promise 1 hands out its future and is swapped with the new promise 2; promise 2 hands out a second future of the same shared state, and
promise 1 refuses to hand out the future of its shared state, of which none was ever retrieved. -/
theorem get_future_swap_violated : ∃ s, run init [.create 1, .create 2, .getFuture 1 10, .swap 1 2, .getFuture 2 20] = some s ∧
    s.futures = [0, 0] ∧ s.promises 1 = some ⟨1, true⟩ ∧ 1 ∉ s.futures ∧ ∃ s', step s (.getFuture 1 30) = some (.futureAlreadyRetrieved, s') :=
  ⟨_, rfl, rfl, rfl, by decide, _, rfl⟩

/-! Non-vacuity. -/
example : ∃ s s', run init [.create 1, .getFuture 1 10, .wait 5 10] = some s ∧ step s (.abort 5 true) = some (.timeout, s') := ⟨_, _, rfl, rfl⟩
example : (run init [.create 1, .getFuture 1 10, .share 10 11, .get 5 11, .get 6 11, .setValue 1 42, .setValue 1 43, .setException 1 7, .resume 5, .destroy 1, .resume 6, .wait 5 11]).map
    (fun s => (s.cells 0, s.threads 5, s.threads 6, s.effects, s.promises 1)) = some (some (.value 42), .idle, .idle, [(0, .value 42)], none) := rfl
example : ∃ s s', run init [.create 1, .getFuture 1 10, .get 5 10, .destroy 1] = some s ∧ s.threads 5 = .waiting 0 true true ∧ step s (.resume 5) = some (.got .brokenPromise, s') :=
  ⟨_, _, rfl, rfl, rfl⟩

end Verif.Thread.Future
