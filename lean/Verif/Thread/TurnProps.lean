import Verif.Thread.Turn
/- Proofs about taking turns in writing. -/
namespace Verif.Thread.Turn
section
variable {α : Type}

/-- The data a call was made with. -/
def given : Phase α → List α
  | .waiting d _ => d
  | .writing d _ => d
  | .returned d => d
  | .failed d _ => d
  | .cancelled d => d

/-- What a call has written. -/
def written : Phase α → List α
  | .waiting _ _ => []
  | .writing d n => d.take n
  | .returned d => d
  | .failed d n => d.take n
  | .cancelled _ => []

def isWriting : Phase α → Bool
  | .writing _ _ => true
  | _ => false

def isSleeping : Phase α → Bool
  | .waiting _ false => true
  | _ => false

/-- Has the call ever got the right? -/
def hadTurn : Phase α → Bool
  | .waiting _ _ => false
  | .cancelled _ => false
  | _ => true

/-- The invariant. -/
structure Inv (s : St α) : Prop where
  /-- the writing calls: none while the flag is set, exactly one otherwise, the last one that got the right -/
  flag : s.allow = true → ∀ (c : Nat) (p : Phase α), s.calls[c]? = some p → isWriting p = false
  holder : s.allow = false → ∃ (pre : List Nat) (c : Nat) (d : List α) (n : Nat), s.order = pre ++ [c] ∧ s.calls[c]? = some (.writing d n) ∧ n ≤ d.length ∧
    ∀ (c' : Nat) (p : Phase α), s.calls[c']? = some p → isWriting p = true → c' = c
  sleep : s.allow = true → ∀ (c : Nat) (p : Phase α), s.calls[c]? = some p → isSleeping p = false
  nodup : s.order.Nodup
  turns : ∀ c : Nat, c ∈ s.order ↔ ∃ p, s.calls[c]? = some p ∧ hadTurn p = true
  out : s.out = (s.order.map fun c => ((s.calls[c]?).map written).getD []).flatten

theorem inv_init : Inv (init : St α) :=
  ⟨(fun _ c p h => by simp [init] at h), (fun h => nomatch h), (fun _ c p h => by simp [init] at h), List.nodup_nil,
   fun c => by simp [init], rfl⟩

theorem parts_congr (xs ys : List (Phase α)) (order : List Nat)
    (h : ∀ c ∈ order, (xs[c]?).map written = (ys[c]?).map written) :
    (order.map fun c => ((xs[c]?).map written).getD []).flatten = (order.map fun c => ((ys[c]?).map written).getD []).flatten := by
  congr 1
  apply List.map_congr_left
  intro c hc
  rw [h c hc]

/-- Setting a waiting call to another phase that has written nothing and neither writes nor had a turn. -/
theorem inv_wait (s : St α) (hi : Inv s) (c : Nat) (q : Phase α) (p : Phase α) (hc : s.calls[c]? = some p) (hp : hadTurn p = false)
    (hq : hadTurn q = false) (hs : s.allow = true → isSleeping q = false) : Inv { s with calls := s.calls.set c q } := by
  have hlt : c < s.calls.length := by
    rcases Nat.lt_or_ge c s.calls.length with h | h
    · exact h
    · rw [List.getElem?_eq_none h] at hc; cases hc
  have hqw : isWriting q = false := by cases q <;> first | rfl | (cases hq; done)
  have hco : c ∉ s.order := fun h => by
    obtain ⟨p', h1, h2⟩ := (hi.turns c).mp h
    rw [hc] at h1; cases h1; rw [hp] at h2; cases h2
  have get : ∀ c' : Nat, (s.calls.set c q)[c']? = if c' = c then some q else s.calls[c']? := by
    intro c'
    by_cases h : c' = c
    · rw [if_pos h, h, List.getElem?_set_self hlt]
    · rw [if_neg h, List.getElem?_set_ne (fun e => h e.symm)]
  refine ⟨fun ha c' p' h => ?_, fun ha => ?_, fun ha c' p' h => ?_, hi.nodup, fun c' => ?_, ?_⟩
  · simp only [get] at h
    by_cases e : c' = c
    · rw [if_pos e] at h; cases h; exact hqw
    · rw [if_neg e] at h; exact hi.flag ha c' p' h
  · obtain ⟨pre, c0, d, n, h1, h2, h3, h4⟩ := hi.holder ha
    have hne : c0 ≠ c := fun e => by rw [e, hc] at h2; cases h2; cases hp
    refine ⟨pre, c0, d, n, h1, by simp only [get]; rw [if_neg hne]; exact h2, h3, fun c' p' h hw => ?_⟩
    simp only [get] at h
    by_cases e : c' = c
    · rw [if_pos e] at h; cases h; rw [hqw] at hw; cases hw
    · rw [if_neg e] at h; exact h4 c' p' h hw
  · simp only [get] at h
    by_cases e : c' = c
    · rw [if_pos e] at h; cases h; exact hs ha
    · rw [if_neg e] at h; exact hi.sleep ha c' p' h
  · simp only [get]
    by_cases e : c' = c
    · subst e
      rw [if_pos rfl]
      refine ⟨fun h => absurd h hco, fun ⟨p', h1, h2⟩ => ?_⟩
      cases h1; rw [hq] at h2; cases h2
    · rw [if_neg e]; exact hi.turns c'
  · rw [hi.out]
    apply parts_congr
    intro c' hc'
    simp only [get]
    rw [if_neg (fun e : c' = c => hco (e ▸ hc'))]

theorem inv_tryTake (s : St α) (hi : Inv s) (c : Nat) (p : Phase α) (hc : s.calls[c]? = some p) (hp : hadTurn p = false) (d : List α) :
    Inv (tryTake s c d) := by
  unfold tryTake
  by_cases ha : s.allow = true
  · rw [if_pos ha]
    have hlt : c < s.calls.length := by
      rcases Nat.lt_or_ge c s.calls.length with h | h
      · exact h
      · rw [List.getElem?_eq_none h] at hc; cases hc
    have hco : c ∉ s.order := fun h => by
      obtain ⟨p', h1, h2⟩ := (hi.turns c).mp h
      rw [hc] at h1; cases h1; rw [hp] at h2; cases h2
    have get : ∀ c' : Nat, (s.calls.set c (.writing d 0))[c']? = if c' = c then some (.writing d 0) else s.calls[c']? := by
      intro c'
      by_cases h : c' = c
      · rw [if_pos h, h, List.getElem?_set_self hlt]
      · rw [if_neg h, List.getElem?_set_ne (fun e => h e.symm)]
    refine ⟨fun h => (nomatch h), fun _ => ⟨s.order, c, d, 0, rfl, by simp only [get, if_true], Nat.zero_le _, fun c' p' h hw => ?_⟩,
      fun h => (nomatch h), ?_, fun c' => ?_, ?_⟩
    · simp only [get] at h
      by_cases e : c' = c
      · exact e
      · rw [if_neg e] at h; rw [hi.flag ha c' p' h] at hw; cases hw
    · rw [List.nodup_append]
      exact ⟨hi.nodup, by simp, fun a ha' b hb e => hco (by rw [List.mem_singleton] at hb; rw [← hb, ← e]; exact ha')⟩
    · simp only [get, List.mem_append, List.mem_singleton]
      by_cases e : c' = c
      · subst e; rw [if_pos rfl]; exact ⟨fun _ => ⟨_, rfl, rfl⟩, fun _ => Or.inr rfl⟩
      · rw [if_neg e]
        exact ⟨fun h => (hi.turns c').mp (h.resolve_right e), fun h => Or.inl ((hi.turns c').mpr h)⟩
    · simp only [List.map_append, List.flatten_append, List.map_cons, List.map_nil, get, if_true]
      rw [hi.out]
      have : ([((some (Phase.writing d 0)).map written).getD []] : List (List α)).flatten = [] := rfl
      rw [this, List.append_nil]
      congr 1
      apply List.map_congr_left
      intro c' hc'
      rw [if_neg (fun e : c' = c => hco (e ▸ hc'))]
  · rw [if_neg ha]
    exact inv_wait s hi c _ p hc hp rfl (fun h => absurd h ha)

theorem inv_release (s : St α) (hi : Inv s) (c : Nat) (d : List α) (n : Nat) (q : Phase α) (hc : s.calls[c]? = some (.writing d n))
    (hq : isWriting q = false) (hqt : hadTurn q = true) (hw : written q = d.take n) : Inv (release s c q) := by
  unfold release
  have hlt : c < s.calls.length := by
    rcases Nat.lt_or_ge c s.calls.length with h | h
    · exact h
    · rw [List.getElem?_eq_none h] at hc; cases hc
  have hqs : isSleeping q = false := by cases q <;> first | rfl | (cases hqt; done)
  have hqn : q.notify = q := by cases q <;> first | rfl | (cases hqt; done)
  have get : ∀ c' : Nat, ((s.calls.set c q).map Phase.notify)[c']? = if c' = c then some q else (s.calls[c']?).map Phase.notify := by
    intro c'
    rw [List.getElem?_map]
    by_cases h : c' = c
    · rw [if_pos h, h, List.getElem?_set_self hlt, Option.map_some, hqn]
    · rw [if_neg h, List.getElem?_set_ne (fun e => h e.symm)]
  have hold : ∀ (c' : Nat) (p : Phase α), s.calls[c']? = some p → isWriting p = true → c' = c := by
    have ha : s.allow = false := by
      cases hal : s.allow with
      | false => rfl
      | true => have := hi.flag hal c _ hc; cases this
    obtain ⟨pre, c0, d0, n0, h1, h2, h3, h4⟩ := hi.holder ha
    intro c' p h hw'
    rw [h4 c' p h hw', h4 c _ hc rfl]
  have nW : ∀ p : Phase α, isWriting p.notify = isWriting p := fun p => by cases p <;> rfl
  have nT : ∀ p : Phase α, hadTurn p.notify = hadTurn p := fun p => by cases p <;> rfl
  have nS : ∀ p : Phase α, isSleeping p.notify = false := fun p => by cases p <;> rfl
  have nR : ∀ p : Phase α, written p.notify = written p := fun p => by cases p <;> rfl
  refine ⟨fun _ c' p' h => ?_, fun h => (nomatch h), fun _ c' p' h => ?_, hi.nodup, fun c' => ?_, ?_⟩
  · simp only [get] at h
    by_cases e : c' = c
    · rw [if_pos e] at h; cases h; exact hq
    · rw [if_neg e] at h
      obtain ⟨p0, h0, rfl⟩ := Option.map_eq_some_iff.mp h
      rw [nW]
      cases hwp : isWriting p0 with
      | false => rfl
      | true => exact absurd (hold c' p0 h0 hwp) e
  · simp only [get] at h
    by_cases e : c' = c
    · rw [if_pos e] at h; cases h; exact hqs
    · rw [if_neg e] at h
      obtain ⟨p0, h0, rfl⟩ := Option.map_eq_some_iff.mp h
      exact nS p0
  · simp only [get]
    by_cases e : c' = c
    · subst e
      rw [if_pos rfl]
      exact ⟨fun _ => ⟨q, rfl, hqt⟩, fun _ => (hi.turns c').mpr ⟨_, hc, rfl⟩⟩
    · rw [if_neg e, hi.turns c']
      constructor
      · rintro ⟨p, h1, h2⟩; exact ⟨p.notify, by rw [h1]; rfl, by rw [nT]; exact h2⟩
      · rintro ⟨p, h1, h2⟩
        obtain ⟨p0, h0, rfl⟩ := Option.map_eq_some_iff.mp h1
        exact ⟨p0, h0, by rw [nT] at h2; exact h2⟩
  · simp only []
    rw [hi.out]
    apply parts_congr
    intro c' _
    simp only [get]
    by_cases e : c' = c
    · subst e; rw [if_pos rfl, hc, Option.map_some, Option.map_some, hw]; rfl
    · rw [if_neg e, Option.map_map]
      congr 1
      funext p
      exact (nR p).symm

theorem inv_write (s : St α) (hi : Inv s) (c k : Nat) (d : List α) (n : Nat) (hc : s.calls[c]? = some (.writing d n)) (hk : n + k ≤ d.length) :
    Inv { s with calls := s.calls.set c (.writing d (n + k)), out := s.out ++ (d.drop n).take k } := by
  have hlt : c < s.calls.length := by
    rcases Nat.lt_or_ge c s.calls.length with h | h
    · exact h
    · rw [List.getElem?_eq_none h] at hc; cases hc
  have get : ∀ c' : Nat, (s.calls.set c (.writing d (n + k)))[c']? = if c' = c then some (.writing d (n + k)) else s.calls[c']? := by
    intro c'
    by_cases h : c' = c
    · rw [if_pos h, h, List.getElem?_set_self hlt]
    · rw [if_neg h, List.getElem?_set_ne (fun e => h e.symm)]
  have ha : s.allow = false := by
    cases hal : s.allow with
    | false => rfl
    | true => have := hi.flag hal c _ hc; cases this
  obtain ⟨pre, c0, d0, n0, h1, h2, h3, h4⟩ := hi.holder ha
  have hcc : c = c0 := h4 c _ hc rfl
  subst hcc
  rw [hc] at h2
  cases h2
  have hpre : c ∉ pre := fun h => by
    have := hi.nodup
    rw [h1, List.nodup_append] at this
    exact this.2.2 c h c (List.mem_singleton.mpr rfl) rfl
  refine ⟨(fun h => by simp only [ha] at h; cases h), fun _ => ⟨pre, c, d, n + k, h1, by simp only [get, if_true], hk, fun c' p' h hw => ?_⟩,
    (fun h => by simp only [ha] at h; cases h), hi.nodup, fun c' => ?_, ?_⟩
  · simp only [get] at h
    by_cases e : c' = c
    · exact e
    · rw [if_neg e] at h; exact h4 c' p' h hw
  · simp only [get]
    by_cases e : c' = c
    · subst e; rw [if_pos rfl]; exact ⟨fun _ => ⟨_, rfl, rfl⟩, fun _ => (hi.turns c').mpr ⟨_, hc, rfl⟩⟩
    · rw [if_neg e]; exact hi.turns c'
  · simp only []
    rw [hi.out, h1]
    simp only [List.map_append, List.flatten_append, List.map_cons, List.map_nil, get, if_true, hc]
    rw [List.append_assoc]
    congr 1
    · congr 1
      apply List.map_congr_left
      intro c' hc'
      rw [if_neg (fun e : c' = c => hpre (e ▸ hc'))]
    · show [d.take n].flatten ++ _ = [d.take (n + k)].flatten
      rw [List.flatten_singleton, List.flatten_singleton, List.take_add]

theorem inv_step (s s' : St α) (a : Act α) (hi : Inv s) (h : step s a = some s') : Inv s' := by
  cases a with
  | begin d =>
    simp only [step, Option.some.injEq] at h
    subst h
    have hge : ∀ (c : Nat) (p : Phase α), (s.calls ++ [Phase.waiting d false])[c]? = some p → s.calls[c]? = some p ∨ (c = s.calls.length ∧ p = .waiting d false) := by
      intro c p hp
      rcases Nat.lt_or_ge c s.calls.length with hl | hl
      · rw [List.getElem?_append_left hl] at hp; exact Or.inl hp
      · rw [List.getElem?_append_right hl] at hp
        have : c - s.calls.length = 0 := by
          rcases Nat.eq_zero_or_pos (c - s.calls.length) with h0 | h0
          · exact h0
          · rw [List.getElem?_eq_none (by simp; omega)] at hp; cases hp
        rw [this] at hp
        cases hp
        exact Or.inr ⟨by omega, rfl⟩
    have hle : ∀ (c : Nat) (p : Phase α), s.calls[c]? = some p → (s.calls ++ [Phase.waiting d false])[c]? = some p := by
      intro c p hp
      have hl : c < s.calls.length := by
        rcases Nat.lt_or_ge c s.calls.length with h | h
        · exact h
        · rw [List.getElem?_eq_none h] at hp; cases hp
      rw [List.getElem?_append_left hl]; exact hp
    -- a notified newcomer, then `tryTake`
    have hi' : Inv { s with calls := s.calls ++ [.waiting d true] } := by
      have hge' : ∀ (c : Nat) (p : Phase α), (s.calls ++ [Phase.waiting d true])[c]? = some p → s.calls[c]? = some p ∨ (c = s.calls.length ∧ p = .waiting d true) := by
        intro c p hp
        rcases Nat.lt_or_ge c s.calls.length with hl | hl
        · rw [List.getElem?_append_left hl] at hp; exact Or.inl hp
        · rw [List.getElem?_append_right hl] at hp
          have : c - s.calls.length = 0 := by
            rcases Nat.eq_zero_or_pos (c - s.calls.length) with h0 | h0
            · exact h0
            · rw [List.getElem?_eq_none (by simp; omega)] at hp; cases hp
          rw [this] at hp
          cases hp
          exact Or.inr ⟨by omega, rfl⟩
      have hle' : ∀ (c : Nat) (p : Phase α), s.calls[c]? = some p → (s.calls ++ [Phase.waiting d true])[c]? = some p := by
        intro c p hp
        have hl : c < s.calls.length := by
          rcases Nat.lt_or_ge c s.calls.length with h | h
          · exact h
          · rw [List.getElem?_eq_none h] at hp; cases hp
        rw [List.getElem?_append_left hl]; exact hp
      refine ⟨fun ha c p hp => ?_, fun ha => ?_, fun ha c p hp => ?_, hi.nodup, fun c => ?_, ?_⟩
      · rcases hge' c p hp with h | ⟨_, rfl⟩
        · exact hi.flag ha c p h
        · rfl
      · obtain ⟨pre, c0, d0, n0, h1, h2, h3, h4⟩ := hi.holder ha
        refine ⟨pre, c0, d0, n0, h1, hle' _ _ h2, h3, fun c' p' h hw => ?_⟩
        rcases hge' c' p' h with h | ⟨_, rfl⟩
        · exact h4 c' p' h hw
        · cases hw
      · rcases hge' c p hp with h | ⟨_, rfl⟩
        · exact hi.sleep ha c p h
        · rfl
      · rw [hi.turns c]
        constructor
        · rintro ⟨p, h1, h2⟩; exact ⟨p, hle' _ _ h1, h2⟩
        · rintro ⟨p, h1, h2⟩
          rcases hge' c p h1 with h | ⟨_, rfl⟩
          · exact ⟨p, h, h2⟩
          · cases h2
      · simp only []
        rw [hi.out]
        apply parts_congr
        intro c hc
        obtain ⟨p, h1, _⟩ := (hi.turns c).mp hc
        rw [h1, hle' c p h1]
    have e : tryTake { s with calls := s.calls ++ [.waiting d false] } s.calls.length d =
        tryTake { s with calls := s.calls ++ [.waiting d true] } s.calls.length d := by
      unfold tryTake
      simp only [List.set_append_right _ _ (Nat.le_refl s.calls.length), Nat.sub_self, List.set_cons_zero]
    rw [e]
    exact inv_tryTake _ hi' _ (.waiting d true) (by simp) rfl d
  | wake c =>
    simp only [step] at h
    split at h
    · rename_i d b hc
      cases h
      exact inv_tryTake s hi c _ hc rfl d
    · cases h
  | cancel c =>
    simp only [step] at h
    split at h
    · rename_i d b hc
      cases h
      exact inv_wait s hi c _ _ hc rfl rfl (fun _ => rfl)
    · cases h
  | write c k =>
    simp only [step] at h
    split at h
    · rename_i d n hc
      split at h
      · rename_i hk
        cases h
        exact inv_write s hi c k d n hc hk
      · cases h
    · cases h
  | done c =>
    simp only [step] at h
    split at h
    · rename_i d n hc
      split at h
      · rename_i hk
        cases h
        exact inv_release s hi c d n _ hc rfl rfl (by rw [hk, List.take_length]; rfl)
      · cases h
    · cases h
  | fail c =>
    simp only [step] at h
    split at h
    · rename_i d n hc
      cases h
      exact inv_release s hi c d n _ hc rfl rfl rfl
    · cases h

theorem inv_run (as : List (Act α)) : ∀ (s s' : St α), Inv s → run s as = some s' → Inv s' := by
  induction as with
  | nil => intro s s' hi h; cases h; exact hi
  | cons a as ih =>
    intro s s' hi h
    rw [run] at h
    split at h
    · cases h
    · rename_i s1 h1; exact ih s1 s' (inv_step s s1 a hi h1) h

/-- At most one call writes at a time. -/
theorem one_writer (as : List (Act α)) (s : St α) (h : run init as = some s) (c c' : Nat) (d d' : List α) (n n' : Nat)
    (hc : s.calls[c]? = some (.writing d n)) (hc' : s.calls[c']? = some (.writing d' n')) : c = c' := by
  have hi := inv_run as _ _ inv_init h
  cases ha : s.allow with
  | true => have := hi.flag ha c _ hc; cases this
  | false =>
    obtain ⟨pre, c0, d0, n0, h1, h2, h3, h4⟩ := hi.holder ha
    rw [h4 c _ hc rfl, h4 c' _ hc' rfl]

/-- The pipe below gets the data of the calls one after another, never mixed: what it has got is the concatenation, over the calls in the
order of their turns and each call once, of what each call has written: all of its data if it returned, a beginning of it if it failed or is
still writing, and nothing of calls that wait or gave up. -/
theorem writes_not_mixed (as : List (Act α)) (s : St α) (h : run init as = some s) :
    s.out = (s.order.map fun c => ((s.calls[c]?).map written).getD []).flatten ∧ s.order.Nodup ∧
    ∀ (c : Nat) (p : Phase α), s.calls[c]? = some p → (c ∈ s.order ↔ hadTurn p = true) ∧ written p <+: given p := by
  have hi := inv_run as _ _ inv_init h
  refine ⟨hi.out, hi.nodup, fun c p hp => ⟨?_, ?_⟩⟩
  · rw [hi.turns c]
    exact ⟨fun ⟨q, h1, h2⟩ => by rw [hp] at h1; cases h1; exact h2, fun h => ⟨p, hp, h⟩⟩
  · cases p with
    | waiting d b => exact List.nil_prefix
    | writing d n => exact List.take_prefix n d
    | returned d => exact List.prefix_refl d
    | failed d n => exact List.take_prefix n d
    | cancelled d => exact List.nil_prefix

/-- No wake-up is lost: a call which sleeps without a broadcast under way sleeps because another call is writing; that call will give the
right back, and whenever the right is free every waiting call that wakes up gets it. -/
theorem no_lost_turn (as : List (Act α)) (s : St α) (h : run init as = some s) (c : Nat) (d : List α) (b : Bool)
    (hc : s.calls[c]? = some (.waiting d b)) :
    (b = false → ∃ (c' : Nat) (d' : List α) (n : Nat), s.calls[c']? = some (.writing d' n)) ∧
    ((∀ (c' : Nat) (d' : List α) (n : Nat), s.calls[c']? ≠ some (.writing d' n)) →
      ∃ s', step s (.wake c) = some s' ∧ s'.calls[c]? = some (.writing d 0)) := by
  have hi := inv_run as _ _ inv_init h
  have hlt : c < s.calls.length := by
    rcases Nat.lt_or_ge c s.calls.length with h | h
    · exact h
    · rw [List.getElem?_eq_none h] at hc; cases hc
  constructor
  · intro hb
    subst hb
    cases ha : s.allow with
    | true => have := hi.sleep ha c _ hc; cases this
    | false =>
      obtain ⟨pre, c0, d0, n0, h1, h2, h3, h4⟩ := hi.holder ha
      exact ⟨c0, d0, n0, h2⟩
  · intro hno
    have ha : s.allow = true := by
      cases ha : s.allow with
      | true => rfl
      | false => obtain ⟨pre, c0, d0, n0, h1, h2, h3, h4⟩ := hi.holder ha; exact absurd h2 (hno c0 d0 n0)
    refine ⟨tryTake s c d, by simp only [step, hc], ?_⟩
    unfold tryTake
    rw [if_pos ha]
    exact List.getElem?_set_self hlt

/-- A writing call can always go on: write the rest and give the right back, upon which all waiting calls are woken. -/
theorem writer_finishes (as : List (Act α)) (s : St α) (h : run init as = some s) (c : Nat) (d : List α) (n : Nat)
    (hc : s.calls[c]? = some (.writing d n)) :
    ∃ s', run s [.write c (d.length - n), .done c] = some s' ∧ s'.calls[c]? = some (.returned d) ∧ s'.out = s.out ++ d.drop n ∧
      ∀ (c' : Nat) (d' : List α) (b : Bool), s'.calls[c']? = some (.waiting d' b) → b = true := by
  have hi := inv_run as _ _ inv_init h
  have hlt : c < s.calls.length := by
    rcases Nat.lt_or_ge c s.calls.length with h | h
    · exact h
    · rw [List.getElem?_eq_none h] at hc; cases hc
  have hn : n ≤ d.length := by
    cases ha : s.allow with
    | true => have := hi.flag ha c _ hc; cases this
    | false =>
      obtain ⟨pre, c0, d0, n0, h1, h2, h3, h4⟩ := hi.holder ha
      have := h4 c _ hc rfl
      subst this
      rw [hc] at h2; cases h2; exact h3
  have h1 : step s (.write c (d.length - n)) =
      some { s with calls := s.calls.set c (.writing d (n + (d.length - n))), out := s.out ++ (d.drop n).take (d.length - n) } := by
    simp only [step, hc]
    rw [if_pos (by omega)]
  have hl : n + (d.length - n) = d.length := by omega
  rw [hl] at h1
  have h2 : step { s with calls := s.calls.set c (.writing d d.length), out := s.out ++ (d.drop n).take (d.length - n) } (.done c) =
      some (release { s with calls := s.calls.set c (.writing d d.length), out := s.out ++ (d.drop n).take (d.length - n) } c (.returned d)) := by
    simp only [step, List.getElem?_set_self hlt, if_true]
  have h3 : run s [.write c (d.length - n), .done c] =
      some (release { s with calls := s.calls.set c (.writing d d.length), out := s.out ++ (d.drop n).take (d.length - n) } c (.returned d)) := by
    simp only [run, h1, h2]
  refine ⟨_, h3, ?_, ?_, fun c' d' b hb => ?_⟩
  · simp only [release, List.getElem?_map, List.set_set, List.getElem?_set_self hlt]
    rfl
  · simp only [release]
    rw [List.take_of_length_le (by rw [List.length_drop]; omega)]
  · simp only [release, List.getElem?_map] at hb
    obtain ⟨p, _, hp⟩ := Option.map_eq_some_iff.mp hb
    cases p <;> simp [Phase.notify] at hp
    exact hp.2

/-! ### The hypotheses are met -/

/-- Three calls: the second waits and gets its turn after the first, which wrote in two parts; the third gives up. -/
example : (run (init : St Nat) [.begin [1, 2, 3], .begin [4, 5], .write 0 2, .begin [6], .wake 1, .cancel 2, .write 0 1, .done 0, .wake 1, .write 1 1]).map
    (fun s => (s.out, s.order, s.calls)) =
    some ([1, 2, 3, 4], [0, 1], [.returned [1, 2, 3], .writing [4, 5] 1, .cancelled [6]]) := by decide

end
end Verif.Thread.Turn
