import Verif.Scope.Locks
/-
What a user of MutexLock and MutexUnlock relies on: what is done in a scope that has locked is done alone, and scopes leave the mutex as they found it.
-/
namespace Verif.Scope.Locks

/-- Critical sections do not overlap (specification): `inside` is the thread that has the mutex. -/
inductive Sections : List Ev → Option Nat → Prop
  | nil : Sections [] none
  | got {l : List Ev} (t : Nat) : Sections l none → Sections (l ++ [.got t]) (some t)
  | used {l : List Ev} (t : Nat) : Sections l (some t) → Sections (l ++ [.used t]) (some t)
  | gave {l : List Ev} (t : Nat) : Sections l (some t) → Sections (l ++ [.gave t]) none

/-- Of a list of guards, the innermost first: every unlock is in a scope that had locked. -/
def Sound : List Guard → Prop
  | [] => True
  | .lock :: gs => Sound gs
  | .unlock :: gs => gs.count .unlock < gs.count .lock ∧ Sound gs

theorem Sound.le : ∀ {gs : List Guard}, Sound gs → gs.count .unlock ≤ gs.count .lock
  | [], _ => by simp
  | .lock :: gs, h => by
    have := Sound.le (gs := gs) h
    simp
    omega
  | .unlock :: gs, h => by
    have := h.1
    simp
    omega

structure Inv (s : State) : Prop where
  sound : ∀ (t : Nat) (gs : List Guard), s.guards[t]? = some gs → Sound gs
  owner : ∀ t, s.owner = some t → ∃ gs, s.guards[t]? = some gs ∧ gs.count .lock = gs.count .unlock + s.depth ∧ 0 < s.depth
  others : ∀ (t : Nat) (gs : List Guard), s.guards[t]? = some gs → s.owner ≠ some t → gs.count .lock = gs.count .unlock
  log : Sections s.log s.owner

theorem inv_init (n : Nat) : Inv (init n) := by
  refine ⟨fun t gs h => ?_, fun t h => by simp [init] at h, fun t gs h _ => ?_, .nil⟩ <;>
  · simp only [init, List.getElem?_replicate] at h
    split at h <;> simp at h
    subst h
    first | trivial | rfl

theorem get_set {l : List (List Guard)} {t u : Nat} {gs hs : List Guard} (h : (l.set t gs)[u]? = some hs) (ht : t < l.length) : (u = t ∧ hs = gs) ∨ (u ≠ t ∧ l[u]? = some hs) := by
  by_cases he : u = t
  · subst he
    rw [List.getElem?_set_self ht] at h
    cases h
    exact .inl ⟨rfl, rfl⟩
  · rw [List.getElem?_set_ne (fun k => he k.symm)] at h
    exact .inr ⟨he, h⟩

/-- One more lock of thread `t`, in its own scope or at the end of one that had unlocked. -/
theorem inv_lock {s s' : State} {t : Nat} {gs hs : List Guard} (hi : Inv s) (hg : s.guards[t]? = some gs) (hl : lock s t = some s') (hs' : Sound hs)
    (hc : hs.count .lock + gs.count .unlock = gs.count .lock + hs.count .unlock + 1) : Inv (setGuards s' t hs) := by
  have hlt : t < s.guards.length := (List.getElem?_eq_some_iff.mp hg).1
  unfold lock at hl
  cases ho : s.owner with
  | none =>
    rw [ho] at hl
    cases hl
    have h0 := hi.others t gs hg (by rw [ho]; simp)
    refine ⟨fun u ks h => ?_, fun u h => ?_, fun u ks h hn => ?_, ?_⟩
    · rcases get_set h hlt with ⟨rfl, rfl⟩ | ⟨_, h⟩
      · exact hs'
      · exact hi.sound u ks h
    · simp only [setGuards, Option.some.injEq] at h
      subst h
      exact ⟨hs, by simp [setGuards, hlt], by simp only [setGuards]; omega, by simp [setGuards]⟩
    · rcases get_set h hlt with ⟨rfl, rfl⟩ | ⟨_, h⟩
      · exact absurd rfl hn
      · exact hi.others u ks h (by rw [ho]; simp)
    · simp only [setGuards]
      have := hi.log
      rw [ho] at this
      exact .got t this
  | some o =>
    rw [ho] at hl
    simp only at hl
    split at hl
    · next he =>
      cases hl
      subst he
      obtain ⟨gs', h1, h2, h3⟩ := hi.owner o ho
      rw [hg] at h1
      cases h1
      refine ⟨fun u ks h => ?_, fun u h => ?_, fun u ks h hn => ?_, ?_⟩
      · rcases get_set h hlt with ⟨rfl, rfl⟩ | ⟨_, h⟩
        · exact hs'
        · exact hi.sound u ks h
      · simp only [setGuards] at h
        cases h
        exact ⟨hs, by simp [setGuards, hlt], by simp only [setGuards]; omega, by simp [setGuards]⟩
      · rcases get_set h hlt with ⟨rfl, rfl⟩ | ⟨_, h⟩
        · exact absurd rfl hn
        · exact hi.others u ks h (by rw [ho]; exact hn)
      · have := hi.log
        rw [ho] at this
        exact this
    · cases hl

/-- One lock less. -/
theorem inv_unlock {s s' : State} {t : Nat} {gs hs : List Guard} (hi : Inv s) (hg : s.guards[t]? = some gs) (hl : unlock s t = some s') (hs' : Sound hs)
    (hc : hs.count .lock + gs.count .unlock + 1 = gs.count .lock + hs.count .unlock) : Inv (setGuards s' t hs) := by
  have hlt : t < s.guards.length := (List.getElem?_eq_some_iff.mp hg).1
  unfold unlock at hl
  cases ho : s.owner with
  | none => rw [ho] at hl; cases hl
  | some o =>
    rw [ho] at hl
    simp only at hl
    split at hl
    · next he =>
      subst he
      obtain ⟨gs', h1, h2, h3⟩ := hi.owner o ho
      rw [hg] at h1
      cases h1
      split at hl
      · next hd =>
        cases hl
        refine ⟨fun u ks h => ?_, fun u h => by simp [setGuards] at h, fun u ks h hn => ?_, ?_⟩
        · rcases get_set h hlt with ⟨rfl, rfl⟩ | ⟨_, h⟩
          · exact hs'
          · exact hi.sound u ks h
        · rcases get_set h hlt with ⟨rfl, rfl⟩ | ⟨hu, h⟩
          · omega
          · exact hi.others u ks h (by rw [ho]; intro k; cases k; exact hu rfl)
        · simp only [setGuards]
          have := hi.log
          rw [ho] at this
          exact .gave o this
      · next hd =>
        cases hl
        refine ⟨fun u ks h => ?_, fun u h => ?_, fun u ks h hn => ?_, ?_⟩
        · rcases get_set h hlt with ⟨rfl, rfl⟩ | ⟨_, h⟩
          · exact hs'
          · exact hi.sound u ks h
        · simp only [setGuards] at h
          cases h
          exact ⟨hs, by simp [setGuards, hlt], by simp only [setGuards]; omega, by simp only [setGuards]; omega⟩
        · rcases get_set h hlt with ⟨rfl, rfl⟩ | ⟨_, h⟩
          · exact absurd rfl hn
          · exact hi.others u ks h (by rw [ho]; exact hn)
        · have := hi.log
          rw [ho] at this
          exact this
    · cases hl

/-- A thread whose innermost guard is a lock has the mutex. -/
theorem can_unlock {s : State} {t : Nat} {gs : List Guard} (hi : Inv s) (hg : s.guards[t]? = some gs) (hp : gs.count .unlock < gs.count .lock) : s.owner = some t ∧ ∃ s', unlock s t = some s' := by
  have ho : s.owner = some t := by
    apply Decidable.byContradiction
    intro hn
    have := hi.others t gs hg hn
    omega
  refine ⟨ho, ?_⟩
  simp only [unlock, ho, if_true]
  split <;> exact ⟨_, rfl⟩

theorem inv_step {s s' : State} {a : Act} (hi : Inv s) (h : step s a = .ok s' ∨ step s a = .error s') : Inv s' := by
  cases a with
  | lock t =>
    simp only [step] at h
    cases hg : s.guards[t]? with
    | none => rw [hg] at h; simp at h
    | some gs =>
      rw [hg] at h
      simp only at h
      cases hl : lock s t with
      | none => rw [hl] at h; simp at h
      | some s1 =>
        rw [hl] at h
        simp at h
        subst h
        exact inv_lock hi hg hl (hi.sound t gs hg) (by simp; omega)
  | unlock t =>
    simp only [step] at h
    cases hg : s.guards[t]? with
    | none => rw [hg] at h; simp at h
    | some gs =>
      rw [hg] at h
      simp only at h
      cases hl : unlock s t with
      | none => rw [hl] at h; simp at h; subst h; exact hi
      | some s1 =>
        rw [hl] at h
        simp at h
        subst h
        have hp : gs.count .unlock < gs.count .lock := by
          apply Decidable.byContradiction
          intro hn
          by_cases ho : s.owner = some t
          · obtain ⟨gs', h1, h2, h3⟩ := hi.owner t ho
            rw [hg] at h1
            cases h1
            omega
          · unfold unlock at hl
            cases hoo : s.owner with
            | none => rw [hoo] at hl; cases hl
            | some o =>
              rw [hoo] at hl
              simp only at hl
              split at hl
              · next he => subst he; exact ho hoo
              · cases hl
        exact inv_unlock hi hg hl ⟨hp, hi.sound t gs hg⟩ (by simp; omega)
  | leave t =>
    simp only [step] at h
    cases hg : s.guards[t]? with
    | none => rw [hg] at h; simp at h
    | some gs =>
      rw [hg] at h
      cases gs with
      | nil => simp at h
      | cons g gs =>
        have hsd := hi.sound t _ hg
        cases g with
        | lock =>
          simp only at h
          cases hl : unlock s t with
          | none => rw [hl] at h; simp at h
          | some s1 =>
            rw [hl] at h
            simp at h
            subst h
            exact inv_unlock hi hg hl hsd (by simp; omega)
        | unlock =>
          simp only at h
          cases hl : lock s t with
          | none => rw [hl] at h; simp at h
          | some s1 =>
            rw [hl] at h
            simp at h
            subst h
            exact inv_lock hi hg hl hsd.2 (by simp; omega)
  | use t =>
    simp only [step] at h
    cases hg : s.guards[t]? with
    | none => rw [hg] at h; simp at h
    | some gs =>
      rw [hg] at h
      simp only at h
      split at h
      · next hp =>
        simp at h
        subst h
        simp only [protected_, decide_eq_true_eq] at hp
        have ho := (can_unlock hi hg hp).1
        refine ⟨hi.sound, hi.owner, hi.others, ?_⟩
        have hlog := hi.log
        simp only
        rw [ho] at hlog ⊢
        exact .used t hlog
      · simp at h; subst h; exact hi

theorem inv_run : ∀ {as : List Act} {s s' : State}, Inv s → run s as = .ok s' → Inv s'
  | [], s, s', hi, h => by simp only [run] at h; cases h; exact hi
  | a :: as, s, s', hi, h => by
    simp only [run] at h
    split at h
    · next s1 hs => exact inv_run (inv_step hi (.inl hs)) h
    · next s1 hs => exact inv_run (inv_step hi (.inr hs)) h
    · next r h1 h2 => exact absurd h (h1 s')

/-- C188.  In every interleaving of any number of threads in any nesting of scopes with MutexLock and MutexUnlock, left in any way: critical sections do not overlap; what is done in a
scope that has locked (more locks than unlocks around it) is done by the thread that has the mutex. -/
theorem sections_exclusive {n : Nat} {as : List Act} {s : State} (h : run (init n) as = .ok s) : Sections s.log s.owner := (inv_run (inv_init n) h).log

/-- C188.  The mutex is held exactly as deep as the scopes say, whatever came before: a thread with as many unlocks as locks around it does not have it; in particular one that has left
all its scopes. -/
theorem depth_exact {n : Nat} {as : List Act} {s : State} (h : run (init n) as = .ok s) {t : Nat} {gs : List Guard} (hg : s.guards[t]? = some gs) :
    (s.owner = some t → gs.count .lock = gs.count .unlock + s.depth ∧ 0 < s.depth) ∧ (s.owner ≠ some t → gs.count .lock = gs.count .unlock) := by
  have hi := inv_run (inv_init n) h
  refine ⟨fun ho => ?_, hi.others t gs hg⟩
  obtain ⟨gs', h1, h2⟩ := hi.owner t ho
  rw [hg] at h1
  cases h1
  exact h2

/-- C188.  Destructors of guards never fail: the program does not end with a fatal error. -/
theorem never_fatal {n : Nat} : ∀ (as : List Act), run (init n) as ≠ .fatal := by
  suffices H : ∀ (as : List Act) (s : State), Inv s → run s as ≠ .fatal from fun as => H as (init n) (inv_init n)
  intro as
  induction as with
  | nil => intro s _ h; simp [run] at h
  | cons a as ih =>
    intro s hi h
    simp only [run] at h
    split at h
    · next s1 hs => exact ih s1 (inv_step hi (.inl hs)) h
    · next s1 hs => exact ih s1 (inv_step hi (.inr hs)) h
    · next r h1 h2 =>
      cases a with
      | leave t =>
        simp only [step] at h
        cases hg : s.guards[t]? with
        | none => rw [hg] at h; simp at h
        | some gs =>
          rw [hg] at h
          cases gs with
          | nil => simp at h
          | cons g gs =>
            have hsd := hi.sound t _ hg
            cases g with
            | lock =>
              have hle := Sound.le (gs := gs) hsd
              obtain ⟨_, s1, he⟩ := can_unlock hi hg (by simp; omega)
              simp only [he] at h
              cases h
            | unlock =>
              simp only at h
              split at h <;> cases h
      | lock t => simp only [step] at h; split at h <;> (try split at h) <;> cases h
      | unlock t => simp only [step] at h; split at h <;> (try split at h) <;> cases h
      | use t => simp only [step] at h; split at h <;> (try split at h) <;> cases h

/-- C188.  MutexUnlock fails, changing nothing, exactly in a thread that has not locked. -/
theorem unlock_refused {n : Nat} {as : List Act} {s : State} (h : run (init n) as = .ok s) {t : Nat} {gs : List Guard} (hg : s.guards[t]? = some gs) :
    step s (.unlock t) = .error s ↔ gs.count .lock = gs.count .unlock := by
  have hi := inv_run (inv_init n) h
  simp only [step, hg]
  by_cases ho : s.owner = some t
  · obtain ⟨h1, h2⟩ := (depth_exact h hg).1 ho
    obtain ⟨_, s1, he⟩ := can_unlock hi hg (by omega)
    rw [he]
    simp
    omega
  · have h0 := hi.others t gs hg ho
    have : unlock s t = none := by
      unfold unlock
      cases hoo : s.owner with
      | none => rfl
      | some o =>
        simp only
        rw [if_neg (fun k => ho (by rw [hoo, k]))]
    rw [this]
    simp [h0]

/-- C188.  A thread waits only while another one is in a critical section: otherwise it gets the mutex, also at the end of a scope that had unlocked. -/
theorem waits_for_owner {n : Nat} {as : List Act} {s : State} (h : run (init n) as = .ok s) {t : Nat} {gs : List Guard} (hg : s.guards[t]? = some gs) (a : Act)
    (ha : a = .lock t ∨ (a = .leave t ∧ gs ≠ [])) (hno : step s a = .no) : ∃ o, o ≠ t ∧ s.owner = some o := by
  have hi := inv_run (inv_init n) h
  have key : lock s t = none → ∃ o, o ≠ t ∧ s.owner = some o := by
    intro hl
    unfold lock at hl
    cases hoo : s.owner with
    | none => rw [hoo] at hl; cases hl
    | some o =>
      rw [hoo] at hl
      simp only at hl
      split at hl
      · cases hl
      · next hne => exact ⟨o, hne, rfl⟩
  rcases ha with rfl | ⟨rfl, hne⟩
  · simp only [step, hg] at hno
    split at hno
    · next hl => exact key hl
    · cases hno
  · simp only [step, hg] at hno
    cases gs with
    | nil => exact absurd rfl hne
    | cons g gs =>
      cases g with
      | lock => simp only at hno; split at hno <;> cases hno
      | unlock =>
        simp only at hno
        split at hno
        · next hl => exact key hl
        · cases hno

/-- C188.  In a scope with MutexUnlock the mutex is free for the others, if the thread had locked it once. -/
theorem unlock_frees_partial {n : Nat} {as : List Act} {s s' : State} (h : run (init n) as = .ok s) {t : Nat} {gs : List Guard} (hg : s.guards[t]? = some gs)
    (h1 : gs.count .lock = gs.count .unlock + 1) (hs : step s (.unlock t) = .ok s') : s'.owner = none := by
  have hi := inv_run (inv_init n) h
  obtain ⟨ho, _⟩ := can_unlock hi hg (by omega)
  obtain ⟨h2, _⟩ := (depth_exact h hg).1 ho
  have hd : s.depth = 1 := by omega
  simp only [step, hg, unlock, ho, hd, if_true] at hs
  cases hs
  rfl

/-- C188 does not hold for nested locks: MutexUnlock gives back one of them, and other threads go on waiting. -/
theorem nested_unlock_violated : run (init 2) [.lock 0, .lock 0, .unlock 0] = .ok ⟨some 0, 1, [[.unlock, .lock, .lock], []], [.got 0]⟩ ∧
    step ⟨some 0, 1, [[.unlock, .lock, .lock], []], [.got 0]⟩ (.lock 1) = .no := by decide

example : run (init 2) [.lock 0, .use 0, .unlock 0, .lock 1, .use 0, .use 1, .leave 1, .leave 0, .use 0, .leave 0, .unlock 1] =
    .ok ⟨none, 0, [[], []], [.got 0, .used 0, .gave 0, .got 1, .used 1, .gave 1, .got 0, .used 0, .gave 0]⟩ := by decide

end Verif.Scope.Locks
