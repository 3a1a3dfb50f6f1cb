import Verif.Thread.SemCond

/-
Properties of `BasicConditionVariable`, property C124.
-/
namespace Verif.Thread.SemCond

/-! ## Specification -/

/-- waits for a signal: has let go of the mutex and is not woken -/
def Phase.waits : Phase → Bool
  | .blocked _ => true | _ => false

/-- owns the user's mutex -/
def Phase.owns : Phase → Bool
  | .inside => true | .counted _ => true | .returned _ => true | _ => false

/-- How many threads wait. -/
def St.waiting (s : St) : Nat := s.threads.countP Phase.waits

/-- The state is reached by some run. -/
def Reachable (s : St) : Prop := ∃ n acts, run (init n) acts = some s

/-- A step that begins a wait. -/
def Act.begins : Act → Bool
  | .wait _ _ => true | _ => false

/-! ## Invariant -/

/-- has counted itself and is not woken -/
def Phase.open : Phase → Bool
  | .counted _ => true | .blocked _ => true | _ => false

structure Inv (s : St) : Prop where
  sum : s.sem + s.count = s.threads.countP Phase.open + s.timeouts
  mutex : s.threads.countP Phase.owns = s.locked.toNat

theorem countP_set (P : Phase → Bool) : ∀ (l : List Phase) (c : Nat) (p q : Phase), l[c]? = some p →
    (l.set c q).countP P + (P p).toNat = l.countP P + (P q).toNat
  | [], _, _, _, h => by simp at h
  | x :: l, 0, p, q, h => by
    simp only [List.getElem?_cons_zero, Option.some.injEq] at h; subst h
    simp only [List.set_cons_zero, List.countP_cons]
    cases P x <;> cases P q <;> simp <;> omega
  | x :: l, c + 1, p, q, h => by
    simp only [List.getElem?_cons_succ] at h
    have := countP_set P l c p q h
    simp only [List.set_cons_succ, List.countP_cons]
    omega

theorem step_inv {s s' : St} {a : Act} (h : Inv s) (hs : step s a = some s') : Inv s' := by
  have hsum := h.sum
  have hmu := h.mutex
  have mk (t : Nat) (p q : Phase) (s1 : St) (ht : s.threads[t]? = some p) (hth : s1.threads = s.threads.set t q)
      (e1 : s1.sem + s1.count + s.timeouts + p.open.toNat = s.sem + s.count + s1.timeouts + q.open.toNat)
      (e2 : s1.locked.toNat + p.owns.toNat = s.locked.toNat + q.owns.toNat) : Inv s1 := by
    have c1 := countP_set Phase.open s.threads t p q ht
    have c2 := countP_set Phase.owns s.threads t p q ht
    constructor
    · rw [hth]; omega
    · rw [hth]; omega
  cases a with
  | lock t =>
    simp only [step] at hs
    split at hs
    · next ht =>
      cases hl : s.locked with
      | true => rw [hl, if_pos rfl] at hs; cases hs
      | false =>
        rw [hl, if_neg Bool.false_ne_true] at hs
        cases hs
        exact mk t _ .inside _ ht rfl (by simp only [St.at, Phase.open]) (by rw [hl]; rfl)
    · cases hs
  | unlock t =>
    have ow (p : Phase) (ht : s.threads[t]? = some p) (hp : p.owns = true) : s.locked = true := by
      have : 0 < s.threads.countP Phase.owns := List.countP_pos_iff.mpr ⟨p, List.mem_of_getElem? ht, hp⟩
      cases hl : s.locked
      · rw [hl, Bool.toNat_false] at hmu; omega
      · rfl
    simp only [step] at hs
    split at hs
    · next ht =>
      cases hs
      exact mk t _ .out _ ht rfl (by simp only [St.at, Phase.open]) (by rw [ow _ ht rfl]; rfl)
    · next ht =>
      cases hs
      exact mk t _ .out _ ht rfl (by simp only [St.at, Phase.open]) (by rw [ow _ ht rfl]; rfl)
    · cases hs
  | wait t timed =>
    simp only [step] at hs
    split at hs
    · next ht =>
      cases hs
      exact mk t _ (.counted timed) _ ht rfl (by simp only [St.at, Phase.open, Bool.toNat_true, Bool.toNat_false]; omega) rfl
    · next ht =>
      cases hs
      exact mk t _ (.counted timed) _ ht rfl (by simp only [St.at, Phase.open, Bool.toNat_true, Bool.toNat_false]; omega) rfl
    · cases hs
  | letGo t =>
    simp only [step] at hs
    split at hs
    · next timed ht =>
      cases hs
      have hl : s.locked = true := by
        have : 0 < s.threads.countP Phase.owns := List.countP_pos_iff.mpr ⟨_, List.mem_of_getElem? ht, rfl⟩
        cases hl : s.locked
        · rw [hl, Bool.toNat_false] at hmu; omega
        · rfl
      exact mk t _ (.blocked timed) _ ht rfl (by simp only [St.at, Phase.open]) (by rw [hl]; rfl)
    · cases hs
  | wake t =>
    simp only [step] at hs
    split at hs
    · next timed ht =>
      by_cases hz : s.sem = 0
      · rw [if_pos hz] at hs; cases hs
      · rw [if_neg hz] at hs
        cases hs
        exact mk t _ (.woken true) _ ht rfl (by simp only [St.at, Phase.open, Bool.toNat_true, Bool.toNat_false]; omega) rfl
    · cases hs
  | timeout t =>
    simp only [step] at hs
    split at hs
    · next ht =>
      cases hs
      exact mk t _ (.woken false) _ ht rfl (by simp only [St.at, Phase.open, Bool.toNat_true, Bool.toNat_false]; omega) rfl
    · cases hs
  | relock t =>
    simp only [step] at hs
    split at hs
    · next res ht =>
      cases hl : s.locked with
      | true => rw [hl, if_pos rfl] at hs; cases hs
      | false =>
        rw [hl, if_neg Bool.false_ne_true] at hs
        cases hs
        exact mk t _ (.returned res) _ ht rfl (by simp only [St.at, Phase.open]) (by rw [hl]; rfl)
    · cases hs
  | signal =>
    simp only [step, Option.some.injEq] at hs
    subst hs
    by_cases hz : s.count = 0
    · rw [if_pos hz]; exact h
    · rw [if_neg hz]
      exact ⟨show s.sem + 1 + (s.count - 1) = s.threads.countP Phase.open + s.timeouts by omega, hmu⟩
  | broadcast =>
    cases hs
    exact ⟨show s.sem + s.count + 0 = s.threads.countP Phase.open + s.timeouts by omega, hmu⟩

theorem run_inv {s s' : St} {acts : List Act} (h : Inv s) (hr : run s acts = some s') : Inv s' := by
  induction acts generalizing s with
  | nil => cases hr; exact h
  | cons a as ih =>
    simp only [run] at hr
    cases hs : step s a with
    | none => rw [hs] at hr; cases hr
    | some s1 => rw [hs] at hr; exact ih (step_inv h hs) hr

theorem init_inv (n : Nat) : Inv (init n) := by
  constructor
  · simp only [init]
    rw [List.countP_eq_zero.mpr (fun p hp => by rw [List.eq_of_mem_replicate hp]; decide)]
  · simp only [init]
    rw [List.countP_eq_zero.mpr (fun p hp => by rw [List.eq_of_mem_replicate hp]; decide)]
    rfl

theorem Reachable.inv {s : St} (h : Reachable s) : Inv s := by
  obtain ⟨n, acts, hr⟩ := h
  exact run_inv (init_inv n) hr

theorem waits_le_open (l : List Phase) : l.countP Phase.waits ≤ l.countP Phase.open := by
  refine List.countP_mono_left fun p _ hp => ?_
  cases p <;> first | rfl | (cases hp; done)

/-! ## C124 -/

/-- C124: the user's mutex is owned by one thread at most, also by threads that come back from a wait: whoever has returned from a wait
owns it, and nobody else does. -/
theorem cond_mutex {s : St} (h : Reachable s) {t u : Nat} {p q : Phase} (ht : s.threads[t]? = some p) (hu : s.threads[u]? = some q)
    (hp : p.owns = true) (hq : q.owns = true) : t = u ∧ s.locked = true := by
  have hi := h.inv.mutex
  have hl : s.locked = true := by
    have : 0 < s.threads.countP Phase.owns := List.countP_pos_iff.mpr ⟨p, List.mem_of_getElem? ht, hp⟩
    cases hl : s.locked
    · rw [hl, Bool.toNat_false] at hi; omega
    · rfl
  refine ⟨?_, hl⟩
  rw [hl] at hi
  by_cases hne : t = u
  · exact hne
  · exfalso
    have c := countP_set Phase.owns s.threads t p .out ht
    have hu' : (s.threads.set t .out)[u]? = some q := by rw [List.getElem?_set_ne hne]; exact hu
    have : 0 < (s.threads.set t .out).countP Phase.owns := List.countP_pos_iff.mpr ⟨q, List.mem_of_getElem? hu', hq⟩
    rw [hp, hi, show Phase.out.owns = false from rfl] at c
    simp only [Bool.toNat_true, Bool.toNat_false] at c
    omega

/-- C124: no signal is lost: after a `Signal` with threads waiting, at least one more thread than before can go through (or all can); in
particular some waiting thread can. -/
theorem cond_signal {s s' : St} (h : Reachable s) (hs : step s .signal = some s') :
    s'.threads = s.threads ∧ min (s.sem + 1) s.waiting ≤ s'.sem := by
  have hi := h.inv.sum
  have hw := waits_le_open s.threads
  simp only [step, Option.some.injEq] at hs
  by_cases hz : s.count = 0
  · rw [if_pos hz] at hs; subst hs
    refine ⟨rfl, ?_⟩
    simp only [St.waiting]; omega
  · rw [if_neg hz] at hs; subst hs
    exact ⟨rfl, Nat.min_le_left _ _⟩

/-- C124: after `Broadcast`, every thread that waits can go through. -/
theorem cond_broadcast {s s' : St} (h : Reachable s) (hs : step s .broadcast = some s') : s'.threads = s.threads ∧ s.waiting ≤ s'.sem := by
  have hi := h.inv.sum
  have hw := waits_le_open s.threads
  cases hs
  refine ⟨rfl, ?_⟩
  show s.threads.countP Phase.waits ≤ s.sem + s.count
  omega

/-- C124: the check of the condition and the wait are atomic: a thread that has counted itself while it owned the mutex is not missed by a
broadcast that comes before it has let go of the mutex, nor by one after it: once it waits, it can go through. -/
theorem cond_no_gap {s s1 s2 : St} (h : Reachable s) {t : Nat} {timed : Bool} (ht : s.threads[t]? = some (.counted timed))
    (h1 : step s .broadcast = some s1) (h2 : step s1 (.letGo t) = some s2) : ∃ s3, step s2 (.wake t) = some s3 := by
  have hi := h.inv.sum
  have hlt : t < s.threads.length := by
    rcases Nat.lt_or_ge t s.threads.length with q | q
    · exact q
    · rw [List.getElem?_eq_none q] at ht; cases ht
  cases h1
  simp only [step, ht] at h2
  cases h2
  have hpos : 0 < s.sem + s.count := by
    have : 0 < s.threads.countP Phase.open := List.countP_pos_iff.mpr ⟨_, List.mem_of_getElem? ht, rfl⟩
    omega
  refine ⟨{ s with sem := s.sem + s.count - 1, count := 0, locked := false, threads := (s.threads.set t (.blocked timed)).set t (.woken true) }, ?_⟩
  simp only [step, St.at, List.getElem?_set_self hlt]
  exact if_neg (by omega)

/-- As long as nobody begins to wait, enough is left for those who wait. -/
theorem enough_step {s s' : St} {a : Act} (hw : s.threads.countP Phase.open ≤ s.sem) (ha : a.begins = false) (hs : step s a = some s') :
    s'.threads.countP Phase.open ≤ s'.sem := by
  have mk (t : Nat) (p q : Phase) (s1 : St) (ht : s.threads[t]? = some p) (hth : s1.threads = s.threads.set t q)
      (e : s.sem + q.open.toNat ≤ s1.sem + p.open.toNat) : s1.threads.countP Phase.open ≤ s1.sem := by
    have c1 := countP_set Phase.open s.threads t p q ht
    rw [hth]; omega
  cases a with
  | lock t =>
    simp only [step] at hs
    split at hs
    · next ht =>
      cases hl : s.locked with
      | true => rw [hl, if_pos rfl] at hs; cases hs
      | false => rw [hl, if_neg Bool.false_ne_true] at hs; cases hs; exact mk t _ .inside _ ht rfl (Nat.le_refl _)
    · cases hs
  | unlock t =>
    simp only [step] at hs
    split at hs
    · next ht => cases hs; exact mk t _ .out _ ht rfl (Nat.le_refl _)
    · next ht => cases hs; exact mk t _ .out _ ht rfl (Nat.le_refl _)
    · cases hs
  | wait t timed => cases ha
  | letGo t =>
    simp only [step] at hs
    split at hs
    · next timed ht => cases hs; exact mk t _ (.blocked timed) _ ht rfl (Nat.le_refl _)
    · cases hs
  | wake t =>
    simp only [step] at hs
    split at hs
    · next timed ht =>
      by_cases hz : s.sem = 0
      · rw [if_pos hz] at hs; cases hs
      · rw [if_neg hz] at hs; cases hs
        exact mk t _ (.woken true) _ ht rfl (by simp only [St.at, Phase.open, Bool.toNat_true, Bool.toNat_false]; omega)
    · cases hs
  | timeout t =>
    simp only [step] at hs
    split at hs
    · next ht => cases hs; exact mk t _ (.woken false) _ ht rfl (by simp only [St.at, Phase.open, Bool.toNat_true, Bool.toNat_false]; omega)
    · cases hs
  | relock t =>
    simp only [step] at hs
    split at hs
    · next res ht =>
      cases hl : s.locked with
      | true => rw [hl, if_pos rfl] at hs; cases hs
      | false => rw [hl, if_neg Bool.false_ne_true] at hs; cases hs; exact mk t _ (.returned res) _ ht rfl (Nat.le_refl _)
    · cases hs
  | signal =>
    simp only [step, Option.some.injEq] at hs
    subst hs
    split
    · exact hw
    · show s.threads.countP Phase.open ≤ s.sem + 1; omega
  | broadcast =>
    cases hs
    show s.threads.countP Phase.open ≤ s.sem + s.count; omega

/-- C124, the part that holds: after a broadcast, as long as no thread begins a new wait, every thread that waits can go through at any
moment, whatever else happens. -/
theorem cond_broadcast_partial {s s1 s2 : St} (h : Reachable s) (hb : step s .broadcast = some s1) {acts : List Act}
    (hacts : ∀ a ∈ acts, a.begins = false) (hr : run s1 acts = some s2) {t : Nat} {timed : Bool} (ht : s2.threads[t]? = some (.blocked timed)) :
    ∃ s3, step s2 (.wake t) = some s3 := by
  have h1 : s1.threads.countP Phase.open ≤ s1.sem := by
    have := h.inv.sum
    cases hb
    show s.threads.countP Phase.open ≤ s.sem + s.count
    omega
  have aux : ∀ (acts : List Act) (s1 : St), s1.threads.countP Phase.open ≤ s1.sem → (∀ a ∈ acts, a.begins = false) → run s1 acts = some s2 →
      s2.threads.countP Phase.open ≤ s2.sem := by
    intro acts
    induction acts with
    | nil => intro s1 h1 _ hr; cases hr; exact h1
    | cons a as ih =>
      intro s1 h1 ha hr
      simp only [run] at hr
      cases hs : step s1 a with
      | none => rw [hs] at hr; cases hr
      | some s' =>
        rw [hs] at hr
        exact ih s' (enough_step h1 (ha a (by simp)) hs) (fun b hb => ha b (by simp [hb])) hr
  have h2 := aux acts s1 h1 hacts hr
  have hpos : 0 < s2.threads.countP Phase.open := List.countP_pos_iff.mpr ⟨_, List.mem_of_getElem? ht, rfl⟩
  refine ⟨{ s2 with sem := s2.sem - 1, threads := s2.threads.set t (.woken true) }, ?_⟩
  simp only [step, ht]
  exact if_neg (by omega)

/-- Only a new signal lets a thread through a semaphore at 0, when nobody can time out. -/
theorem stuck_step {s s' : St} {a : Act} {t : Nat} (ht : s.threads[t]? = some (.blocked false)) (hz : s.sem = 0) (h1 : a ≠ .signal) (h2 : a ≠ .broadcast)
    (hs : step s a = some s') : s'.threads[t]? = some (.blocked false) ∧ s'.sem = 0 := by
  have mk (u : Nat) (p q : Phase) (s1 : St) (hu : s.threads[u]? = some p) (hp : p ≠ .blocked false) (hth : s1.threads = s.threads.set u q)
      (e : s1.sem = s.sem) : s1.threads[t]? = some (.blocked false) ∧ s1.sem = 0 := by
    refine ⟨?_, by rw [e]; exact hz⟩
    have hne : u ≠ t := by
      intro e; subst e; rw [ht] at hu; exact hp (Option.some.inj hu).symm
    rw [hth, List.getElem?_set_ne hne]; exact ht
  cases a with
  | lock u =>
    simp only [step] at hs
    split at hs
    · next hu =>
      cases hl : s.locked with
      | true => rw [hl, if_pos rfl] at hs; cases hs
      | false => rw [hl, if_neg Bool.false_ne_true] at hs; cases hs; exact mk u _ .inside _ hu (fun e => nomatch e) rfl rfl
    · cases hs
  | unlock u =>
    simp only [step] at hs
    split at hs
    · next hu => cases hs; exact mk u _ .out _ hu (fun e => nomatch e) rfl rfl
    · next hu => cases hs; exact mk u _ .out _ hu (fun e => nomatch e) rfl rfl
    · cases hs
  | wait u timed =>
    simp only [step] at hs
    split at hs
    · next hu => cases hs; exact mk u _ (.counted timed) _ hu (fun e => nomatch e) rfl rfl
    · next hu => cases hs; exact mk u _ (.counted timed) _ hu (fun e => nomatch e) rfl rfl
    · cases hs
  | letGo u =>
    simp only [step] at hs
    split at hs
    · next timed hu => cases hs; exact mk u _ (.blocked timed) _ hu (fun e => nomatch e) rfl rfl
    · cases hs
  | wake u =>
    simp only [step] at hs
    split at hs
    · rw [if_pos hz] at hs; cases hs
    · cases hs
  | timeout u =>
    simp only [step] at hs
    split at hs
    · next hu => cases hs; exact mk u _ (.woken false) _ hu (fun e => nomatch e) rfl rfl
    · cases hs
  | relock u =>
    simp only [step] at hs
    split at hs
    · next res hu =>
      cases hl : s.locked with
      | true => rw [hl, if_pos rfl] at hs; cases hs
      | false => rw [hl, if_neg Bool.false_ne_true] at hs; cases hs; exact mk u _ (.returned res) _ hu (fun e => nomatch e) rfl rfl
    · cases hs
  | signal => exact absurd rfl h1
  | broadcast => exact absurd rfl h2

/-- C124 does not hold in full: a thread that begins to wait after a broadcast can take the wake-up of one that waited before it, which
then goes on waiting: it cannot return, whatever the others do, until there is another signal. -/
theorem cond_broadcast_violated : ∃ acts1 acts2 : List Act, ∃ s1 s2 s3 : St,
    run (init 2) acts1 = some s1 ∧ s1.threads[0]? = some (.blocked false) ∧
    step s1 .broadcast = some s2 ∧ (∀ a ∈ acts2, a ≠ .signal ∧ a ≠ .broadcast) ∧ run s2 acts2 = some s3 ∧
    s3.threads[1]? = some (.returned true) ∧ s3.threads[0]? = some (.blocked false) ∧
    ∀ (acts : List Act) (s4 : St), (∀ a ∈ acts, a ≠ .signal ∧ a ≠ .broadcast) → run s3 acts = some s4 → s4.threads[0]? = some (.blocked false) := by
  refine ⟨[.lock 0, .wait 0 false, .letGo 0], [.lock 1, .wait 1 false, .letGo 1, .wake 1, .relock 1], _, _, _,
    rfl, rfl, rfl, by decide, rfl, rfl, rfl, ?_⟩
  intro acts s4 ha hr
  have aux : ∀ (acts : List Act) (s : St), s.threads[0]? = some (.blocked false) → s.sem = 0 → (∀ a ∈ acts, a ≠ .signal ∧ a ≠ .broadcast) →
      run s acts = some s4 → s4.threads[0]? = some (.blocked false) := by
    intro acts
    induction acts with
    | nil => intro s h _ _ hr; cases hr; exact h
    | cons a as ih =>
      intro s h hz ha hr
      simp only [run] at hr
      cases hs : step s a with
      | none => rw [hs] at hr; cases hr
      | some s' =>
        rw [hs] at hr
        obtain ⟨h', hz'⟩ := stuck_step h hz (ha a (by simp)).1 (ha a (by simp)).2 hs
        exact ih s' h' hz' (fun b hb => ha b (by simp [hb])) hr
  exact aux acts _ rfl rfl ha hr

/-- C124: without timeouts nothing is left over: when nobody waits (or has begun to), a signal is forgotten and a later wait is not ended by it. -/
theorem cond_forgets {s : St} (h : Reachable s) (hto : s.timeouts = 0) (hn : s.threads.countP Phase.open = 0) :
    s.sem = 0 ∧ s.count = 0 := by
  have := h.inv.sum
  omega

/-- C124 does not hold in full: a wait that has timed out stays counted, so that a later signal, given while nobody waits, ends a wait that
begins after it. -/
theorem cond_forgets_violated : ∃ acts : List Act, ∃ s s1 s2 : St,
    run (init 1) acts = some s ∧ s.waiting = 0 ∧ s.threads[0]? = some .out ∧
    step s .signal = some s1 ∧ run s1 [.lock 0, .wait 0 false, .letGo 0, .wake 0, .relock 0] = some s2 ∧ s2.threads[0]? = some (.returned true) :=
  ⟨[.lock 0, .wait 0 true, .letGo 0, .timeout 0, .relock 0, .unlock 0], _, _, _, rfl, rfl, rfl, rfl, rfl, rfl⟩

/-- Two threads wait, a signal lets one go, a second the other. -/
example : (run (init 3) [.lock 0, .wait 0 false, .letGo 0, .lock 1, .wait 1 false, .letGo 1, .lock 2, .signal, .unlock 2, .wake 1, .relock 1, .unlock 1,
    .signal, .wake 0, .relock 0]).map (fun s => (s.threads, s.sem, s.count)) = some ([.returned true, .out, .out], 0, 0) := by decide +kernel
/-- without a signal nobody goes -/
example : run (init 2) [.lock 0, .wait 0 false, .letGo 0, .wake 0] = none := by decide +kernel

end Verif.Thread.SemCond
