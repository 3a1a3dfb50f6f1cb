import Verif.Token.Pool

namespace Verif.Token

namespace Spec

/-- All states the pool can be in. -/
def Reachable (cleanup : Nat → List Op) (s : St) : Prop := ∃ n as, run cleanup (init n) as = some s

/-- The tokens added so far. -/
def added (log : List Ev) : List Nat := log.filterMap (fun e => match e with | .added _ t => some t | _ => none)

/-- The tokens destroyed so far. -/
def destroyed (log : List Ev) : List Nat := log.filterMap (fun e => match e with | .destroyed t => some t | _ => none)

/-- A release of everything, or of exactly this key. -/
def covers (s : Option Nat) (k : Nat) : Bool := s.isNone || s == some k

/-- The tokens that were added and not taken by a later release, with their keys. -/
def kept : List Ev → List (Nat × Nat)
  | [] => []
  | .added k t :: later => (if later.any (fun e => match e with | .taken s => covers s k | _ => false) then [] else [(k, t)]) ++ kept later
  | _ :: later => kept later

/-- A frame that waits for the lock. -/
def Wants : Frame → Prop
  | .addWant _ _ => True
  | .relWant _ => True
  | _ => False

/-- A frame inside `release`. -/
def Releasing : Frame → Prop
  | .relWant _ => True
  | .relHeld _ => True
  | .relUnlock _ => True
  | .relDrop _ => True
  | _ => False

end Spec

open Spec

/-- Frames that hold the lock. -/
def holds : Frame → Bool
  | .addHeld _ _ => true
  | .addUnlock => true
  | .relHeld _ => true
  | .relUnlock _ => true
  | _ => false

/-- Frames that may have other frames above them. -/
def passive : Frame → Bool
  | .code _ => true
  | .relDrop _ => true
  | _ => false

/-- Tokens taken from the pool and not yet destroyed. -/
def local' : Frame → List Nat
  | .relUnlock l => l
  | .relDrop l => l
  | _ => []

def flight (st : List Frame) : List Nat := st.flatMap local'

def topHolds : List Frame → Bool
  | f :: _ => holds f
  | [] => false

structure Inv (s : St) : Prop where
  mutex : ∀ (i : Nat) (st : List Frame), s.threads[i]? = some st → (topHolds st = true ↔ s.lock = some i)
  valid : ∀ i, s.lock = some i → i < s.threads.length
  below : ∀ (i : Nat) (f : Frame) (rest : List Frame), s.threads[i]? = some (f :: rest) → ∀ g ∈ rest, passive g = true
  count : ∀ t, (added s.log).count t = (s.pool.map (·.2)).count t + (s.threads.flatMap flight).count t + (destroyed s.log).count t
  replay : s.pool = kept s.log

theorem takes_covers (s : Option Nat) (k : Nat) : covers s k = takes s k := by
  cases s with
  | none => rfl
  | some x =>
    unfold covers takes
    by_cases h : x = k <;> simp [h]

theorem kept_append_added (log : List Ev) (k t : Nat) : kept (log ++ [.added k t]) = kept log ++ [(k, t)] := by
  induction log with
  | nil => rfl
  | cons e log ih =>
    cases e with
    | added k' t' => simp only [List.cons_append, kept, ih, List.any_append, List.any_cons, List.any_nil, Bool.or_false, List.append_assoc]
    | taken s => exact ih
    | destroyed t' => exact ih

theorem kept_append_destroyed (log : List Ev) (t : Nat) : kept (log ++ [.destroyed t]) = kept log := by
  induction log with
  | nil => rfl
  | cons e log ih =>
    cases e with
    | added k' t' => simp only [List.cons_append, kept, ih, List.any_append, List.any_cons, List.any_nil, Bool.or_false]
    | taken s => exact ih
    | destroyed t' => exact ih

theorem kept_append_taken (log : List Ev) (sel : Option Nat) : kept (log ++ [.taken sel]) = (kept log).filter (fun x => !takes sel x.1) := by
  induction log with
  | nil => rfl
  | cons e log ih =>
    cases e with
    | added k' t' =>
      simp only [List.cons_append, kept, ih, List.any_append, List.any_cons, List.any_nil, Bool.or_false, takes_covers]
      cases (log.any fun e => match e with | .taken s => takes s k' | _ => false) <;> cases h : takes sel k' <;> simp [h]
    | taken s => exact ih
    | destroyed t' => exact ih

theorem count_set {α : Type} (f : α → List Nat) (t : Nat) (x old : α) : ∀ (l : List α) (i : Nat), l[i]? = some old →
    ((l.set i x).flatMap f).count t + (f old).count t = (l.flatMap f).count t + (f x).count t
  | [], i, h => by simp at h
  | a :: l, 0, h => by
    simp only [List.getElem?_cons_zero, Option.some.injEq] at h
    subst h
    simp only [List.set_cons_zero, List.flatMap_cons, List.count_append]; omega
  | a :: l, i + 1, h => by
    simp only [List.getElem?_cons_succ] at h
    have := count_set f t x old l i h
    simp only [List.set_cons_succ, List.flatMap_cons, List.count_append]; omega

theorem count_split (p : Nat × Nat → Bool) (t : Nat) (l : List (Nat × Nat)) :
    (l.map (·.2)).count t = ((l.filter (fun x => !p x)).map (·.2)).count t + ((l.filter p).map (·.2)).count t := by
  induction l with
  | nil => rfl
  | cons a l ih =>
    cases h : p a <;> simp [h, List.count_cons, ih] <;> omega

theorem inv_init (n : Nat) : Inv (init n) := by
  have e : ∀ (i : Nat) (st : List Frame), (List.replicate n ([] : List Frame))[i]? = some st → st = [] := by
    intro i st h
    exact (List.eq_of_mem_replicate (List.mem_of_getElem? h))
  refine ⟨?_, fun i h => (nomatch h), ?_, ?_, rfl⟩
  · intro i st h
    rw [e i st h]
    simp [topHolds, init]
  · intro i f rest h
    exact nomatch e i _ h
  · intro t
    have : (List.replicate n ([] : List Frame)).flatMap flight = [] := by
      rw [List.flatMap_eq_nil_iff]
      intro x hx
      rw [List.eq_of_mem_replicate hx]; rfl
    simp [init, added, destroyed, this]

/-- A step of one thread keeps the invariant if its new stack is consistent with the new lock. -/
theorem inv_update {s : St} (h : Inv s) {i : Nat} {old new : List Frame} {lock : Option Nat} {pool : List (Nat × Nat)} {log : List Ev} (ho : s.threads[i]? = some old)
    (hl : (lock = s.lock ∧ topHolds new = topHolds old) ∨ (s.lock = none ∧ lock = some i ∧ topHolds new = true) ∨ (s.lock = some i ∧ lock = none ∧ topHolds new = false))
    (hb : ∀ f rest, new = f :: rest → ∀ g ∈ rest, passive g = true)
    (hc : ∀ t, (added log).count t + (s.pool.map (·.2)).count t + (flight old).count t + (destroyed s.log).count t =
      (added s.log).count t + (pool.map (·.2)).count t + (flight new).count t + (destroyed log).count t)
    (hr : pool = kept log) : Inv ⟨lock, pool, s.threads.set i new, log⟩ := by
  have hi : i < s.threads.length := by
    rcases Nat.lt_or_ge i s.threads.length with h1 | h1
    · exact h1
    · rw [List.getElem?_eq_none h1] at ho; cases ho
  have mi := h.mutex i old ho
  refine ⟨?_, ?_, ?_, ?_, hr⟩
  · intro j st hj
    simp only [] at hj ⊢
    by_cases e : i = j
    · subst e
      rw [List.getElem?_set_self hi] at hj
      injection hj with hj
      subst hj
      rcases hl with ⟨h1, h2⟩ | ⟨h1, h2, h3⟩ | ⟨h1, h2, h3⟩
      · rw [h2, h1]; exact mi
      · rw [h2, h3]; simp
      · rw [h2, h3]; simp
    · rw [List.getElem?_set_ne e] at hj
      have mj := h.mutex j st hj
      rcases hl with ⟨h1, h2⟩ | ⟨h1, h2, h3⟩ | ⟨h1, h2, h3⟩
      · rw [h1]; exact mj
      · rw [h2, mj, h1]; simp [e]
      · rw [h2, mj, h1]; simp [e]
  · intro j hj
    simp only [List.length_set] at hj ⊢
    rcases hl with ⟨h1, h2⟩ | ⟨h1, h2, h3⟩ | ⟨h1, h2, h3⟩
    · rw [h1] at hj; exact h.valid j hj
    · rw [h2] at hj; cases hj; exact hi
    · rw [h2] at hj; cases hj
  · intro j f rest hj
    simp only [] at hj
    by_cases e : i = j
    · subst e
      rw [List.getElem?_set_self hi] at hj
      injection hj with hj
      exact hb f rest hj
    · rw [List.getElem?_set_ne e] at hj
      exact h.below j f rest hj
  · intro t
    simp only []
    have h1 := h.count t
    have h2 := count_set flight t new old s.threads i ho
    have h3 := hc t
    omega

theorem added_append (a b : List Ev) : added (a ++ b) = added a ++ added b := List.filterMap_append
theorem destroyed_append (a b : List Ev) : destroyed (a ++ b) = destroyed a ++ destroyed b := List.filterMap_append

theorem inv_frame {cleanup : Nat → List Op} {s s' : St} (h : Inv s) {i : Nat} {f : Frame} {rest : List Frame} (ho : s.threads[i]? = some (f :: rest))
    (hs : frameStep cleanup s i f rest = some s') : Inv s' := by
  have hb := h.below i f rest ho
  have hm := h.mutex i _ ho
  have hpass : topHolds rest = false := by
    cases rest with
    | nil => rfl
    | cons g l =>
      have := hb g List.mem_cons_self
      cases g <;> first | rfl | cases this
  have hrest : ∀ f' r, rest = f' :: r → ∀ g ∈ r, passive g = true := by
    intro f' r e g hg
    exact hb g (by rw [e]; exact List.mem_cons_of_mem _ hg)
  have hsame : ∀ (f' : Frame) (g' : Frame) (r : List Frame), f' :: rest = g' :: r → ∀ g ∈ r, passive g = true := by
    intro f' g' r e g hg
    rw [← (List.cons.inj e).2] at hg
    exact hb g hg
  cases f with
  | code ops =>
    cases ops with
    | nil =>
      cases hs
      exact inv_update h ho (.inl ⟨rfl, hpass⟩) hrest (fun t => by simp [flight, local']) h.replay
    | cons op ops =>
      cases hs
      refine inv_update h ho (.inl ⟨rfl, ?_⟩) ?_ (fun t => ?_) h.replay
      · cases op <;> rfl
      · intro f' r e g hg
        rw [← (List.cons.inj e).2] at hg
        rcases List.mem_cons.mp hg with e2 | e2
        · rw [e2]; rfl
        · exact hb g e2
      · cases op <;> simp [flight, local', Op.frame]
  | addWant k t =>
    unfold frameStep at hs
    by_cases hl : s.lock = none
    · simp only [hl, if_true] at hs
      cases hs
      exact inv_update h ho (.inr (.inl ⟨hl, rfl, rfl⟩)) (hsame _) (fun t => by simp [flight, local']) h.replay
    · simp only [hl, if_false] at hs; cases hs
  | addHeld k t =>
    cases hs
    refine inv_update h ho (.inl ⟨rfl, rfl⟩) (hsame _) (fun t' => ?_) ?_
    · rw [added_append, destroyed_append]
      simp only [flight, local', List.map_append, List.map_cons, List.map_nil, List.count_append, List.flatMap_cons, List.nil_append, added, destroyed, List.filterMap_cons, List.filterMap_nil, List.count_nil]
      omega
    · rw [kept_append_added, h.replay]
  | addUnlock =>
    cases hs
    exact inv_update h ho (.inr (.inr ⟨hm.mp rfl, rfl, hpass⟩)) hrest (fun t => by simp [flight, local']) h.replay
  | relWant k =>
    unfold frameStep at hs
    by_cases hl : s.lock = none
    · simp only [hl, if_true] at hs
      cases hs
      exact inv_update h ho (.inr (.inl ⟨hl, rfl, rfl⟩)) (hsame _) (fun t => by simp [flight, local']) h.replay
    · simp only [hl, if_false] at hs; cases hs
  | relHeld k =>
    cases hs
    refine inv_update h ho (.inl ⟨rfl, rfl⟩) (hsame _) (fun t' => ?_) ?_
    · rw [added_append, destroyed_append]
      have := count_split (fun x => takes k x.1) t' s.pool
      simp only [flight, local', List.count_append, List.flatMap_cons, List.nil_append, added, destroyed, List.filterMap_cons, List.filterMap_nil, List.append_nil] at this ⊢
      omega
    · rw [kept_append_taken, h.replay]
  | relUnlock l =>
    cases hs
    exact inv_update h ho (.inr (.inr ⟨hm.mp rfl, rfl, rfl⟩)) (hsame _) (fun t => by simp [flight, local']) h.replay
  | relDrop l =>
    cases l with
    | nil =>
      cases hs
      exact inv_update h ho (.inl ⟨rfl, hpass⟩) hrest (fun t => by simp [flight, local']) h.replay
    | cons t l =>
      cases hs
      refine inv_update h ho (.inl ⟨rfl, rfl⟩) ?_ (fun t' => ?_) ?_
      · intro f' r e g hg
        rw [← (List.cons.inj e).2] at hg
        rcases List.mem_cons.mp hg with e2 | e2
        · rw [e2]; rfl
        · exact hb g e2
      · rw [added_append, destroyed_append]
        simp only [flight, local', List.count_append, List.flatMap_cons, List.nil_append, List.cons_append, added, destroyed, List.filterMap_cons, List.filterMap_nil, List.append_nil, List.count_cons, List.count_nil]
        omega
      · rw [kept_append_destroyed]; exact h.replay

theorem inv_step {cleanup : Nat → List Op} {s s' : St} (h : Inv s) {a : Act} (hs : step cleanup s a = some s') : Inv s' := by
  cases a with
  | start i op =>
    unfold step at hs
    simp only [] at hs
    cases ho : s.threads[i]? with
    | none => rw [ho] at hs; cases hs
    | some st =>
      rw [ho] at hs
      cases st with
      | nil =>
        cases hs
        refine inv_update h ho (.inl ⟨rfl, rfl⟩) ?_ (fun t => by simp [flight, local']) h.replay
        intro f rest e g hg
        rw [← (List.cons.inj e).2] at hg
        cases hg
      | cons f r => cases hs
  | run i =>
    unfold step at hs
    simp only [] at hs
    cases ho : s.threads[i]? with
    | none => rw [ho] at hs; cases hs
    | some st =>
      rw [ho] at hs
      cases st with
      | nil => cases hs
      | cons f r => exact inv_frame h ho hs

theorem inv_run {cleanup : Nat → List Op} (as : List Act) : ∀ {s s' : St}, Inv s → run cleanup s as = some s' → Inv s' := by
  induction as with
  | nil => intro s s' h hr; cases hr; exact h
  | cons a as ih =>
    intro s s' h hr
    unfold run at hr
    cases hs : step cleanup s a with
    | none => rw [hs] at hr; cases hr
    | some s2 => rw [hs] at hr; exact ih (inv_step h hs) hr

theorem inv_reachable {cleanup : Nat → List Op} {s : St} (h : Reachable cleanup s) : Inv s := by
  obtain ⟨n, as, h⟩ := h
  exact inv_run as (inv_init n) h

/-- Whatever threads and cleanup functions do: the pool holds exactly the tokens that were added and not taken by a later release; no token is destroyed more often than it was added; and while nobody is
inside a release, the tokens destroyed are exactly those added that are not in the pool any more. -/
theorem tokens_destroyed_once {cleanup : Nat → List Op} {s : St} (h : Reachable cleanup s) :
    s.pool = kept s.log ∧ (∀ t, (destroyed s.log).count t + (s.pool.map (·.2)).count t ≤ (added s.log).count t) ∧
    ((∀ st ∈ s.threads, ∀ f ∈ st, ¬ Releasing f) → ∀ t, (destroyed s.log).count t + (s.pool.map (·.2)).count t = (added s.log).count t) := by
  have hi := inv_reachable h
  refine ⟨hi.replay, fun t => by have := hi.count t; omega, fun hq t => ?_⟩
  have e : s.threads.flatMap flight = [] := by
    rw [List.flatMap_eq_nil_iff]
    intro st hst
    unfold flight
    rw [List.flatMap_eq_nil_iff]
    intro f hf
    have := hq st hst f hf
    cases f <;> first | rfl | exact absurd trivial this
  have := hi.count t
  rw [e] at this
  simp only [List.count_nil] at this
  omega

/-- Tokens are destroyed outside the lock: the thread that destroys a token does not hold the lock of the pool. -/
theorem destroyed_unlocked {cleanup : Nat → List Op} {s s' : St} (h : Reachable cleanup s) {i t : Nat} (hs : step cleanup s (.run i) = some s') (hd : s'.log = s.log ++ [.destroyed t]) :
    s.lock ≠ some i := by
  have hi := inv_reachable h
  unfold step at hs
  simp only [] at hs
  cases ho : s.threads[i]? with
  | none => rw [ho] at hs; cases hs
  | some st =>
    rw [ho] at hs
    cases st with
    | nil => cases hs
    | cons f r =>
      intro hl
      have := (hi.mutex i _ ho).mpr hl
      have ne : ∀ e : Ev, s.log ≠ s.log ++ [e] := by
        intro e h1
        have := congrArg List.length h1
        simp at this
      cases f with
      | addHeld k t' => cases hs; simp at hd
      | addUnlock => cases hs; exact ne _ hd
      | relHeld k => cases hs; simp at hd
      | relUnlock l => cases hs; exact ne _ hd
      | _ => cases this

/-- A thread never waits for a lock it holds itself, not even when cleanup functions use the pool. -/
theorem no_self_deadlock {cleanup : Nat → List Op} {s : St} (h : Reachable cleanup s) {i : Nat} {f : Frame} {rest : List Frame} (ho : s.threads[i]? = some (f :: rest)) (hw : Wants f) :
    s.lock ≠ some i := by
  intro hl
  have := ((inv_reachable h).mutex i _ ho).mpr hl
  cases f <;> first | (cases this; done) | (cases hw; done)

/-- The thread that holds the lock can always go on. -/
theorem holder_goes_on {cleanup : Nat → List Op} {s : St} (h : Reachable cleanup s) {i : Nat} (hl : s.lock = some i) : ∃ s', step cleanup s (.run i) = some s' := by
  have hi := inv_reachable h
  have hv := hi.valid i hl
  have ho : s.threads[i]? = some s.threads[i] := List.getElem?_eq_getElem hv
  have hm := (hi.mutex i _ ho).mpr hl
  unfold step
  simp only []
  rw [ho]
  cases hst : s.threads[i] with
  | nil => rw [hst] at hm; cases hm
  | cons f r =>
    rw [hst] at hm
    simp only []
    cases f <;> first | exact ⟨_, rfl⟩ | (cases hm; done)

/-- There is no deadlock: as long as some thread is inside the pool or a cleanup function, some thread can go on. -/
theorem no_deadlock {cleanup : Nat → List Op} {s : St} (h : Reachable cleanup s) (hb : ∃ st ∈ s.threads, st ≠ []) : ∃ i s', step cleanup s (.run i) = some s' := by
  cases hl : s.lock with
  | some i =>
    obtain ⟨s', h1⟩ := holder_goes_on h hl
    exact ⟨i, s', h1⟩
  | none =>
    obtain ⟨st, hst, hne⟩ := hb
    obtain ⟨i, ho⟩ := List.getElem?_of_mem hst
    refine ⟨i, ?_⟩
    unfold step
    simp only []
    rw [ho]
    cases st with
    | nil => exact absurd rfl hne
    | cons f r =>
      simp only []
      cases f with
      | code ops => cases ops <;> exact ⟨_, rfl⟩
      | relDrop l => cases l <;> exact ⟨_, rfl⟩
      | addWant k t => unfold frameStep; simp only [hl, if_true]; exact ⟨_, rfl⟩
      | relWant k => unfold frameStep; simp only [hl, if_true]; exact ⟨_, rfl⟩
      | _ => exact ⟨_, rfl⟩

/-- When the only release in progress is over, everything that was in the pool before it has been destroyed; with two at the same time this is violated: the second returns at once though the token is
still alive, because the first has taken it and not yet destroyed it. -/
theorem concurrent_release_violated : ∃ s, run (fun _ => []) (init 2)
    ([.start 0 (.add 0 7)] ++ List.replicate 5 (.run 0) ++ [.start 0 (.release none)] ++ List.replicate 4 (.run 0) ++ [.start 1 (.release none)] ++ List.replicate 6 (.run 1)) = some s ∧
    s.threads[1]? = some [] ∧ added s.log = [7] ∧ destroyed s.log = [] := by
  refine ⟨_, rfl, ?_⟩
  decide +kernel

/-- A cleanup function that uses the pool it is released from. -/
example : ∃ s, run (fun t => if t = 1 then [.add 0 2, .release (some 5)] else []) (init 1)
    ([.start 0 (.add 5 1)] ++ List.replicate 5 (.run 0) ++ [.start 0 (.release none)] ++ List.replicate 17 (.run 0)) = some s ∧ s.threads = [[]] ∧ s.pool = [(0, 2)] ∧
    s.log = [.added 5 1, .taken none, .destroyed 1, .added 0 2, .taken (some 5)] := by
  refine ⟨_, rfl, ?_⟩
  decide +kernel

example : kept [.added 1 10, .added 2 20, .taken (some 1), .added 1 11] = [(2, 20), (1, 11)] := by decide +kernel

end Verif.Token
