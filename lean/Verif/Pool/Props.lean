import Verif.Pool.Model
/-
Property C45 of the model of `ThreadPool`.
-/
namespace Verif.Pool
open Spec

theorem set_self {α : Type} (f : Nat → α) (i : Nat) (x : α) : set f i x i = x := by unfold set; rw [if_pos rfl]
theorem set_ne {α : Type} (f : Nat → α) {i j : Nat} (x : α) (h : j ≠ i) : set f i x j = f j := by unfold set; rw [if_neg h]

/-! ### Lists of slots -/

theorem count_set (f : Option Worker → List Nat) (k : Nat) (x : Option Worker) : ∀ (l : List (Option Worker)) (i : Nat) (y : Option Worker), l[i]? = some y →
    ((l.set i x).flatMap f).count k + (f y).count k = (l.flatMap f).count k + (f x).count k
  | [], i, y, h => by simp at h
  | z :: l, 0, y, h => by
    simp only [List.getElem?_cons_zero, Option.some.injEq] at h
    subst h
    simp only [List.set_cons_zero, List.flatMap_cons, List.count_append]; omega
  | z :: l, i + 1, y, h => by
    simp only [List.getElem?_cons_succ] at h
    have := count_set f k x l i y h
    simp only [List.set_cons_succ, List.flatMap_cons, List.count_append]; omega

theorem dropNone_pending : ∀ l : List (Option Worker), (dropNone l).flatMap pendingOf = l.flatMap pendingOf
  | [] => rfl
  | x :: xs => by
    have ih := dropNone_pending xs
    unfold dropNone
    split
    · rename_i h
      rw [h] at ih
      simp only [List.flatMap_cons, ← ih]; rfl
    · simp only [List.flatMap_cons, ih]

theorem dropNone_mem {w : Worker} : ∀ l : List (Option Worker), some w ∈ dropNone l ↔ some w ∈ l
  | [] => Iff.rfl
  | x :: xs => by
    have ih := dropNone_mem (w := w) xs
    unfold dropNone
    split
    · rename_i h
      rw [h] at ih
      rw [List.mem_cons, ← ih]; simp
    · rw [List.mem_cons, List.mem_cons, ih]

theorem dropNone_length : ∀ l : List (Option Worker), (dropNone l).length ≤ l.length
  | [] => Nat.le_refl _
  | x :: xs => by
    have ih := dropNone_length xs
    unfold dropNone
    split
    · exact Nat.zero_le _
    · simp only [List.length_cons]; omega

theorem dropNone_some : ∀ l : List (Option Worker), (∀ x ∈ l, x ≠ none) → dropNone l = l
  | [], _ => rfl
  | x :: xs, h => by
    have ih := dropNone_some xs (fun y hy => h y (List.mem_cons_of_mem _ hy))
    unfold dropNone
    split
    · exact absurd rfl (h _ List.mem_cons_self)
    · rw [ih]

/-! ### The invariant -/

structure WInv (w : Worker) : Prop where
  running : ∀ k, w.pc = .running k → w.task = some k
  comp : w.task ≠ none → w.completed = false
  asleep : ∀ t, w.pc = .waiting t false → w.task = none
  done : w.completed = true → w.pc = .top ∨ ∃ t b, w.pc = .waiting t b

/-- The slot is busy, or its thread is going to wake the callers of `WaitQueue`. -/
def Coming (w : Worker) : Prop := w.task ≠ none ∨ (w.pc = .top ∧ w.completed = false) ∨ w.pc = .handler

structure SInv (cfg : Cfg) (s : State) (x : Scan) : Prop where
  task : s.task ≠ none
  seen : ∀ j, j < x.next → ∃ w, s.workers[j]? = some (some w) ∧ Coming w
  start : x.full = false → s.workers.length + 1 < cfg.max ∨ ∃ j y, x.next ≤ j ∧ s.workers[j]? = some y ∧ busy y = false
  main : ∀ i, s.mpc ≠ .reaping i

structure Waits (cfg : Cfg) (s : State) : Prop where
  size : cfg.max ≤ s.workers.length + 1
  main : s.task ≠ none ∨ s.mpc = .top
  all : ∀ x ∈ s.workers, ∃ w, x = some w ∧ Coming w

structure Inv (cfg : Cfg) (s : State) : Prop where
  len : s.workers.length + 1 ≤ cfg.max
  w : ∀ x, some x ∈ s.workers → WInv x
  running : ∀ k, s.mpc = .running k → s.task = some k
  asleep : ∀ t, s.mpc = .waiting t false → s.task = none
  unborn : s.mpc = .notStarted → s.task = none ∧ s.workers = []
  log : ∀ k, s.accepted.count k = s.started.count k + (pending s).count k
  scan : ∀ x, s.scan = some x → SInv cfg s x
  wait : ∀ c x, s.waiters c = some x → x.woken = false → Waits cfg s

theorem init_inv (cfg : Cfg) (h : cfg.max ≠ 0) : Inv cfg init where
  len := Nat.one_le_iff_ne_zero.2 h
  w := fun _ h => nomatch h
  running := fun _ h => nomatch h
  asleep := fun _ h => nomatch h
  unborn := fun _ => ⟨rfl, rfl⟩
  log := fun _ => rfl
  scan := fun _ h => nomatch h
  wait := fun _ _ h => nomatch h

theorem free_iff (s : State) : free s = true ↔ s.scan = none ∧ ∀ i, s.mpc ≠ .reaping i := by
  unfold free
  cases s.scan <;> cases s.mpc <;> simp

/-- All callers of `WaitQueue` are awake. -/
def Awake (s : State) : Prop := ∀ c x, s.waiters c = some x → x.woken = true

theorem notify_awake (s : State) : Awake (notify s) := by
  intro c x h
  have h : (s.waiters c).map _ = some x := h
  cases hw : s.waiters c with
  | none => rw [hw] at h; cases h
  | some y => rw [hw] at h; injection h with h; rw [← h]

theorem notify_inv {cfg : Cfg} {s : State} (h : Inv cfg s) : Inv cfg (notify s) :=
  { h with scan := fun x hx => let i := h.scan x hx; ⟨i.task, i.seen, i.start, i.main⟩, wait := fun c x hx hw => (by rw [notify_awake s c x hx] at hw; cases hw) }

/-- A step of one worker. -/
theorem inv_worker {cfg : Cfg} {s : State} {i : Nat} {w w' : Worker} {st : List Nat} (h : Inv cfg s) (hi : s.workers[i]? = some (some w)) (hw : WInv w → WInv w')
    (hc : (Coming w → Coming w') ∨ (s.scan = none ∧ Awake s)) (ht : w'.task ≠ none → w.task ≠ none)
    (hl : ∀ k, (pendingOf (some w)).count k = st.count k + (pendingOf (some w')).count k) :
    Inv cfg { s with workers := s.workers.set i (some w'), started := s.started ++ st } := by
  have hlt : i < s.workers.length := (List.getElem?_eq_some_iff.1 hi).1
  have hmem : some w ∈ s.workers := List.mem_of_getElem? hi
  have hget : ∀ j, (s.workers.set i (some w'))[j]? = if i = j then some (some w') else s.workers[j]? := by
    intro j
    rw [List.getElem?_set]
    by_cases e : i = j
    · rw [if_pos e, if_pos e, if_pos hlt]
    · rw [if_neg e, if_neg e]
  refine { h with len := ?_, w := fun x hx => ?_, unborn := fun e => ?_, log := fun k => ?_, scan := fun x hx => ?_, wait := fun c x hx hwk => ?_ }
  · simp only [List.length_set]; exact h.len
  · rcases List.mem_or_eq_of_mem_set hx with hx | hx
    · exact h.w x hx
    · injection hx with hx; rw [hx]; exact hw (h.w w hmem)
  · have := (h.unborn e).2; rw [this] at hlt; cases hlt
  · have h1 := h.log k
    have h2 := count_set pendingOf k (some w') s.workers i (some w) hi
    have h3 := hl k
    unfold pending at h1 ⊢
    simp only [List.count_append] at h1 ⊢
    omega
  · have hx : s.scan = some x := hx
    obtain ⟨a, b, c, d⟩ := h.scan x hx
    rcases hc with hc | ⟨hc, _⟩
    · refine ⟨a, fun j hj => ?_, fun hf => ?_, d⟩
      · obtain ⟨v, hv, hcv⟩ := b j hj
        simp only [hget]
        by_cases e : i = j
        · rw [if_pos e]
          rw [← e, hi] at hv
          injection hv with hv; injection hv with hv; rw [← hv] at hcv
          exact ⟨w', rfl, hc hcv⟩
        · rw [if_neg e]; exact ⟨v, hv, hcv⟩
      · rcases c hf with c | ⟨j, y, h1, h2, h3⟩
        · left; simp only [List.length_set]; exact c
        · right
          by_cases e : i = j
          · refine ⟨j, some w', h1, by simp only [hget, if_pos e], ?_⟩
            rw [← e, hi] at h2
            injection h2 with h2; rw [← h2] at h3
            unfold busy at h3 ⊢
            cases hx' : w'.task with
            | none => simp [hx']
            | some k =>
              have := ht (by rw [hx']; exact fun e => nomatch e)
              cases hy : w.task with
              | none => exact absurd hy this
              | some k => simp only [hy] at h3; cases h3
          · exact ⟨j, y, h1, by simp only [hget, if_neg e]; exact h2, h3⟩
    · rw [hc] at hx; cases hx
  · rcases hc with hc | ⟨_, hc⟩
    · obtain ⟨a, b, d⟩ := h.wait c x hx hwk
      refine ⟨by simp only [List.length_set]; exact a, b, fun y hy => ?_⟩
      rcases List.mem_or_eq_of_mem_set hy with hy | hy
      · exact d y hy
      · obtain ⟨v, hv, hcv⟩ := d _ hmem
        injection hv with hv; rw [← hv] at hcv
        exact ⟨w', hy, hc hcv⟩
    · have := hc c x hx; rw [this] at hwk; cases hwk

/-- The steps of a worker that need only its own mutex. -/
theorem worker_step {cfg : Cfg} {w w' : Worker} {t : Bool} {o : Option Nat} (hw : WInv w) (hp : w.pc ≠ .handler) (hs : w.step cfg t = some (o, w')) :
    WInv w' ∧ (Coming w → Coming w') ∧ (w'.task ≠ none → w.task ≠ none) ∧ ∀ k, (pendingOf (some w)).count k = o.toList.count k + (pendingOf (some w')).count k := by
  obtain ⟨task, completed, idle, pc⟩ := w
  obtain ⟨r, c, a, d⟩ := hw
  simp only at r c a d hp
  unfold Worker.step at hs
  cases pc with
  | handler => exact absurd rfl hp
  | top =>
    cases task with
    | some k =>
      injection hs with hs; injection hs with h1 h2; subst h1 h2
      refine ⟨⟨fun k' e => (by injection e with e; rw [e]), c, (fun _ e => nomatch e), fun e => ?_⟩, fun _ => Or.inl (fun e => nomatch e), fun _ e => (nomatch e), fun k' => ?_⟩
      · have e : completed = true := e
        have := c (fun e => nomatch e); rw [e] at this; cases this
      · simp [pendingOf]
    | none =>
      simp only [] at hs
      by_cases hc : completed = true
      · rw [if_pos hc] at hs; injection hs with hs; injection hs with h1 h2; subst h1 h2
        refine ⟨⟨(fun _ e => nomatch e), c, fun _ _ => rfl, fun _ => Or.inr ⟨_, _, rfl⟩⟩, fun e => ?_, fun e => e, fun k' => rfl⟩
        unfold Coming at e
        simp only [hc] at e
        rcases e with e | e | e
        · exact absurd rfl e
        · cases e.2
        · cases e
      · rw [if_neg hc] at hs; injection hs with hs; injection hs with h1 h2; subst h1 h2
        refine ⟨⟨(fun _ e => nomatch e), c, (fun _ e => nomatch e), fun e => absurd e hc⟩, fun _ => Or.inr (Or.inr rfl), fun e => e, fun k' => rfl⟩
  | after =>
    have hco : completed = false := by
      cases hc : completed with
      | false => rfl
      | true => rcases d hc with e | ⟨_, _, e⟩ <;> cases e
    cases task with
    | some k =>
      injection hs with hs; injection hs with h1 h2; subst h1 h2
      exact ⟨⟨(fun _ e => nomatch e), c, (fun _ e => nomatch e), fun _ => Or.inl rfl⟩, fun _ => Or.inl (fun e => nomatch e), fun e => e, fun k' => by simp [pendingOf]⟩
    | none =>
      injection hs with hs; injection hs with h1 h2; subst h1 h2
      refine ⟨⟨(fun _ e => nomatch e), fun e => absurd rfl e, fun _ _ => rfl, fun _ => Or.inr ⟨_, _, rfl⟩⟩, fun e => ?_, fun e => e, fun k' => rfl⟩
      unfold Coming at e
      rcases e with e | e | e
      · exact absurd rfl e
      · cases e.1
      · cases e
  | waiting ti wo =>
    have key : ∀ b : Bool, WInv ⟨task, completed, b, .top⟩ ∧ (Coming ⟨task, completed, idle, .waiting ti wo⟩ → Coming ⟨task, completed, b, .top⟩) ∧ (task ≠ none → task ≠ none) ∧
        ∀ k, (pendingOf (some ⟨task, completed, idle, .waiting ti wo⟩)).count k = (none : Option Nat).toList.count k + (pendingOf (some ⟨task, completed, b, .top⟩)).count k := by
      intro b
      refine ⟨⟨(fun _ e => nomatch e), c, (fun _ e => nomatch e), fun _ => Or.inl rfl⟩, fun e => ?_, fun e => e, fun k => ?_⟩
      · rcases e with e | e | e
        · exact Or.inl e
        · cases e.1
        · cases e
      · cases task <;> simp [pendingOf]
    simp only [] at hs
    split at hs
    · injection hs with hs; injection hs with h1 h2; subst h1 h2; exact key _
    · split at hs
      · injection hs with hs; injection hs with h1 h2; subst h1 h2; exact key _
      · cases hs
  | running k =>
    have hco : completed = false := by
      cases hc : completed with
      | false => rfl
      | true => rcases d hc with e | ⟨_, _, e⟩ <;> cases e
    injection hs with hs; injection hs with h1 h2; subst h1 h2
    refine ⟨⟨(fun _ e => nomatch e), fun e => absurd rfl e, (fun _ e => nomatch e), fun _ => Or.inl rfl⟩, fun _ => Or.inr (Or.inl ⟨rfl, hco⟩), fun e => absurd rfl e, fun k' => ?_⟩
    rw [r k rfl]; simp [pendingOf]

theorem wake_winv {w : Worker} (h : WInv w) : WInv { w with pc := w.pc.wake } := by
  obtain ⟨task, completed, idle, pc⟩ := w
  obtain ⟨r, c, a, d⟩ := h
  cases pc with
  | waiting t b => exact ⟨(fun _ e => nomatch e), c, fun _ e => (by injection e with _ e; cases e), fun _ => Or.inr ⟨_, _, rfl⟩⟩
  | _ => exact ⟨r, c, a, d⟩

theorem wake_pending (w : Worker) : pendingOf (some { w with pc := w.pc.wake }) = pendingOf (some w) := by
  obtain ⟨task, completed, idle, pc⟩ := w
  cases task <;> cases pc <;> rfl

/-- The accepted task of the first thread that has not started. -/
def mainPending (s : State) : List Nat := match s.task, s.mpc with
  | some _, .running _ => []
  | some k, _ => [k]
  | none, _ => []

theorem pending_eq (s : State) : pending s = mainPending s ++ s.workers.flatMap pendingOf := by
  unfold pending mainPending
  cases s.task <;> cases s.mpc <;> rfl

/-- A worker gets a task in a slot `y` that had none. -/
theorem inv_add {cfg : Cfg} {s : State} {i k : Nat} {y : Option Worker} {w' : Worker} (h : Inv cfg s) (hi : s.workers[i]? = some y) (hb : busy y = false) (hw : WInv w') (ht : w'.task = some k)
    (hr : ∀ k, w'.pc ≠ .running k) : Inv cfg { s with workers := s.workers.set i (some w'), scan := none, accepted := s.accepted ++ [k] } := by
  have hlt : i < s.workers.length := (List.getElem?_eq_some_iff.1 hi).1
  refine { h with len := ?_, w := fun x hx => ?_, unborn := fun e => ?_, log := fun j => ?_, scan := fun x hx => (nomatch hx), wait := fun c x hx hwk => ?_ }
  · simp only [List.length_set]; exact h.len
  · rcases List.mem_or_eq_of_mem_set hx with hx | hx
    · exact h.w x hx
    · injection hx with hx; rw [hx]; exact hw
  · have := (h.unborn e).2; rw [this] at hlt; cases hlt
  · have h1 := h.log j
    have h2 := count_set pendingOf j (some w') s.workers i y hi
    have h3 : pendingOf y = [] := by
      cases y with
      | none => rfl
      | some w =>
        unfold busy at hb
        cases hx : w.task with
        | none => simp [pendingOf, hx]
        | some k => simp [hx] at hb
    have h4 : pendingOf (some w') = [k] := by
      unfold pendingOf; simp only []; rw [ht]
      cases hp : w'.pc with
      | running j => exact absurd hp (hr j)
      | _ => rfl
    rw [h3, h4] at h2
    rw [pending_eq] at h1 ⊢
    have h5 : mainPending { s with workers := s.workers.set i (some w'), scan := none, accepted := s.accepted ++ [k] } = mainPending s := rfl
    rw [h5]
    simp only [List.count_append, List.count_nil] at h1 h2 ⊢
    omega
  · obtain ⟨a, b, d⟩ := h.wait c x hx hwk
    refine ⟨by simp only [List.length_set]; exact a, b, fun z hz => ?_⟩
    rcases List.mem_or_eq_of_mem_set hz with hz | hz
    · exact d z hz
    · exact ⟨w', hz, Or.inl (by rw [ht]; exact fun e => nomatch e)⟩

theorem new_winv (k : Nat) : WInv (newWorker k) := ⟨(fun _ e => nomatch e), fun _ => rfl, (fun _ e => nomatch e), fun e => nomatch e⟩

theorem add_winv {w : Worker} (h : WInv w) (k : Nat) (hw : w.task = none) : WInv (w.add k) ∧ ∀ j, (w.add k).pc ≠ .running j := by
  obtain ⟨task, completed, idle, pc⟩ := w
  obtain ⟨r, c, a, d⟩ := h
  cases pc with
  | waiting t b => exact ⟨⟨(fun _ e => nomatch e), fun _ => rfl, fun _ e => (by injection e with _ e; cases e), fun e => nomatch e⟩, fun _ e => nomatch e⟩
  | running j => have := r j rfl; rw [hw] at this; cases this
  | _ => exact ⟨⟨(fun _ e => nomatch e), fun _ => rfl, (fun _ e => nomatch e), fun e => nomatch e⟩, fun _ e => nomatch e⟩

/-- The new worker is put behind the others. -/
theorem inv_push {cfg : Cfg} {s : State} {k : Nat} (h : Inv cfg s) (hl : s.workers.length + 1 < cfg.max) (hn : s.mpc ≠ .notStarted) :
    Inv cfg { s with workers := s.workers ++ [some (newWorker k)], scan := none, accepted := s.accepted ++ [k] } := by
  refine { h with len := ?_, w := fun x hx => ?_, unborn := fun e => absurd e hn, log := fun j => ?_, scan := fun x hx => (nomatch hx), wait := fun c x hx hwk => ?_ }
  · simp only [List.length_append, List.length_singleton]; omega
  · rw [List.mem_append, List.mem_singleton] at hx
    rcases hx with hx | hx
    · exact h.w x hx
    · injection hx with hx; rw [hx]; exact new_winv k
  · have h1 := h.log j
    rw [pending_eq] at h1 ⊢
    have h5 : mainPending { s with workers := s.workers ++ [some (newWorker k)], scan := none, accepted := s.accepted ++ [k] } = mainPending s := rfl
    rw [h5]
    have h6 : pendingOf (some (newWorker k)) = [k] := rfl
    simp only [List.flatMap_append, List.flatMap_cons, List.flatMap_nil, List.append_nil, h6, List.count_append] at h1 ⊢
    omega
  · have := (h.wait c x hx hwk).size; omega

theorem canQueue_iff (cfg : Cfg) (s : State) : canQueue cfg s = true ↔ s.task = none ∨ s.workers.length + 1 < cfg.max ∨ ∃ y ∈ s.workers, busy y = false := by
  unfold canQueue
  simp only [Bool.or_eq_true, Option.isNone_iff_eq_none, decide_eq_true_eq, List.any_eq_true, Bool.not_eq_true', or_assoc]

theorem mwake_eq (p : MPc) : (∀ k, p.wake = .running k ↔ p = .running k) ∧ (∀ t, p.wake ≠ .waiting t false) ∧ (p.wake = .notStarted ↔ p = .notStarted) ∧ (p.wake = .top ↔ p = .top) ∧
    ∀ i, p.wake = .reaping i ↔ p = .reaping i := by
  cases p <;> simp [MPc.wake]

theorem try_inv {cfg : Cfg} {s s' : State} {c k : Nat} {b : Bool} {o : Out} (h : Inv cfg s) (hs : tryQueue cfg s c k b = some (o, s')) : Inv cfg s' := by
  unfold tryQueue at hs
  by_cases hf : free s = true
  · rw [if_pos hf] at hs
    obtain ⟨hf1, hf2⟩ := (free_iff s).1 hf
    cases ht : s.task with
    | none =>
      rw [ht] at hs; injection hs with hs; injection hs with _ hs; subst hs
      obtain ⟨m1, m2, m3, m4, m5⟩ := mwake_eq s.mpc
      have hnr : ∀ j, s.mpc ≠ .running j := fun j e => by have := h.running j e; rw [ht] at this; cases this
      have hnr' : ∀ j, (if s.mpc = .notStarted then .top else s.mpc.wake) ≠ .running j := by
        intro j; split
        · exact fun e => nomatch e
        · exact fun e => hnr j ((m1 j).1 e)
      refine { h with running := fun j e => absurd e (hnr' j), asleep := fun t e => ?_, unborn := fun e => ?_, log := fun j => ?_, scan := fun x hx => ?_, wait := fun c x hx hwk => ?_ }
      · simp only [] at e; split at e
        · cases e
        · exact absurd e (m2 t)
      · simp only [] at e; split at e
        · cases e
        · exact absurd (m3.1 e) (by assumption)
      · have h1 := h.log j
        rw [pending_eq] at h1 ⊢
        have h2 : mainPending s = [] := by unfold mainPending; rw [ht]
        have h3 : mainPending { s with task := some k, mpc := if s.mpc = .notStarted then .top else s.mpc.wake, accepted := s.accepted ++ [k] } = [k] := by
          unfold mainPending; simp only []
        rw [h2] at h1; rw [h3]
        simp only [List.count_append, List.count_nil] at h1 ⊢; omega
      · have hx : s.scan = some x := hx
        rw [hf1] at hx; cases hx
      · obtain ⟨a, _, d⟩ := h.wait c x hx hwk
        exact ⟨a, Or.inl (fun e => nomatch e), d⟩
    | some k' =>
      rw [ht] at hs; injection hs with hs; injection hs with _ hs
      have ht' : s.task ≠ none := by rw [ht]; exact fun e => nomatch e
      have hs : { s with scan := some ⟨c, k, b, 0, !canQueue cfg s⟩ } = s' := by rw [← hs]; simp only [ht]
      subst hs
      refine { h with scan := fun x hx => ?_, wait := fun c x hx hwk => (let i := h.wait c x hx hwk; ⟨i.size, i.main, i.all⟩) }
      injection hx with hx; subst hx
      refine ⟨ht', fun j hj => (nomatch hj), fun hfu => ?_, hf2⟩
      have hfu : canQueue cfg s = true := by simpa using hfu
      rcases (canQueue_iff cfg s).1 hfu with e | e | ⟨y, hy, e⟩
      · exact absurd e ht'
      · exact Or.inl e
      · obtain ⟨j, hj⟩ := List.getElem?_of_mem hy
        exact Or.inr ⟨j, y, Nat.zero_le _, hj, e⟩
  · rw [if_neg hf] at hs; cases hs

theorem scan_inv {cfg : Cfg} {s s' : State} {o : Out} (h : Inv cfg s) (hs : scanStep cfg s = some (o, s')) : Inv cfg s' ∧ (∀ b, o = .refused b → b = true) := by
  unfold scanStep at hs
  cases hx : s.scan with
  | none => rw [hx] at hs; cases hs
  | some x =>
    rw [hx] at hs; simp only [] at hs
    have hi := h.scan x hx
    cases hg : s.workers[x.next]? with
    | none =>
      rw [hg] at hs; simp only [] at hs
      have hlen : s.workers.length ≤ x.next := List.getElem?_eq_none_iff.1 hg
      by_cases hm : cfg.max ≤ s.workers.length + 1
      · rw [if_pos hm] at hs; injection hs with hs; injection hs with ho hs; subst hs; subst ho
        refine ⟨{ h with scan := fun y hy => (nomatch hy), wait := fun c y hy hwk => ?_ }, fun b e => ?_⟩
        · simp only [] at hy
          have hold : ∀ c y, s.waiters c = some y → y.woken = false → Waits cfg s := h.wait
          have hnew : Waits cfg s := by
            refine ⟨hm, Or.inl hi.task, fun z hz => ?_⟩
            obtain ⟨j, hj⟩ := List.getElem?_of_mem hz
            have hjl := (List.getElem?_eq_some_iff.1 hj).1
            obtain ⟨w, hw, hc⟩ := hi.seen j (by omega)
            rw [hj] at hw; injection hw with hw
            exact ⟨w, hw, hc⟩
          exact ⟨hnew.size, hnew.main, hnew.all⟩
        · injection e with e; subst e
          cases hf : x.full with
          | true => rfl
          | false =>
            rcases hi.start hf with e | ⟨j, y, h1, h2, _⟩
            · omega
            · have := (List.getElem?_eq_some_iff.1 h2).1; omega
      · rw [if_neg hm] at hs; injection hs with hs; injection hs with ho hs; subst hs; subst ho
        exact ⟨inv_push h (by omega) (fun e => hi.task (h.unborn e).1), fun b e => nomatch e⟩
    | some y =>
      rw [hg] at hs
      cases y with
      | none =>
        injection hs with hs; injection hs with ho hs; subst hs; subst ho
        exact ⟨inv_add h hg rfl (new_winv x.task) rfl (fun _ e => nomatch e), fun b e => nomatch e⟩
      | some w =>
        simp only [] at hs
        by_cases ht : w.task = none
        · rw [if_pos ht] at hs; injection hs with hs; injection hs with ho hs; subst hs; subst ho
          have := add_winv (h.w w (List.mem_of_getElem? hg)) x.task ht
          exact ⟨inv_add h hg (by simp [busy, ht]) this.1 rfl this.2, fun b e => nomatch e⟩
        · rw [if_neg ht] at hs; injection hs with hs; injection hs with ho hs; subst hs; subst ho
          refine ⟨{ h with scan := fun y hy => ?_, wait := fun c y hy hwk => (let i := h.wait c y hy hwk; ⟨i.size, i.main, i.all⟩) }, fun b e => nomatch e⟩
          injection hy with hy; subst hy
          refine ⟨hi.task, fun j hj => ?_, fun hf => ?_, hi.main⟩
          · have hj : j < x.next + 1 := hj
            by_cases e : j = x.next
            · subst e; exact ⟨w, hg, Or.inl ht⟩
            · exact hi.seen j (by omega)
          · rcases hi.start hf with e | ⟨j, y, h1, h2, h3⟩
            · exact Or.inl e
            · refine Or.inr ⟨j, y, ?_, h2, h3⟩
              show x.next + 1 ≤ j
              have : j ≠ x.next := by
                intro e; subst e
                rw [hg] at h2; injection h2 with h2; subst h2
                unfold busy at h3
                cases hy : w.task with
                | none => exact ht hy
                | some k => simp [hy] at h3
              omega

/-- What the first thread does keeps the accepted tasks. -/
theorem inv_main {cfg : Cfg} {s : State} {p : MPc} {ws : List (Option Worker)} (h : Inv cfg s) (hr : ∀ k, s.mpc ≠ .running k) (hp : ∀ k, p ≠ .running k) (hn : p ≠ .notStarted)
    (ha : ∀ t, p = .waiting t false → s.task = none) (hsc : s.scan = none) (hlen : ws.length ≤ s.workers.length) (hmem : ∀ w, some w ∈ ws → some w ∈ s.workers)
    (hpe : ∀ k, (ws.flatMap pendingOf).count k = (s.workers.flatMap pendingOf).count k) (hw : Awake s ∨ (Waits cfg s → Waits cfg { s with mpc := p, workers := ws })) :
    Inv cfg { s with mpc := p, workers := ws } := by
  refine { h with len := (by have := h.len; simp only []; omega), w := fun x hx => h.w x (hmem x hx), running := fun k e => absurd e (hp k), asleep := ha, unborn := fun e => absurd e hn, log := fun k => ?_, scan := fun x hx => ?_, wait := fun c x hx hwk => ?_ }
  · have h1 := h.log k
    rw [pending_eq] at h1 ⊢
    have h5 : mainPending { s with mpc := p, workers := ws } = mainPending s := by
      unfold mainPending
      cases ht : s.task with
      | none => rfl
      | some k =>
        cases hq : s.mpc <;> cases p <;> first | rfl | exact absurd hq (hr _) | exact absurd rfl (hp _)
    rw [h5, List.count_append, hpe, ← List.count_append]; exact h1
  · have hx : s.scan = some x := hx
    rw [hsc] at hx; cases hx
  · rcases hw with hw | hw
    · have := hw c x hx; rw [this] at hwk; cases hwk
    · exact hw (h.wait c x hx hwk)

theorem idle_not_coming {w : Worker} (hw : WInv w) (h : w.isIdle = true) : w.task = none ∧ ¬ Coming w ∧ (w.pc = .top ∨ ∃ t b, w.pc = .waiting t b) := by
  unfold Worker.isIdle at h
  simp only [Bool.and_eq_true, Option.isNone_iff_eq_none] at h
  refine ⟨h.1.1, ?_, hw.done h.1.2⟩
  rintro (e | ⟨_, e⟩ | e)
  · exact e h.1.1
  · rw [h.1.2] at e; cases e
  · rcases hw.done h.1.2 with e' | ⟨_, _, e'⟩ <;> · rw [e] at e'; cases e'

theorem waits_drop {cfg : Cfg} {s : State} {p : MPc} (h : Waits cfg s) (hm : s.task ≠ none ∨ p = .top) : Waits cfg { s with mpc := p, workers := dropNone s.workers } := by
  have e : dropNone s.workers = s.workers := dropNone_some _ fun x hx e => by obtain ⟨w, hw, _⟩ := h.all x hx; rw [e] at hw; cases hw
  rw [e]; exact ⟨h.size, hm, h.all⟩

theorem main_inv {cfg : Cfg} {s s' : State} {t : Bool} (h : Inv cfg s) (hs : main cfg s t = some s') : Inv cfg s' := by
  unfold main at hs
  cases hp : s.mpc with
  | notStarted => rw [hp] at hs; cases hs
  | top =>
    rw [hp] at hs; simp only [] at hs
    by_cases hf : free s = true
    · rw [if_pos hf] at hs
      obtain ⟨hf1, hf2⟩ := (free_iff s).1 hf
      cases ht : s.task with
      | none =>
        rw [ht] at hs; injection hs with hs; subst hs
        exact inv_main (s := notify s) (ws := s.workers) (notify_inv h) (fun k e => (by have e : s.mpc = _ := e; rw [hp] at e; cases e))
          (fun k e => nomatch e) (fun e => nomatch e) (fun _ _ => ht) hf1 (Nat.le_refl _) (fun _ e => e) (fun _ => rfl) (Or.inl (notify_awake s))
      | some k =>
        rw [ht] at hs; injection hs with hs
        have hs : { s with mpc := .running k, started := s.started ++ [k] } = s' := by rw [← hs]; simp only [ht]
        subst hs
        refine { h with running := fun j e => ?_, asleep := (fun _ e => nomatch e), unborn := (fun e => nomatch e), log := fun j => ?_, scan := fun x hx => ?_, wait := fun c x hx hwk => ?_ }
        · injection e with e; rw [← e]; exact ht
        · have h1 := h.log j
          rw [pending_eq] at h1 ⊢
          have h2 : mainPending s = [k] := by unfold mainPending; rw [ht, hp]
          have h3 : mainPending { s with mpc := .running k, started := s.started ++ [k] } = [] := by unfold mainPending; simp only [ht]
          rw [h2] at h1; rw [h3]
          simp only [List.count_append, List.count_nil] at h1 ⊢; omega
        · have hx : s.scan = some x := hx
          rw [hf1] at hx; cases hx
        · have hw := h.wait c x hx hwk
          exact ⟨hw.size, Or.inl (by simp only [ht]; exact fun e => nomatch e), hw.all⟩
    · rw [if_neg hf] at hs; cases hs
  | waiting a b =>
    rw [hp] at hs; simp only [] at hs
    have hr : ∀ k, s.mpc ≠ .running k := fun k e => by rw [hp] at e; cases e
    by_cases hf : free s = true
    · rw [if_pos hf] at hs
      obtain ⟨hf1, hf2⟩ := (free_iff s).1 hf
      split at hs
      · injection hs with hs; subst hs
        refine inv_main h hr (fun k e => nomatch e) (fun e => nomatch e) (fun _ e => nomatch e) hf1 (Nat.le_refl _) (fun _ e => e) (fun _ => rfl) (Or.inr fun hw => ⟨hw.size, ?_, hw.all⟩)
        rcases hw.main with e | e
        · exact Or.inl e
        · rw [hp] at e; cases e
      · split at hs
        · injection hs with hs; subst hs
          cases a with
          | true => exact inv_main h hr (fun k e => nomatch e) (fun e => nomatch e) (fun _ e => nomatch e) hf1 (dropNone_length _) (fun w e => (dropNone_mem _).1 e) (fun k => by
              rw [if_pos rfl, dropNone_pending]) (Or.inr fun hw => waits_drop hw (Or.inr rfl))
          | false => exact inv_main h hr (fun k e => nomatch e) (fun e => nomatch e) (fun _ e => nomatch e) hf1 (Nat.le_refl _) (fun w e => e) (fun k => rfl) (Or.inr fun hw => ⟨hw.size, Or.inr rfl, hw.all⟩)
        · cases hs
    · rw [if_neg hf] at hs; cases hs
  | reaping i =>
    rw [hp] at hs; simp only [] at hs
    have hr : ∀ k, s.mpc ≠ .running k := fun k e => by rw [hp] at e; cases e
    have hsc : s.scan = none := by
      cases hx : s.scan with
      | none => rfl
      | some x => exact absurd hp ((h.scan x hx).main i)
    have hm : Waits cfg s → s.task ≠ none := fun hw => by
      rcases hw.main with e | e
      · exact e
      · rw [hp] at e; cases e
    cases hg : s.workers[i]? with
    | none =>
      rw [hg] at hs; injection hs with hs; subst hs
      exact inv_main h hr (fun k e => nomatch e) (fun e => nomatch e) (fun _ e => nomatch e) hsc (dropNone_length _) (fun w e => (dropNone_mem _).1 e) (fun k => by rw [dropNone_pending])
        (Or.inr fun hw => waits_drop hw (Or.inr rfl))
    | some y =>
      rw [hg] at hs
      have same : Inv cfg { s with mpc := .reaping (i + 1) } := inv_main h hr (fun k e => nomatch e) (fun e => nomatch e) (fun _ e => nomatch e) hsc (Nat.le_refl _) (fun w e => e) (fun k => rfl)
        (Or.inr fun hw => ⟨hw.size, Or.inl (hm hw), hw.all⟩)
      cases y with
      | none => injection hs with hs; subst hs; exact same
      | some w =>
        simp only [] at hs
        by_cases hi : w.isIdle = true
        · rw [if_pos hi] at hs; injection hs with hs; subst hs
          have hmem := List.mem_of_getElem? hg
          obtain ⟨h1, h2, _⟩ := idle_not_coming (h.w w hmem) hi
          refine inv_main h hr (fun k e => nomatch e) (fun e => nomatch e) (fun _ e => nomatch e) hsc (by rw [List.length_set]; exact Nat.le_refl _) (fun v e => ?_) (fun k => ?_) (Or.inr fun hw => ?_)
          · rcases List.mem_or_eq_of_mem_set e with e | e
            · exact e
            · cases e
          · have := count_set pendingOf k none s.workers i (some w) hg
            have e : pendingOf (some w) = [] := by unfold pendingOf; simp only [h1]
            rw [e] at this; exact this
          · obtain ⟨v, hv, hc⟩ := hw.all _ hmem
            injection hv with hv; rw [← hv] at hc; exact absurd hc h2
        · rw [if_neg hi] at hs; injection hs with hs; subst hs; exact same
  | running k =>
    rw [hp] at hs; simp only [] at hs
    by_cases hf : free s = true
    · rw [if_pos hf] at hs
      obtain ⟨hf1, hf2⟩ := (free_iff s).1 hf
      injection hs with hs; subst hs
      have ht := h.running k hp
      refine { h with running := (fun j e => nomatch e), asleep := (fun _ e => nomatch e), unborn := (fun e => nomatch e), log := fun j => ?_, scan := fun x hx => ?_, wait := fun c x hx hwk => ?_ }
      · have h1 := h.log j
        rw [pending_eq] at h1 ⊢
        have h2 : mainPending s = [] := by unfold mainPending; rw [ht, hp]
        rw [h2] at h1
        exact h1
      · have hx : s.scan = some x := hx
        rw [hf1] at hx; cases hx
      · have hw := h.wait c x hx hwk
        exact ⟨hw.size, Or.inr rfl, hw.all⟩
    · rw [if_neg hf] at hs; cases hs

theorem step_inv {cfg : Cfg} {s s' : State} {a : Act} {o : Out} (h : Inv cfg s) (hs : step cfg s a = some (o, s')) : Inv cfg s' := by
  have hset : ∀ (c : Nat) (v : Option Waiter), (∀ x, v = some x → x.woken = false → Waits cfg s) → Inv cfg { s with waiters := set s.waiters c v } := by
    intro c v hv
    refine { h with scan := fun x hx => (let i := h.scan x hx; ⟨i.task, i.seen, i.start, i.main⟩), wait := fun d x hx hwk => ?_ }
    have hw : Waits cfg s := by
      by_cases e : d = c
      · rw [e] at hx; simp only [set_self] at hx; exact hv x hx hwk
      · simp only [set_ne _ _ e] at hx; exact h.wait d x hx hwk
    exact ⟨hw.size, hw.main, hw.all⟩
  cases a with
  | tryQueue c k =>
    simp only [step] at hs; split at hs
    · exact try_inv h hs
    · cases hs
  | waitQueue c k =>
    simp only [step] at hs; split at hs
    · exact try_inv h hs
    · cases hs
  | scan => exact (scan_inv h hs).1
  | waitResume c =>
    simp only [step] at hs
    split at hs
    · exact try_inv (hset c none (fun _ e => nomatch e)) hs
    · cases hs
  | waitThrow c =>
    simp only [step] at hs; split at hs
    · injection hs with hs; injection hs with _ hs; subst hs; exact hset c none (fun _ e => nomatch e)
    · cases hs
  | waitSpurious c =>
    simp only [step] at hs; split at hs
    · injection hs with hs; injection hs with _ hs; subst hs
      exact hset c _ (fun x e hwk => by injection e with e; rw [← e] at hwk; cases hwk)
    · cases hs
  | main t =>
    simp only [step] at hs
    cases hm : main cfg s t with
    | none => rw [hm] at hs; cases hs
    | some s1 => rw [hm] at hs; injection hs with hs; injection hs with _ hs; subst hs; exact main_inv h hm
  | mainSpurious =>
    simp only [step] at hs
    injection hs with hs; injection hs with _ hs; subst hs
    obtain ⟨m1, m2, m3, m4, m5⟩ := mwake_eq s.mpc
    refine { h with running := fun k e => h.running k ((m1 k).1 e), asleep := fun t e => absurd e (m2 t), unborn := fun e => h.unborn (m3.1 e), log := fun k => ?_, scan := fun x hx => ?_, wait := fun c x hx hwk => ?_ }
    · have h1 := h.log k
      rw [pending_eq] at h1 ⊢
      have : mainPending { s with mpc := s.mpc.wake } = mainPending s := by
        unfold mainPending; simp only []
        cases s.task <;> cases s.mpc <;> rfl
      rw [this]; exact h1
    · obtain ⟨a, b, c, d⟩ := h.scan x hx
      exact ⟨a, b, c, fun i e => d i ((m5 i).1 e)⟩
    · obtain ⟨a, b, d⟩ := h.wait c x hx hwk
      exact ⟨a, b.imp id m4.2, d⟩
  | worker i t =>
    simp only [step] at hs
    cases hm : worker cfg s i t with
    | none => rw [hm] at hs; cases hs
    | some s1 =>
      rw [hm] at hs; injection hs with hs; injection hs with _ hs; subst hs
      unfold worker at hm
      split at hm
      · rename_i w hg
        by_cases hh : w.pc = .handler
        · rw [if_pos hh] at hm
          by_cases hf : free s = true
          · rw [if_pos hf] at hm; injection hm with hm; subst hm
            have := inv_worker (s := notify s) (i := i) (w := w) (w' := { w with pc := .after }) (st := []) (notify_inv h) hg ?_ (Or.inr ⟨((free_iff s).1 hf).1, notify_awake s⟩) (fun e => e) ?_
            · simp only [List.append_nil] at this; exact this
            · intro ⟨a, b, c, d⟩
              refine ⟨(fun _ e => nomatch e), b, (fun _ e => nomatch e), fun e => ?_⟩
              rcases d e with e | ⟨_, _, e⟩ <;> · rw [hh] at e; cases e
            · intro k; unfold pendingOf; cases ht : w.task <;> simp [hh, ht]
          · rw [if_neg hf] at hm; cases hm
        · rw [if_neg hh] at hm
          split at hm
          · rename_i o w' hst
            injection hm with hm; subst hm
            obtain ⟨a, b, c, d⟩ := worker_step (h.w w (List.mem_of_getElem? hg)) hh hst
            exact inv_worker h hg (fun _ => a) (Or.inl b) c d
          · cases hm
      · cases hm
  | workerSpurious i =>
    simp only [step] at hs
    split at hs
    · rename_i w hg
      injection hs with hs; injection hs with _ hs; subst hs
      have := inv_worker (w' := { w with pc := w.pc.wake }) (st := []) h hg wake_winv (Or.inl ?_) (fun e => e) (fun k => by rw [wake_pending]; simp)
      · simp only [List.append_nil] at this; exact this
      · rintro (e | ⟨e1, e2⟩ | e)
        · exact Or.inl e
        · exact Or.inr (Or.inl ⟨by simp only [e1]; rfl, e2⟩)
        · exact Or.inr (Or.inr (by simp only [e]; rfl))
    · cases hs

theorem run_inv {cfg : Cfg} : ∀ {as : List Act} {s s' : State}, Inv cfg s → run cfg s as = some s' → Inv cfg s'
  | [], s, s', h, hs => by injection hs with hs; rw [← hs]; exact h
  | a :: as, s, s', h, hs => by
    simp only [run] at hs
    cases hx : step cfg s a with
    | none => rw [hx] at hs; cases hs
    | some r => rw [hx] at hs; exact run_inv (step_inv h hx) hs

/-! ### C45 -/

/-- There are never more threads than allowed. -/
theorem pool_thread_limit (cfg : Cfg) (h0 : cfg.max ≠ 0) (as : List Act) (s : State) (hr : run cfg init as = some s) : Spec.threads s ≤ cfg.max := by
  have h := (run_inv (init_inv cfg h0) hr).len
  have h2 := List.length_filter_le (·.isSome) s.workers
  unfold Spec.threads
  split <;> omega

/-- Every accepted task is started once or is still waiting for its thread: none is lost, none runs twice. -/
theorem pool_tasks_once (cfg : Cfg) (h0 : cfg.max ≠ 0) (as : List Act) (s : State) (hr : run cfg init as = some s) (k : Nat) :
    s.accepted.count k = s.started.count k + (Spec.pending s).count k := (run_inv (init_inv cfg h0) hr).log k

/-- The log of accepted tasks is the log of the calls that returned `true`. -/
theorem pool_accepted_log (cfg : Cfg) (s s' : State) (a : Act) (o : Out) (hs : step cfg s a = some (o, s')) :
    (o = .accepted → ∃ k, Spec.queueing s a = some k ∧ s'.accepted = s.accepted ++ [k]) ∧ (o ≠ .accepted → s'.accepted = s.accepted) := by
  have htry : ∀ (s0 : State) (c k : Nat) (b : Bool), tryQueue cfg s0 c k b = some (o, s') →
      (o = .accepted → s'.accepted = s0.accepted ++ [k]) ∧ (o ≠ .accepted → s'.accepted = s0.accepted) := by
    intro s0 c k b hs
    unfold tryQueue at hs
    split at hs
    · split at hs
      · injection hs with hs; injection hs with ho hs; subst hs; subst ho; exact ⟨fun _ => rfl, fun e => absurd rfl e⟩
      · injection hs with hs; injection hs with ho hs; subst hs; subst ho; exact ⟨(fun e => nomatch e), fun e => rfl⟩
    · cases hs
  cases a with
  | tryQueue c k =>
    simp only [step] at hs; split at hs
    · have := htry _ _ _ _ hs; exact ⟨fun e => ⟨k, rfl, this.1 e⟩, this.2⟩
    · cases hs
  | waitQueue c k =>
    simp only [step] at hs; split at hs
    · have := htry _ _ _ _ hs; exact ⟨fun e => ⟨k, rfl, this.1 e⟩, this.2⟩
    · cases hs
  | waitResume c =>
    simp only [step] at hs
    split at hs
    · rename_i k hk
      have := htry _ _ _ _ hs
      exact ⟨fun e => ⟨k, by simp only [Spec.queueing, hk]; rfl, this.1 e⟩, this.2⟩
    · cases hs
  | scan =>
    simp only [step] at hs
    unfold scanStep at hs
    split at hs
    · cases hs
    · rename_i x hx
      split at hs
      · injection hs with hs; injection hs with ho hs; subst hs; subst ho
        exact ⟨fun _ => ⟨x.task, by simp only [Spec.queueing, hx]; rfl, rfl⟩, fun e => absurd rfl e⟩
      · split at hs
        · injection hs with hs; injection hs with ho hs; subst hs; subst ho
          exact ⟨fun _ => ⟨x.task, by simp only [Spec.queueing, hx]; rfl, rfl⟩, fun e => absurd rfl e⟩
        · injection hs with hs; injection hs with ho hs; subst hs; subst ho; exact ⟨(fun e => nomatch e), fun _ => rfl⟩
      · split at hs
        · injection hs with hs; injection hs with ho hs; subst hs; subst ho; exact ⟨(fun e => nomatch e), fun _ => rfl⟩
        · injection hs with hs; injection hs with ho hs; subst hs; subst ho
          exact ⟨fun _ => ⟨x.task, by simp only [Spec.queueing, hx]; rfl, rfl⟩, fun e => absurd rfl e⟩
  | waitThrow c =>
    simp only [step] at hs; split at hs
    · injection hs with hs; injection hs with ho hs; subst hs; subst ho; exact ⟨(fun e => nomatch e), fun _ => rfl⟩
    · cases hs
  | waitSpurious c =>
    simp only [step] at hs; split at hs
    · injection hs with hs; injection hs with ho hs; subst hs; subst ho; exact ⟨(fun e => nomatch e), fun _ => rfl⟩
    · cases hs
  | main t =>
    simp only [step] at hs
    cases hm : main cfg s t with
    | none => rw [hm] at hs; cases hs
    | some s1 =>
      rw [hm] at hs; injection hs with hs; injection hs with ho hs; subst hs; subst ho
      refine ⟨(fun e => nomatch e), fun _ => ?_⟩
      unfold main notify at hm
      repeat' split at hm
      all_goals first | (cases hm; done) | (injection hm with hm; subst hm; rfl)
  | mainSpurious =>
    simp only [step] at hs
    injection hs with hs; injection hs with ho hs; subst hs; subst ho; exact ⟨(fun e => nomatch e), fun _ => rfl⟩
  | worker i t =>
    simp only [step] at hs
    cases hm : worker cfg s i t with
    | none => rw [hm] at hs; cases hs
    | some s1 =>
      rw [hm] at hs; injection hs with hs; injection hs with ho hs; subst hs; subst ho
      refine ⟨(fun e => nomatch e), fun _ => ?_⟩
      unfold worker notify at hm
      repeat' split at hm
      all_goals first | (cases hm; done) | (injection hm with hm; subst hm; rfl)
  | workerSpurious i =>
    simp only [step] at hs; split at hs
    · injection hs with hs; injection hs with ho hs; subst hs; subst ho; exact ⟨(fun e => nomatch e), fun _ => rfl⟩
    · cases hs

/-- `CanQueue` says whether there is a thread, or room for one, without a task. -/
theorem pool_canQueue (cfg : Cfg) (s : State) : canQueue cfg s = true ↔ ¬ Spec.Full cfg s := by
  rw [canQueue_iff]
  unfold Spec.Full
  constructor
  · rintro (e | e | ⟨y, hy, e⟩) ⟨h1, h2, h3⟩
    · exact h1 e
    · omega
    · obtain ⟨x, hx, ht⟩ := h3 y hy
      subst hx
      unfold busy at e
      cases hx : x.task with
      | none => exact ht hx
      | some k => simp [hx] at e
  · intro h
    by_cases h1 : s.task = none
    · exact Or.inl h1
    · by_cases h2 : cfg.max ≤ s.workers.length + 1
      · right; right
        have h3 : ¬ ∀ w ∈ s.workers, ∃ x, w = some x ∧ x.task ≠ none := fun e => h ⟨h1, h2, e⟩
        apply Classical.byContradiction
        intro hn
        apply h3
        intro w hw
        cases w with
        | none => exact absurd ⟨none, hw, rfl⟩ hn
        | some x =>
          refine ⟨x, rfl, fun e => hn ⟨some x, hw, ?_⟩⟩
          unfold busy; simp only [e]; rfl
      · right; left; omega

/-- The mark of a call going through the workers is what `CanQueue` said when the call began. -/
theorem pool_call_mark (cfg : Cfg) (s s' : State) (c k : Nat) (b : Bool) (o : Out) (x : Scan) (hs : tryQueue cfg s c k b = some (o, s')) (hx : s'.scan = some x) :
    x.full = false ↔ ¬ Spec.Full cfg s := by
  rw [← pool_canQueue]
  unfold tryQueue at hs
  split at hs
  · rename_i hf
    split at hs
    · injection hs with hs; injection hs with ho hs; subst hs
      have hx : s.scan = some x := hx
      rw [((free_iff s).1 hf).1] at hx; cases hx
    · injection hs with hs; injection hs with ho hs; subst hs
      injection hx with hx; subst hx
      simp
  · cases hs

/-- A call is refused only if every thread the pool may have was busy when it began. -/
theorem pool_refused_full (cfg : Cfg) (h0 : cfg.max ≠ 0) (as : List Act) (s s' : State) (a : Act) (b : Bool) (hr : run cfg init as = some s) (hs : step cfg s a = some (.refused b, s')) :
    b = true := by
  have h := run_inv (init_inv cfg h0) hr
  have htry : ∀ (s0 : State) (c k : Nat) (b' : Bool), tryQueue cfg s0 c k b' ≠ some (.refused b, s') := by
    intro s0 c k b' hs
    unfold tryQueue at hs
    split at hs
    · split at hs <;> · injection hs with hs; injection hs with ho hs; cases ho
    · cases hs
  cases a with
  | scan => exact (scan_inv h hs).2 b rfl
  | tryQueue c k => simp only [step] at hs; split at hs; exact absurd hs (htry _ _ _ _); cases hs
  | waitQueue c k => simp only [step] at hs; split at hs; exact absurd hs (htry _ _ _ _); cases hs
  | waitResume c => simp only [step] at hs; split at hs; exact absurd hs (htry _ _ _ _); cases hs
  | waitThrow c => simp only [step] at hs; split at hs <;> cases hs
  | waitSpurious c => simp only [step] at hs; split at hs <;> cases hs
  | main t => simp only [step] at hs; cases hm : main cfg s t <;> · rw [hm] at hs; cases hs
  | mainSpurious => simp only [step] at hs; cases hs
  | worker i t => simp only [step] at hs; cases hm : worker cfg s i t <;> · rw [hm] at hs; cases hs
  | workerSpurious i => simp only [step] at hs; split at hs <;> cases hs

/-- A call queues the task it was called with, and after a wait tries again with the same one. -/
theorem pool_call_task (cfg : Cfg) (s s' : State) (o : Out) : (∀ c k b x, tryQueue cfg s c k b = some (o, s') → s'.scan = some x → x.caller = c ∧ x.task = k ∧ x.wait = b) ∧
    ∀ x, s.scan = some x → step cfg s .scan = some (o, s') → (o = .none → ∃ n, s'.scan = some { x with next := n }) ∧
      (∀ f, o = .refused f → s'.scan = none ∧ ∀ c, s'.waiters c = if x.wait ∧ c = x.caller then some ⟨x.task, false⟩ else s.waiters c) := by
  refine ⟨fun c k b x hs hx => ?_, fun x hx hs => ?_⟩
  · unfold tryQueue at hs
    split at hs
    · rename_i hf
      split at hs
      · injection hs with hs; injection hs with ho hs; subst hs
        have hx : s.scan = some x := hx
        rw [((free_iff s).1 hf).1] at hx; cases hx
      · injection hs with hs; injection hs with ho hs; subst hs
        injection hx with hx; subst hx; exact ⟨rfl, rfl, rfl⟩
    · cases hs
  · simp only [step, scanStep, hx] at hs
    split at hs
    · injection hs with hs; injection hs with ho hs; subst ho; exact ⟨(fun e => nomatch e), fun _ e => nomatch e⟩
    · split at hs
      · injection hs with hs; injection hs with ho hs; subst ho; exact ⟨(fun e => nomatch e), fun _ e => nomatch e⟩
      · injection hs with hs; injection hs with ho hs; subst hs; subst ho; exact ⟨fun _ => ⟨_, rfl⟩, fun _ e => nomatch e⟩
    · split at hs
      · injection hs with hs; injection hs with ho hs; subst hs; subst ho
        refine ⟨(fun e => nomatch e), fun _ _ => ⟨rfl, fun c => ?_⟩⟩
        simp only []
        cases x.wait with
        | false => simp
        | true => simp only [if_true, true_and]; rfl
      · injection hs with hs; injection hs with ho hs; subst ho; exact ⟨(fun e => nomatch e), fun _ e => nomatch e⟩

theorem drop_get {w : Worker} : ∀ (l : List (Option Worker)) (i : Nat), (dropNone l)[i]? = some (some w) → l[i]? = some (some w)
  | [], i, h => by simp [dropNone] at h
  | x :: xs, i, h => by
    unfold dropNone at h
    split at h
    · simp at h
    · cases i with
      | zero => exact h
      | succ i => rw [List.getElem?_cons_succ] at h ⊢; exact drop_get xs i h

/-- A worker becomes idle (and may then be removed) in one way only: a wait with the idle timeout that ran out. -/
theorem pool_idle (cfg : Cfg) (s s' : State) (a : Act) (o : Out) (i : Nat) (w w' : Worker) (hs : step cfg s a = some (o, s'))
    (hg : s.workers[i]? = some (some w)) (hg' : s'.workers[i]? = some (some w')) (hw : w.idle = false) (hw' : w'.idle = true) :
    a = .worker i true ∧ ∃ b, w.pc = .waiting true b := by
  have hlt : i < s.workers.length := (List.getElem?_eq_some_iff.1 hg).1
  have same : s'.workers ≠ s.workers := fun e => by
    rw [e, hg] at hg'; injection hg' with hg'; injection hg' with hg'; rw [hg', hw'] at hw; cases hw
  have hset : ∀ (j : Nat) (v : Worker), s'.workers = s.workers.set j (some v) → j = i ∧ v = w' := fun j v e => by
    by_cases e' : j = i
    · rw [e, List.getElem?_set, if_pos e', if_pos (by rw [e']; exact hlt)] at hg'
      injection hg' with hg'; injection hg' with hg'
      exact ⟨e', hg'⟩
    · rw [e, List.getElem?_set, if_neg e', hg] at hg'; injection hg' with hg'; injection hg' with hg'; rw [hg', hw'] at hw; cases hw
  have hnone : ∀ j : Nat, s'.workers ≠ s.workers.set j none := fun j e => by
    by_cases e' : j = i
    · rw [e, List.getElem?_set, if_pos e', if_pos (by rw [e']; exact hlt)] at hg'; injection hg' with hg'; cases hg'
    · rw [e, List.getElem?_set, if_neg e', hg] at hg'; injection hg' with hg'; injection hg' with hg'; rw [hg', hw'] at hw; cases hw
  have hdrop : s'.workers ≠ dropNone s.workers := fun e => by
    rw [e] at hg'
    have := drop_get _ _ hg'
    rw [hg] at this; injection this with this; injection this with this; rw [this, hw'] at hw; cases hw
  have htry : ∀ (s0 : State) (c k : Nat) (b' : Bool), s0.workers = s.workers → tryQueue cfg s0 c k b' ≠ some (o, s') := by
    intro s0 c k b' he hs
    unfold tryQueue at hs
    split at hs
    · split at hs <;> · injection hs with hs; injection hs with ho hs; subst hs; exact same he
    · cases hs
  cases a with
  | tryQueue c k => simp only [step] at hs; split at hs; exact absurd hs (htry _ _ _ _ rfl); cases hs
  | waitQueue c k => simp only [step] at hs; split at hs; exact absurd hs (htry _ _ _ _ rfl); cases hs
  | waitResume c => simp only [step] at hs; split at hs; exact absurd hs (htry _ _ _ _ rfl); cases hs
  | scan =>
    simp only [step] at hs
    unfold scanStep at hs
    repeat' split at hs
    all_goals first
      | (cases hs; done)
      | (injection hs with hs; injection hs with ho hs; subst hs; exact absurd rfl same)
      | (injection hs with hs; injection hs with ho hs; subst hs; have := (hset _ _ rfl).2; rw [← this] at hw'; cases hw'; done)
      | (injection hs with hs; injection hs with ho hs; subst hs; simp only [] at hg'; rw [List.getElem?_append_left hlt, hg] at hg'
         injection hg' with hg'; injection hg' with hg'; rw [hg', hw'] at hw; cases hw; done)
  | waitThrow c => simp only [step] at hs; split at hs; injection hs with hs; injection hs with ho hs; subst hs; exact absurd rfl same; cases hs
  | waitSpurious c => simp only [step] at hs; split at hs; injection hs with hs; injection hs with ho hs; subst hs; exact absurd rfl same; cases hs
  | main t =>
    simp only [step] at hs
    cases hm : main cfg s t with
    | none => rw [hm] at hs; cases hs
    | some s1 =>
      rw [hm] at hs; injection hs with hs; injection hs with ho hs; subst hs; subst ho
      unfold main notify at hm
      split at hm
      · cases hm
      · repeat' split at hm
        all_goals first | (cases hm; done) | (injection hm with hm; subst hm; exact absurd rfl same)
      · repeat' split at hm
        all_goals first | (cases hm; done) | (injection hm with hm; subst hm; first | exact absurd rfl same | exact absurd rfl hdrop)
      · repeat' split at hm
        all_goals (injection hm with hm; subst hm; first | exact absurd rfl same | exact absurd rfl (hnone _) | exact absurd rfl hdrop)
      · split at hm
        · injection hm with hm; subst hm; exact absurd rfl same
        · cases hm
  | mainSpurious => simp only [step] at hs; injection hs with hs; injection hs with ho hs; subst hs; exact absurd rfl same
  | worker j t =>
    simp only [step] at hs
    cases hm : worker cfg s j t with
    | none => rw [hm] at hs; cases hs
    | some s1 =>
      rw [hm] at hs; injection hs with hs; injection hs with ho hs; subst hs; subst ho
      unfold worker notify at hm
      split at hm
      · rename_i v hv
        split at hm
        · split at hm
          · injection hm with hm; subst hm
            obtain ⟨e1, e2⟩ := hset _ _ rfl
            subst e1; rw [hg] at hv; injection hv with hv; injection hv with hv; subst hv
            rw [← e2] at hw'; simp only [] at hw'; rw [hw] at hw'; cases hw'
          · cases hm
        · split at hm
          · rename_i k v' hstep
            injection hm with hm; subst hm
            obtain ⟨e1, e2⟩ := hset _ _ rfl
            subst e1; rw [hg] at hv; injection hv with hv; injection hv with hv; subst hv
            subst e2
            unfold Worker.step at hstep
            repeat' split at hstep
            all_goals first
              | (cases hstep; done)
              | (injection hstep with hstep; injection hstep with _ hstep; rw [← hstep] at hw'; simp only [] at hw'; rw [hw] at hw'; cases hw'; done)
              | (injection hstep with hstep; injection hstep with _ hstep; rw [← hstep] at hw'; simp only [] at hw'; split at hw' <;> first | (cases hw'; done) | (rw [hw] at hw'; cases hw'; done))
              | (injection hstep with hstep; injection hstep with _ hstep; rw [← hstep] at hw'; cases hw'; done)
              | (rename_i hpc hc; exact ⟨by rw [hc.1], _, by rw [hpc, hc.2]⟩)
          · cases hm
      · cases hm
  | workerSpurious j =>
    simp only [step] at hs
    split at hs
    · rename_i v hv
      injection hs with hs; injection hs with ho hs; subst hs
      obtain ⟨e1, e2⟩ := hset _ _ rfl
      subst e1; rw [hg] at hv; injection hv with hv; injection hv with hv; subst hv
      rw [← e2] at hw'; simp only [] at hw'; rw [hw] at hw'; cases hw'
    · cases hs

/-- A worker that is removed has no task, and it ends without the mutex that the remover holds. -/
theorem pool_reap (cfg : Cfg) (h0 : cfg.max ≠ 0) (as : List Act) (s s' : State) (a : Act) (o : Out) (i : Nat) (w : Worker) (hr : run cfg init as = some s) (hs : step cfg s a = some (o, s'))
    (hg : s.workers[i]? = some (some w)) (hn : ∀ w', s'.workers[i]? ≠ some (some w')) : w.task = none ∧ w.idle = true ∧ (w.pc = .top ∧ w.completed = true ∨ ∃ t b, w.pc = .waiting t b) := by
  have h := run_inv (init_inv cfg h0) hr
  have hlt : i < s.workers.length := (List.getElem?_eq_some_iff.1 hg).1
  have same : s'.workers ≠ s.workers := fun e => hn w (by rw [e]; exact hg)
  have hset : ∀ (j : Nat) (v : Worker), s'.workers ≠ s.workers.set j (some v) := fun j v e => by
    by_cases e' : j = i
    · exact hn v (by rw [e, List.getElem?_set, if_pos e', e', if_pos hlt])
    · exact hn w (by rw [e, List.getElem?_set, if_neg e']; exact hg)
  have htry : ∀ (s0 : State) (c k : Nat) (b' : Bool), s0.workers = s.workers → tryQueue cfg s0 c k b' ≠ some (o, s') := by
    intro s0 c k b' he hs
    unfold tryQueue at hs
    split at hs
    · split at hs <;> · injection hs with hs; injection hs with ho hs; subst hs; exact same he
    · cases hs
  have hdrop : s'.workers ≠ dropNone s.workers := fun e => by
    have key : ∀ (l : List (Option Worker)) (i : Nat), l[i]? = some (some w) → (dropNone l)[i]? = some (some w) := by
      intro l
      induction l with
      | nil => intro i h; simp at h
      | cons x xs ih =>
        intro i h
        unfold dropNone
        split
        · rename_i hd
          cases i with
          | zero => simp at h
          | succ i =>
            rw [List.getElem?_cons_succ] at h
            have := ih i h; rw [hd] at this; simp at this
        · cases i with
          | zero => exact h
          | succ i => rw [List.getElem?_cons_succ] at h ⊢; exact ih i h
    exact hn w (by rw [e]; exact key _ _ hg)
  cases a with
  | tryQueue c k => simp only [step] at hs; split at hs; exact absurd hs (htry _ _ _ _ rfl); cases hs
  | waitQueue c k => simp only [step] at hs; split at hs; exact absurd hs (htry _ _ _ _ rfl); cases hs
  | waitResume c => simp only [step] at hs; split at hs; exact absurd hs (htry _ _ _ _ rfl); cases hs
  | scan =>
    simp only [step] at hs
    unfold scanStep at hs
    repeat' split at hs
    all_goals first
      | (cases hs; done)
      | (injection hs with hs; injection hs with ho hs; subst hs; exact absurd rfl same)
      | (injection hs with hs; injection hs with ho hs; subst hs; exact absurd rfl (hset _ _))
      | (injection hs with hs; injection hs with ho hs; subst hs; exact absurd (by simp only []; rw [List.getElem?_append_left hlt]; exact hg) (hn w))
  | waitThrow c => simp only [step] at hs; split at hs; injection hs with hs; injection hs with ho hs; subst hs; exact absurd rfl same; cases hs
  | waitSpurious c => simp only [step] at hs; split at hs; injection hs with hs; injection hs with ho hs; subst hs; exact absurd rfl same; cases hs
  | main t =>
    simp only [step] at hs
    cases hm : main cfg s t with
    | none => rw [hm] at hs; cases hs
    | some s1 =>
      rw [hm] at hs; injection hs with hs; injection hs with ho hs; subst hs; subst ho
      unfold main notify at hm
      split at hm
      · cases hm
      · repeat' split at hm
        all_goals first | (cases hm; done) | (injection hm with hm; subst hm; exact absurd rfl same)
      · repeat' split at hm
        all_goals first | (cases hm; done) | (injection hm with hm; subst hm; first | exact absurd rfl same | exact absurd rfl hdrop)
      · split at hm
        · rename_i j _ _ v hv
          by_cases hi : v.isIdle = true
          · rw [if_pos hi] at hm; injection hm with hm; subst hm
            by_cases e : j = i
            · rw [e, hg] at hv; injection hv with hv; injection hv with hv; rw [← hv] at hi
              have := idle_not_coming (h.w w (List.mem_of_getElem? hg)) hi
              unfold Worker.isIdle at hi
              simp only [Bool.and_eq_true] at hi
              exact ⟨this.1, hi.2, this.2.2.imp (fun e => ⟨e, hi.1.2⟩) id⟩
            · exact absurd (by simp only []; rw [List.getElem?_set, if_neg e]; exact hg) (hn w)
          · rw [if_neg hi] at hm; injection hm with hm; subst hm; exact absurd rfl same
        · injection hm with hm; subst hm; exact absurd rfl same
        · injection hm with hm; subst hm; exact absurd rfl hdrop
      · split at hm
        · injection hm with hm; subst hm; exact absurd rfl same
        · cases hm
  | mainSpurious => simp only [step] at hs; injection hs with hs; injection hs with ho hs; subst hs; exact absurd rfl same
  | worker j t =>
    simp only [step] at hs
    cases hm : worker cfg s j t with
    | none => rw [hm] at hs; cases hs
    | some s1 =>
      rw [hm] at hs; injection hs with hs; injection hs with ho hs; subst hs; subst ho
      unfold worker notify at hm
      repeat' split at hm
      all_goals first | (cases hm; done) | (injection hm with hm; subst hm; exact absurd rfl (hset _ _))
  | workerSpurious j => simp only [step] at hs; split at hs; injection hs with hs; injection hs with ho hs; subst hs; exact absurd rfl (hset _ _); cases hs

/-- Whoever holds the mutex of the pool can go on. -/
theorem pool_mutex_progress (cfg : Cfg) (s : State) (h : free s = false) : (scanStep cfg s ≠ none) ∨ ∃ i, s.mpc = .reaping i ∧ main cfg s false ≠ none := by
  unfold free at h
  cases hx : s.scan with
  | some x =>
    left
    unfold scanStep
    rw [hx]; simp only []
    repeat' split
    all_goals exact fun e => nomatch e
  | none =>
    right
    cases hp : s.mpc with
    | reaping i =>
      refine ⟨i, rfl, ?_⟩
      unfold main; rw [hp]; simp only []
      repeat' split
      all_goals exact fun e => nomatch e
    | _ => simp [hx, hp] at h

/-- A task given to a worker starts: the worker is never asleep, can always go on (once the mutex of the pool is free, in one place), and each of its steps brings it nearer. -/
theorem pool_worker_starts (cfg : Cfg) (h0 : cfg.max ≠ 0) (as : List Act) (s : State) (i k : Nat) (w : Worker) (hr : run cfg init as = some s) (hg : s.workers[i]? = some (some w))
    (ht : w.task = some k) (hp : ∀ j, w.pc ≠ .running j) :
    (free s = true ∨ w.pc ≠ .handler → step cfg s (.worker i false) ≠ none) ∧
    ∀ o t s', step cfg s (.worker i t) = some (o, s') → ∃ w', s'.workers[i]? = some (some w') ∧ w'.task = some k ∧ Spec.dist w'.pc < Spec.dist w.pc ∧
      (Spec.dist w'.pc = 0 → s'.started = s.started ++ [k] ∧ w'.pc = .running k) := by
  have h := run_inv (init_inv cfg h0) hr
  have hw := h.w w (List.mem_of_getElem? hg)
  have hlt : i < s.workers.length := (List.getElem?_eq_some_iff.1 hg).1
  obtain ⟨task, completed, idle, pc⟩ := w
  simp only at ht hp
  subst ht
  have get : ∀ v : Worker, (s.workers.set i (some v))[i]? = some (some v) := fun v => by rw [List.getElem?_set, if_pos rfl, if_pos hlt]
  cases pc with
  | running j => exact absurd rfl (hp j)
  | top =>
    have e : ∀ t, step cfg s (.worker i t) = some (.none, { s with workers := s.workers.set i (some ⟨some k, completed, idle, .running k⟩), started := s.started ++ [k] }) := fun t => by
      simp only [step, worker, hg]; rw [if_neg (fun e => nomatch e)]; rfl
    refine ⟨fun _ e' => (by rw [e] at e'; cases e'), fun o t s' hs => ?_⟩
    rw [e] at hs; injection hs with hs; injection hs with ho hs; subst hs
    exact ⟨_, get _, rfl, by simp [Spec.dist], fun _ => ⟨rfl, rfl⟩⟩
  | after =>
    have e : ∀ t, step cfg s (.worker i t) = some (.none, { s with workers := s.workers.set i (some ⟨some k, completed, idle, .top⟩), started := s.started ++ [] }) := fun t => by
      simp only [step, worker, hg]; rw [if_neg (fun e => nomatch e)]; rfl
    refine ⟨fun _ e' => (by rw [e] at e'; cases e'), fun o t s' hs => ?_⟩
    rw [e] at hs; injection hs with hs; injection hs with ho hs; subst hs
    exact ⟨_, get _, rfl, by simp [Spec.dist], fun e => nomatch e⟩
  | handler =>
    have e : ∀ t, free s = true → step cfg s (.worker i t) = some (.none, { notify s with workers := s.workers.set i (some ⟨some k, completed, idle, .after⟩) }) := fun t hf => by
      simp only [step, worker, hg]; rw [if_pos trivial, if_pos hf]; rfl
    refine ⟨fun hf e' => ?_, fun o t s' hs => ?_⟩
    · rcases hf with hf | hf
      · rw [e _ hf] at e'; cases e'
      · exact hf rfl
    · by_cases hf : free s = true
      · rw [e _ hf] at hs; injection hs with hs; injection hs with ho hs; subst hs
        exact ⟨_, get _, rfl, by simp [Spec.dist], fun e => nomatch e⟩
      · simp only [step, worker, hg] at hs; rw [if_pos trivial, if_neg hf] at hs; cases hs
  | waiting ti wo =>
    cases wo with
    | false => have := hw.asleep ti rfl; cases this
    | true =>
      have e : ∀ t, ∃ b, step cfg s (.worker i t) = some (.none, { s with workers := s.workers.set i (some ⟨some k, completed, b, .top⟩), started := s.started ++ [] }) := fun t => by
        simp only [step, worker, hg]; rw [if_neg (fun e => nomatch e)]
        simp only [Worker.step]
        by_cases hc : t = true ∧ ti = true
        · rw [if_pos hc]; exact ⟨true, rfl⟩
        · rw [if_neg hc, if_pos trivial]; exact ⟨_, rfl⟩
      refine ⟨fun _ e' => (by obtain ⟨b, e⟩ := e false; rw [e] at e'; cases e'), fun o t s' hs => ?_⟩
      obtain ⟨b, e⟩ := e t
      rw [e] at hs; injection hs with hs; injection hs with ho hs; subst hs
      exact ⟨_, get _, rfl, by simp [Spec.dist], fun e => nomatch e⟩

/-- The steps of the others do not move a worker with a task away from starting it. -/
theorem pool_worker_kept (cfg : Cfg) (h0 : cfg.max ≠ 0) (as : List Act) (s s' : State) (a : Act) (o : Out) (i k : Nat) (w : Worker) (hr : run cfg init as = some s)
    (hg : s.workers[i]? = some (some w)) (ht : w.task = some k) (hs : step cfg s a = some (o, s')) (hn : ∀ t, a ≠ .worker i t) :
    s'.workers[i]? = some (some w) ∨ s'.workers[i]? = some (some { w with pc := w.pc.wake }) ∧ Spec.dist w.pc.wake = Spec.dist w.pc := by
  have hlt : i < s.workers.length := (List.getElem?_eq_some_iff.1 hg).1
  have hdrop : ∀ (l : List (Option Worker)) (i : Nat), l[i]? = some (some w) → (dropNone l)[i]? = some (some w) := by
    intro l
    induction l with
    | nil => intro i h; simp at h
    | cons x xs ih =>
      intro i h
      unfold dropNone
      split
      · rename_i hd
        cases i with
        | zero => simp at h
        | succ i =>
          rw [List.getElem?_cons_succ] at h
          have := ih i h; rw [hd] at this; simp at this
      · cases i with
        | zero => exact h
        | succ i => rw [List.getElem?_cons_succ] at h ⊢; exact ih i h
  have hset : ∀ (j : Nat) (v : Option Worker), j ≠ i → (s.workers.set j v)[i]? = some (some w) := fun j v e => by rw [List.getElem?_set, if_neg e]; exact hg
  have htry : ∀ (s0 : State) (c k : Nat) (b' : Bool), s0.workers = s.workers → tryQueue cfg s0 c k b' = some (o, s') → s'.workers = s.workers := by
    intro s0 c k b' he hs
    unfold tryQueue at hs
    split at hs
    · split at hs <;> · injection hs with hs; injection hs with ho hs; subst hs; exact he
    · cases hs
  have fin : s'.workers = s.workers → s'.workers[i]? = some (some w) ∨ s'.workers[i]? = some (some { w with pc := w.pc.wake }) ∧ Spec.dist w.pc.wake = Spec.dist w.pc :=
    fun e => Or.inl (by rw [e]; exact hg)
  cases a with
  | tryQueue c k => simp only [step] at hs; split at hs; exact fin (htry _ _ _ _ rfl hs); cases hs
  | waitQueue c k => simp only [step] at hs; split at hs; exact fin (htry _ _ _ _ rfl hs); cases hs
  | waitResume c => simp only [step] at hs; split at hs; exact fin (htry _ _ _ _ (by rfl) hs); cases hs
  | scan =>
    simp only [step] at hs
    unfold scanStep at hs
    split at hs
    · cases hs
    · rename_i x hx
      split at hs
      · rename_i hv
        injection hs with hs; injection hs with ho hs; subst hs
        exact Or.inl (hset _ _ (fun e => by rw [e, hg] at hv; cases hv))
      · rename_i v hv
        split at hs
        · rename_i hvt
          injection hs with hs; injection hs with ho hs; subst hs
          exact Or.inl (hset _ _ (fun e => by rw [e, hg] at hv; injection hv with hv; injection hv with hv; rw [← hv, ht] at hvt; cases hvt))
        · injection hs with hs; injection hs with ho hs; subst hs; exact fin rfl
      · split at hs
        · injection hs with hs; injection hs with ho hs; subst hs; exact fin rfl
        · injection hs with hs; injection hs with ho hs; subst hs
          exact Or.inl (by simp only []; rw [List.getElem?_append_left hlt]; exact hg)
  | waitThrow c => simp only [step] at hs; split at hs; injection hs with hs; injection hs with ho hs; subst hs; exact fin rfl; cases hs
  | waitSpurious c => simp only [step] at hs; split at hs; injection hs with hs; injection hs with ho hs; subst hs; exact fin rfl; cases hs
  | main t =>
    simp only [step] at hs
    cases hm : main cfg s t with
    | none => rw [hm] at hs; cases hs
    | some s1 =>
      rw [hm] at hs; injection hs with hs; injection hs with ho hs; subst hs; subst ho
      unfold main notify at hm
      split at hm
      · cases hm
      · repeat' split at hm
        all_goals first | (cases hm; done) | (injection hm with hm; subst hm; exact fin rfl)
      · repeat' split at hm
        all_goals first | (cases hm; done) | (injection hm with hm; subst hm; first | exact fin rfl | exact Or.inl (hdrop _ _ hg))
      · split at hm
        · rename_i j _ _ v hv
          by_cases hi : v.isIdle = true
          · rw [if_pos hi] at hm; injection hm with hm; subst hm
            refine Or.inl (hset _ _ (fun e => ?_))
            rw [e, hg] at hv; injection hv with hv; injection hv with hv; rw [← hv] at hi
            unfold Worker.isIdle at hi; rw [ht] at hi; simp at hi
          · rw [if_neg hi] at hm; injection hm with hm; subst hm; exact fin rfl
        · injection hm with hm; subst hm; exact fin rfl
        · injection hm with hm; subst hm; exact Or.inl (hdrop _ _ hg)
      · split at hm
        · injection hm with hm; subst hm; exact fin rfl
        · cases hm
  | mainSpurious => simp only [step] at hs; injection hs with hs; injection hs with ho hs; subst hs; exact fin rfl
  | worker j t =>
    have hne : j ≠ i := fun e => hn t (by rw [e])
    simp only [step] at hs
    cases hm : worker cfg s j t with
    | none => rw [hm] at hs; cases hs
    | some s1 =>
      rw [hm] at hs; injection hs with hs; injection hs with ho hs; subst hs; subst ho
      unfold worker notify at hm
      repeat' split at hm
      all_goals first | (cases hm; done) | (injection hm with hm; subst hm; exact Or.inl (hset _ _ hne))
  | workerSpurious j =>
    simp only [step] at hs; split at hs
    · rename_i v hv
      injection hs with hs; injection hs with ho hs; subst hs
      by_cases e : j = i
      · rw [e, hg] at hv; injection hv with hv; injection hv with hv; subst hv
        refine Or.inr ⟨by simp only []; rw [e, List.getElem?_set, if_pos rfl, if_pos hlt], ?_⟩
        cases w.pc <;> rfl
      · exact Or.inl (hset _ _ e)
    · cases hs

/-- The same for the task given to the first thread. -/
theorem pool_first_starts (cfg : Cfg) (h0 : cfg.max ≠ 0) (as : List Act) (s : State) (k : Nat) (hr : run cfg init as = some s) (ht : s.task = some k) (hp : ∀ j, s.mpc ≠ .running j) :
    (free s = true ∨ (∃ i, s.mpc = .reaping i) → step cfg s (.main false) ≠ none) ∧
    ∀ o t s', step cfg s (.main t) = some (o, s') → s'.task = some k ∧ Spec.mdist cfg s'.mpc < Spec.mdist cfg s.mpc ∧ (Spec.mdist cfg s'.mpc = 0 → s'.started = s.started ++ [k] ∧ s'.mpc = .running k) := by
  have h := run_inv (init_inv cfg h0) hr
  cases hq : s.mpc with
  | notStarted => have := (h.unborn hq).1; rw [ht] at this; cases this
  | running j => exact absurd hq (hp j)
  | top =>
    refine ⟨fun hf e => ?_, fun o t s' hs => ?_⟩
    · rcases hf with hf | ⟨i, hf⟩
      · simp only [step, main, hq, ht] at e; rw [if_pos hf] at e; cases e
      · cases hf
    · simp only [step, main, hq, ht] at hs
      split at hs
      · injection hs with hs; injection hs with ho hs; subst hs
        exact ⟨rfl, by simp [Spec.mdist], fun _ => ⟨rfl, rfl⟩⟩
      · cases hs
  | reaping i =>
    have e : ∀ t, ∃ p ws, (p = .top ∨ p = .reaping (i + 1) ∧ i < s.workers.length) ∧ main cfg s t = some { s with mpc := p, workers := ws } := by
      intro t
      simp only [main, hq]
      cases hg : s.workers[i]? with
      | none => exact ⟨_, _, Or.inl rfl, rfl⟩
      | some y =>
        have := (List.getElem?_eq_some_iff.1 hg).1
        cases y with
        | none => exact ⟨_, s.workers, Or.inr ⟨rfl, this⟩, rfl⟩
        | some w => exact ⟨_, _, Or.inr ⟨rfl, this⟩, rfl⟩
    refine ⟨fun _ e' => ?_, fun o t s' hs => ?_⟩
    · obtain ⟨p, ws, _, e⟩ := e false
      simp only [step, e] at e'; cases e'
    · obtain ⟨p, ws, hpp, e⟩ := e t
      simp only [step, e] at hs
      injection hs with hs; injection hs with ho hs; subst hs
      have hl := h.len
      refine ⟨ht, ?_, fun e => ?_⟩
      · rcases hpp with hpp | ⟨hpp, hl2⟩
        · simp only [hpp, Spec.mdist]; omega
        · simp only [hpp, Spec.mdist]; omega
      · rcases hpp with hpp | ⟨hpp, hl2⟩
        · simp only [hpp, Spec.mdist] at e; cases e
        · simp only [hpp, Spec.mdist] at e; omega
  | waiting ti wo =>
    cases wo with
    | false => have := h.asleep ti hq; rw [ht] at this; cases this
    | true =>
      have e : ∀ t, free s = true → ∃ p ws, (p = .top ∨ p = .reaping 0) ∧ main cfg s t = some { s with mpc := p, workers := ws } := by
        intro t hf
        simp only [main, hq]; rw [if_pos hf]
        by_cases hc : t = true ∧ ti = true
        · rw [if_pos hc]; exact ⟨_, s.workers, Or.inr rfl, rfl⟩
        · rw [if_neg hc, if_pos trivial]; exact ⟨_, _, Or.inl rfl, rfl⟩
      refine ⟨fun hf e' => ?_, fun o t s' hs => ?_⟩
      · rcases hf with hf | ⟨i, hf⟩
        · obtain ⟨p, ws, _, e⟩ := e false hf
          simp only [step, e] at e'; cases e'
        · cases hf
      · by_cases hf : free s = true
        · obtain ⟨p, ws, hpp, e⟩ := e t hf
          simp only [step, e] at hs
          injection hs with hs; injection hs with ho hs; subst hs
          refine ⟨ht, ?_, fun e => ?_⟩
          · rcases hpp with hpp | hpp <;> · simp only [hpp, Spec.mdist]; omega
          · rcases hpp with hpp | hpp <;> · simp only [hpp, Spec.mdist] at e; omega
        · simp only [step, main, hq] at hs; rw [if_neg hf] at hs; cases hs

/-- No wake-up of `WaitQueue` is lost: if a caller sleeps although there is room for its task, a thread of the pool is about to wake it. -/
theorem pool_no_lost_wakeup (cfg : Cfg) (h0 : cfg.max ≠ 0) (as : List Act) (s : State) (c : Nat) (x : Waiter) (hr : run cfg init as = some s) (hx : s.waiters c = some x)
    (hw : x.woken = false) (hf : ¬ Spec.Full cfg s) : Spec.WillWake s := by
  have h := (run_inv (init_inv cfg h0) hr).wait c x hx hw
  by_cases ht : s.task = none
  · exact Or.inl ⟨h.main.resolve_left (fun e => e ht), ht⟩
  · apply Classical.byContradiction
    intro hn
    refine hf ⟨ht, h.size, fun y hy => ?_⟩
    obtain ⟨w, e, hc⟩ := h.all y hy
    refine ⟨w, e, fun hwt => hn (Or.inr ?_)⟩
    subst e
    obtain ⟨i, hi⟩ := List.getElem?_of_mem hy
    refine ⟨i, w, hi, hwt, ?_⟩
    rcases hc with hc | hc | hc
    · exact absurd hwt hc
    · exact Or.inr hc
    · exact Or.inl hc

/-- The three steps that such a thread takes: with the mutex free, the first thread and the completion handler wake all callers; a worker that has finished a task goes to the handler. -/
theorem pool_will_wake (cfg : Cfg) (s : State) : (s.mpc = .top → s.task = none → free s = true → ∃ s', step cfg s (.main false) = some (.none, s') ∧ ∀ c x, s'.waiters c = some x → x.woken = true) ∧
    ∀ i w, s.workers[i]? = some (some w) → w.task = none →
      (w.pc = .handler → free s = true → ∃ s', step cfg s (.worker i false) = some (.none, s') ∧ ∀ c x, s'.waiters c = some x → x.woken = true) ∧
      (w.pc = .top → w.completed = false → ∃ s' w', step cfg s (.worker i false) = some (.none, s') ∧ s'.workers[i]? = some (some w') ∧ w'.task = none ∧ w'.pc = .handler) := by
  refine ⟨fun hp ht hf => ?_, fun i w hg ht => ⟨fun hp hf => ?_, fun hp hc => ?_⟩⟩
  · simp only [step, main, hp, ht]; rw [if_pos hf]
    exact ⟨_, rfl, notify_awake s⟩
  · simp only [step, worker, hg]; rw [if_pos hp, if_pos hf]
    exact ⟨_, rfl, notify_awake s⟩
  · simp only [step, worker, hg]; rw [if_neg (by rw [hp]; exact fun e => nomatch e)]
    simp only [Worker.step, hp, ht, hc]
    refine ⟨_, { w with pc := .handler }, rfl, ?_, ht, rfl⟩
    simp only [ht]
    rw [List.getElem?_set, if_pos rfl, if_pos (List.getElem?_eq_some_iff.1 hg).1, hc]

/-- When no thread of the pool and no call can go on (without a timeout), every accepted task has been started and no caller of `WaitQueue` sleeps. -/
theorem pool_quiescent (cfg : Cfg) (h0 : cfg.max ≠ 0) (as : List Act) (s : State) (hr : run cfg init as = some s) (hsc : step cfg s .scan = none) (hm : step cfg s (.main false) = none)
    (hw : ∀ i, step cfg s (.worker i false) = none) : (∀ k, s.started.count k = s.accepted.count k) ∧ ∀ c x, s.waiters c = some x → x.woken = true := by
  have h := run_inv (init_inv cfg h0) hr
  have hfree : free s = true := by
    cases hf : free s with
    | true => rfl
    | false =>
      rcases pool_mutex_progress cfg s hf with e | ⟨i, _, e⟩
      · exact absurd hsc e
      · refine absurd ?_ e
        cases hx : main cfg s false with
        | none => rfl
        | some s1 => simp only [step, hx] at hm; cases hm
  have hmt : s.task = none ∧ s.mpc ≠ .top := by
    cases hq : s.mpc with
    | notStarted => exact ⟨(h.unborn hq).1, fun e => nomatch e⟩
    | top => simp only [step, main, hq] at hm; rw [if_pos hfree] at hm; cases ht : s.task <;> · simp only [ht] at hm; cases hm
    | reaping i => exact absurd hq (((free_iff s).1 hfree).2 i)
    | running j => simp only [step, main, hq] at hm; rw [if_pos hfree] at hm; cases hm
    | waiting ti wo =>
      refine ⟨?_, fun e => nomatch e⟩
      cases ht : s.task with
      | none => rfl
      | some k =>
        exact absurd hm ((pool_first_starts cfg h0 as s k hr ht (fun j e => by rw [hq] at e; cases e)).1 (Or.inl hfree))
  have hwt : ∀ (i : Nat) (w : Worker), s.workers[i]? = some (some w) → w.task = none := by
    intro i w hg
    cases ht : w.task with
    | none => rfl
    | some k =>
      by_cases hp : ∀ j, w.pc ≠ .running j
      · exact absurd (hw i) ((pool_worker_starts cfg h0 as s i k w hr hg ht hp).1 (Or.inl hfree))
      · exfalso; apply hp; intro j e
        have := hw i
        simp only [step, worker, hg] at this
        rw [if_neg (by rw [e]; exact fun e => nomatch e)] at this
        simp only [Worker.step, e] at this; cases this
  have hpe : Spec.pending s = [] := by
    rw [pending_eq]
    have h1 : mainPending s = [] := by unfold mainPending; rw [hmt.1]
    rw [h1, List.nil_append, List.flatMap_eq_nil_iff]
    intro y hy
    cases y with
    | none => rfl
    | some w =>
      obtain ⟨i, hi⟩ := List.getElem?_of_mem hy
      unfold pendingOf; simp only [hwt i w hi]
  refine ⟨fun k => ?_, fun c x hx => ?_⟩
  · have := h.log k; rw [hpe] at this; simp at this; exact this.symm
  · cases hwk : x.woken with
    | true => rfl
    | false =>
      rcases (h.wait c x hx hwk).main with e | e
      · exact absurd hmt.1 e
      · exact absurd e hmt.2

/-! Concrete runs: two threads; the third task is refused (`TryQueue`) and waits (`WaitQueue`) until a worker is free; an idle worker is removed. -/

def Ex.cfg : Cfg := ⟨2, true⟩
def Ex.full : List Act := [.tryQueue 0 10, .tryQueue 0 11, .scan, .main false, .worker 0 false]
def Ex.waiting : List Act := Ex.full ++ [.waitQueue 1 12, .scan, .scan]

example : (run Ex.cfg init Ex.full).map (fun s => (s.accepted, s.started, Spec.threads s, canQueue Ex.cfg s, Spec.pending s)) = some ([10, 11], [10, 11], 2, false, []) := by decide +kernel
example : ((run Ex.cfg init (Ex.full ++ [.tryQueue 1 12, .scan])).bind fun s => (step Ex.cfg s .scan).map (·.1)) = some (.refused true) := by decide +kernel
example : (run Ex.cfg init Ex.waiting).map (fun s => (s.waiters 1, s.accepted)) = some (some ⟨12, false⟩, [10, 11]) := by decide +kernel
/-- The worker finishes, wakes the caller, and the caller's second attempt goes into the worker, which was about to sleep. -/
example : (run Ex.cfg init (Ex.waiting ++ [.worker 0 false, .worker 0 false])).map (fun s => (s.waiters 1, canQueue Ex.cfg s)) = some (some ⟨12, false⟩, true) := by decide +kernel
example : (run Ex.cfg init (Ex.waiting ++ [.worker 0 false, .worker 0 false, .worker 0 false, .waitResume 1, .scan, .worker 0 false, .worker 0 false])).map
    (fun s => (s.accepted, s.started, Spec.pending s)) = some ([10, 11, 12], [10, 11, 12], []) := by decide +kernel
/-- The worker goes idle and is removed; the pool goes on with the first thread. -/
example : (run Ex.cfg init (Ex.full ++ [.worker 0 false, .worker 0 false, .worker 0 false, .worker 0 false, .worker 0 true, .main false, .main false, .main true, .main false])).map
    (fun s => (Spec.threads s, s.workers.length)) = some (1, 1) := by decide +kernel
example : (run Ex.cfg init (Ex.full ++ [.worker 0 false, .worker 0 false, .worker 0 false, .worker 0 false, .worker 0 true, .main false, .main false, .main true, .main false, .main false, .main false])).map
    (fun s => (Spec.threads s, s.workers.length, s.mpc)) = some (1, 0, .waiting false false) := by decide +kernel

end Verif.Pool
