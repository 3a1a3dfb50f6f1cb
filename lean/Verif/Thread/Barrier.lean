/-
Model of `Barrier` (stingraykit/thread/Barrier.h) as a transition system and property C61: a fixed number of threads, each calling `Wait` again and again; every piece of
code between two waits on the condition variable is one step. `arrivals`, `leaves` and `trues` count the calls that got past the gate (43), that returned, and that returned true.
-/
namespace Verif.Thread.Barrier

/-- Where a thread is in Barrier.h 32-56. -/
inductive Pc where
  | out
  | gate (woken : Bool)    -- waiting at line 42
  | inner (woken : Bool)   -- waiting at line 49
  deriving DecidableEq, Repr

/-- The variables and the threads of Barrier.h 32-56. -/
structure State where
  required : Nat
  count : Nat
  releasing : Bool
  threads : List Pc
  arrivals : Nat
  leaves : Nat
  trues : Nat
  deriving DecidableEq, Repr

/-- Barrier.h:32. -/
def init (required threads : Nat) : State := ⟨required, 0, false, List.replicate threads .out, 0, 0, 0⟩

/-- `Broadcast`.  For Barrier.h 32-56. -/
def Pc.wake : Pc → Pc
  | .out => .out
  | .gate _ => .gate true
  | .inner _ => .inner true

/-- Barrier.h:50-56, by thread `i`, with the counter at `c` and the threads as they are. -/
def leave (s : State) (i : Nat) : State :=
  if s.count - 1 = 0 then { s with count := s.count - 1, releasing := false, threads := (s.threads.set i .out).map Pc.wake, leaves := s.leaves + 1, trues := s.trues + 1 }
  else { s with count := s.count - 1, threads := s.threads.set i .out, leaves := s.leaves + 1 }

/-- Barrier.h:43-49. -/
def body (s : State) (i : Nat) : State :=
  if s.count + 1 = s.required then
    leave { s with count := s.count + 1, releasing := true, threads := s.threads.map Pc.wake, arrivals := s.arrivals + 1 } i
  else { s with count := s.count + 1, threads := s.threads.set i (.inner false), arrivals := s.arrivals + 1 }

/-- Barrier.h:41-42. -/
def gate (s : State) (i : Nat) : State := if s.releasing then { s with threads := s.threads.set i (.gate false) } else body s i

/-- The steps a schedule of Barrier.h 32-56 is made of. -/
inductive Act where
  | call (i : Nat)        -- thread `i` calls `Wait`
  | resume (i : Nat)      -- thread `i`, woken, goes on
  | spurious (i : Nat)    -- a spurious wakeup
  deriving DecidableEq, Repr

/-- One step, Barrier.h 32-56. -/
def step (s : State) : Act → Option State
  | .call i => match s.threads[i]? with
    | some .out => some (gate s i)
    | _ => none
  | .resume i => match s.threads[i]? with
    | some (.gate true) => some (gate s i)
    | some (.inner true) => some (leave s i)
    | _ => none
  | .spurious i => match s.threads[i]? with
    | some (.gate _) => some { s with threads := s.threads.set i (.gate true) }
    | some (.inner _) => some { s with threads := s.threads.set i (.inner true) }
    | _ => none

/-- One step after another, for histories of Barrier.h 32-56. -/
def run (s : State) : List Act → Option State
  | [] => some s
  | a :: as => match step s a with
    | none => none
    | some s' => run s' as

/-- Schedules without spurious wakeups of threads waiting for the others. -/
def Spec.Quiet (s : State) : List Act → Prop
  | [] => True
  | a :: as => (∀ i b, a = .spurious i → s.threads[i]? ≠ some (.inner b)) ∧ ∀ s', step s a = some s' → Spec.Quiet s' as

/-- A helper of the model of Barrier.h 32-56. -/
def isInner : Pc → Bool
  | .inner _ => true
  | _ => false

/-- Invariant used in the proofs about Barrier.h 32-56. -/
structure Inv (s : State) : Prop where
  req : 0 < s.required
  count : s.count = s.threads.countP isInner
  lt : s.count < s.required
  rel : s.releasing = true → 0 < s.count
  inner : ∀ b, Pc.inner b ∈ s.threads → b = s.releasing
  gate : ∀ b, Pc.gate b ∈ s.threads → b = false → s.releasing = true
  tally : s.arrivals = s.required * s.trues + (if s.releasing then s.required else s.count) ∧ s.leaves = s.required * s.trues + (if s.releasing then s.required - s.count else 0)

theorem wake_inner (l : List Pc) : (l.map Pc.wake).countP isInner = l.countP isInner := by
  rw [List.countP_map]
  congr 1
  funext x
  cases x <;> rfl

theorem leave_inv {s : State} {i : Nat} (hn : 0 < s.required) (hi : i < s.threads.length) (hcount : s.count = s.threads.countP isInner + (if isInner s.threads[i] then 0 else 1))
    (hle : s.count ≤ s.required) (hrel : s.releasing = true) (hin : ∀ b, Pc.inner b ∈ s.threads → b = true)
    (hta : s.arrivals = s.required * s.trues + s.required) (htl : s.leaves + s.count = s.required * s.trues + s.required) : Inv (leave s i) := by
  have hset : (s.threads.set i .out).countP isInner = s.count - 1 := by
    rw [List.countP_set (h := hi)]
    have hmem := List.getElem_mem hi
    by_cases hx : isInner s.threads[i] = true
    · rw [if_pos hx] at hcount ⊢
      simp only [isInner, Bool.false_eq_true, if_false]; omega
    · rw [if_neg hx] at hcount ⊢
      simp only [isInner, Bool.false_eq_true, if_false]; omega
  have hpos : 0 < s.count := by
    by_cases hx : isInner s.threads[i] = true
    · have : 0 < s.threads.countP isInner := List.countP_pos_iff.mpr ⟨_, List.getElem_mem hi, hx⟩
      omega
    · rw [if_neg hx] at hcount; omega
  have hmem : ∀ b, Pc.inner b ∈ s.threads.set i .out → b = true := by
    intro b hb
    rcases List.mem_or_eq_of_mem_set hb with h | h
    · exact hin b h
    · cases h
  unfold leave
  by_cases h1 : s.count - 1 = 0
  · rw [if_pos h1]
    refine ⟨hn, ?_, ?_, ?_, ?_, ?_, ?_, ?_⟩
    · simp only []; rw [wake_inner, hset]
    · simp only []; omega
    · intro e; cases e
    · intro b hb
      exfalso
      have : 0 < ((s.threads.set i .out).map Pc.wake).countP isInner := List.countP_pos_iff.mpr ⟨_, hb, rfl⟩
      rw [wake_inner, hset] at this; omega
    · intro b hb e
      subst e
      obtain ⟨x, _, hx⟩ := List.mem_map.mp hb
      cases x <;> simp [Pc.wake] at hx
    · simp only [Bool.false_eq_true, if_false, Nat.mul_add, Nat.mul_one]; omega
    · simp only [Bool.false_eq_true, if_false, Nat.mul_add, Nat.mul_one]; omega
  · rw [if_neg h1]
    refine ⟨hn, ?_, ?_, ?_, ?_, ?_, ?_, ?_⟩
    · simp only []; rw [hset]
    · simp only []; omega
    · intro _; simp only []; omega
    · intro b hb; simp only [] at hb ⊢; rw [hrel]; exact hmem b hb
    · intro b _ _; exact hrel
    · simp only [hrel, if_true]; omega
    · simp only [hrel, if_true]; omega

theorem body_inv {s : State} {i : Nat} (h : Inv s) (hi : i < s.threads.length) (hx : isInner s.threads[i] = false) (hr : s.releasing = false) : Inv (body s i) := by
  obtain ⟨ta, tl⟩ := h.tally
  rw [hr] at ta tl
  simp only [Bool.false_eq_true, if_false] at ta tl
  have hl := h.lt
  have hc := h.count
  unfold body
  by_cases h1 : s.count + 1 = s.required
  · rw [if_pos h1]
    refine leave_inv h.req (by simpa using hi) ?_ (by simp only []; omega) rfl ?_ ?_ ?_
    · simp only []
      rw [wake_inner, List.getElem_map]
      have : isInner (s.threads[i]).wake = false := by
        cases hh : s.threads[i] <;> rw [hh] at hx <;> first | rfl | cases hx
      rw [this]
      simp only [Bool.false_eq_true, if_false]; omega
    · intro b hb
      simp only [] at hb
      obtain ⟨x, _, hx⟩ := List.mem_map.mp hb
      cases x <;> simp [Pc.wake] at hx
      exact hx
    · simp only []; omega
    · simp only []; omega
  · rw [if_neg h1]
    have hset : (s.threads.set i (.inner false)).countP isInner = s.count + 1 := by
      rw [List.countP_set (h := hi), hx]
      simp only [isInner, Bool.false_eq_true, if_false, if_true]; omega
    refine ⟨h.req, by simp only []; rw [hset], by simp only []; omega, fun e => ?_, ?_, ?_, ?_, ?_⟩
    · simp only []; omega
    · intro b hb
      simp only [] at hb ⊢
      rcases List.mem_or_eq_of_mem_set hb with h' | h'
      · exact h.inner b h'
      · injection h' with h'; rw [h', hr]
    · intro b hb e
      simp only [] at hb ⊢
      rcases List.mem_or_eq_of_mem_set hb with h' | h'
      · exact h.gate b h' e
      · cases h'
    · simp only [hr, Bool.false_eq_true, if_false]; omega
    · simp only [hr, Bool.false_eq_true, if_false]; omega

theorem gate_inv {s : State} {i : Nat} (h : Inv s) (hi : i < s.threads.length) (hx : isInner s.threads[i] = false) : Inv (gate s i) := by
  unfold gate
  by_cases hr : s.releasing = true
  · rw [if_pos hr]
    refine ⟨h.req, ?_, h.lt, h.rel, ?_, ?_, h.tally⟩
    · simp only []
      rw [List.countP_set (h := hi), hx, h.count]
      simp [isInner]
    · intro b hb
      simp only [] at hb ⊢
      rcases List.mem_or_eq_of_mem_set hb with h' | h'
      · exact h.inner b h'
      · cases h'
    · intro b hb e
      exact hr
  · rw [if_neg hr]; exact body_inv h hi hx (by simpa using hr)

theorem step_inv {s s' : State} {a : Act} (h : Inv s) (hq : ∀ i b, a = .spurious i → s.threads[i]? ≠ some (.inner b)) (hs : step s a = some s') : Inv s' := by
  cases a with
  | call i =>
    simp only [step] at hs
    cases ht : s.threads[i]? with
    | none => rw [ht] at hs; cases hs
    | some p =>
      obtain ⟨hi, hp⟩ := List.getElem?_eq_some_iff.mp ht
      rw [ht] at hs
      cases p with
      | out => injection hs with hs; subst hs; exact gate_inv h hi (by rw [hp]; rfl)
      | gate b => cases hs
      | inner b => cases hs
  | resume i =>
    simp only [step] at hs
    cases ht : s.threads[i]? with
    | none => rw [ht] at hs; cases hs
    | some p =>
      obtain ⟨hi, hp⟩ := List.getElem?_eq_some_iff.mp ht
      rw [ht] at hs
      cases p with
      | out => cases hs
      | gate b =>
        cases b with
        | false => cases hs
        | true => injection hs with hs; subst hs; exact gate_inv h hi (by rw [hp]; rfl)
      | inner b =>
        cases b with
        | false => cases hs
        | true =>
          injection hs with hs; subst hs
          have hrel := (h.inner true (by rw [← hp]; exact List.getElem_mem hi)).symm
          obtain ⟨ta, tl⟩ := h.tally
          rw [hrel] at ta tl
          simp only [if_true] at ta tl
          have hl := h.lt
          refine leave_inv h.req hi ?_ (by omega) hrel (fun b hb => by rw [h.inner b hb, hrel]) ta (by omega)
          rw [hp]; simp only [isInner, if_true, h.count]; omega
  | spurious i =>
    simp only [step] at hs
    cases ht : s.threads[i]? with
    | none => rw [ht] at hs; cases hs
    | some p =>
      obtain ⟨hi, hp⟩ := List.getElem?_eq_some_iff.mp ht
      rw [ht] at hs
      cases p with
      | out => cases hs
      | inner b => exact absurd ht (hq i b rfl)
      | gate b =>
        injection hs with hs; subst hs
        refine ⟨h.req, ?_, h.lt, h.rel, ?_, ?_, h.tally⟩
        · simp only []
          rw [List.countP_set (h := hi), hp, h.count]
          simp [isInner]
        · intro b hb
          simp only [] at hb ⊢
          rcases List.mem_or_eq_of_mem_set hb with h' | h'
          · exact h.inner b h'
          · cases h'
        · intro b hb e
          simp only [] at hb ⊢
          rcases List.mem_or_eq_of_mem_set hb with h' | h'
          · exact h.gate b h' e
          · injection h' with h'; rw [h'] at e; cases e

theorem init_inv (n k : Nat) (hn : 0 < n) : Inv (init n k) := by
  refine ⟨hn, ?_, hn, (fun e => nomatch e), ?_, ?_, ?_, ?_⟩
  · simp only [init]; rw [List.countP_replicate]; rfl
  · intro b hb; have := (List.mem_replicate.mp hb).2; cases this
  · intro b hb; have := (List.mem_replicate.mp hb).2; cases this
  · simp [init]
  · simp [init]

theorem run_inv : ∀ {as : List Act} {s s' : State}, Inv s → Spec.Quiet s as → run s as = some s' → Inv s' ∧ s'.required = s.required
  | [], s, s', hi, _, h => by injection h with h; exact h ▸ ⟨hi, rfl⟩
  | a :: as, s, s', hi, hq, h => by
    rw [run] at h
    cases hs : step s a with
    | none => rw [hs] at h; cases h
    | some t =>
      rw [hs] at h
      have hreq : t.required = s.required := by
        have hl : ∀ (s : State) (i : Nat), (leave s i).required = s.required := by intro s i; unfold leave; split <;> rfl
        have hb : ∀ (s : State) (i : Nat), (body s i).required = s.required := by intro s i; unfold body; split; · rw [hl]
                                                                                  · rfl
        have hg : ∀ (s : State) (i : Nat), (gate s i).required = s.required := by intro s i; unfold gate; split; · rfl
                                                                                  · rw [hb]
        cases a <;> simp only [step] at hs <;> split at hs <;> first | (cases hs; done) | (injection hs with hs; subst hs; first | exact hg _ _ | exact hl _ _ | rfl)
      obtain ⟨r1, r2⟩ := run_inv (step_inv hi hq.1 hs) (hq.2 t hs) h
      exact ⟨r1, by rw [r2, hreq]⟩

/-- C61, for schedules in which no thread waiting for the others wakes up spuriously (threads waiting at the gate may): nobody gets through before `n` threads have arrived
- `leaves` is at most the largest multiple of `n` that have arrived -, exactly one call in `n` returns true, and when no batch is incomplete everyone waiting has been woken. -/
theorem barrier_partial {n k : Nat} (hn : 0 < n) {as : List Act} {s : State} (hq : Spec.Quiet (init n k) as) (h : run (init n k) as = some s) :
    s.leaves ≤ n * (s.arrivals / n) ∧ s.trues = s.leaves / n ∧ s.arrivals < s.leaves + 2 * n ∧
    (∀ b, Pc.inner b ∈ s.threads → b = decide (s.leaves < n * (s.arrivals / n))) ∧
    (∀ b, Pc.gate b ∈ s.threads → b = true ∨ s.leaves < n * (s.arrivals / n)) := by
  obtain ⟨hi, hr⟩ := run_inv (init_inv n k hn) hq h
  have hreq : s.required = n := hr
  obtain ⟨ta, tl⟩ := hi.tally
  have hl := hi.lt
  rw [hreq] at ta tl hl
  have hrel : s.releasing = decide (s.leaves < n * (s.arrivals / n)) := by
    cases hh : s.releasing with
    | false =>
      rw [hh] at ta tl
      simp only [Bool.false_eq_true, if_false, Nat.add_zero] at ta tl
      rw [ta, tl, Nat.mul_add_div hn, Nat.div_eq_of_lt hl]
      simp
    | true =>
      rw [hh] at ta tl
      simp only [if_true] at ta tl
      have := hi.rel hh
      have e : s.arrivals / n = s.trues + 1 := by rw [ta, Nat.mul_add_div hn, Nat.div_self hn]
      rw [e, Nat.mul_add, Nat.mul_one, eq_comm, decide_eq_true_eq]; omega
  refine ⟨?_, ?_, ?_, ?_, ?_⟩
  · cases hh : s.releasing with
    | false =>
      rw [hh] at ta tl
      simp only [Bool.false_eq_true, if_false, Nat.add_zero] at ta tl
      rw [ta, tl, Nat.mul_add_div hn, Nat.div_eq_of_lt hl]
      exact Nat.le_refl _
    | true =>
      rw [hh] at ta tl
      simp only [if_true] at ta tl
      have e : s.arrivals / n = s.trues + 1 := by rw [ta, Nat.mul_add_div hn, Nat.div_self hn]
      rw [e, Nat.mul_add, Nat.mul_one]; omega
  · cases hh : s.releasing with
    | false =>
      rw [hh] at tl
      simp only [Bool.false_eq_true, if_false, Nat.add_zero] at tl
      rw [tl, Nat.mul_div_cancel_left _ hn]
    | true =>
      rw [hh] at tl
      simp only [if_true] at tl
      have := hi.rel hh
      rw [tl, Nat.mul_add_div hn, Nat.div_eq_of_lt (by omega), Nat.add_zero]
  · cases hh : s.releasing with
    | false =>
      rw [hh] at ta tl
      simp only [Bool.false_eq_true, if_false, Nat.add_zero] at ta tl
      omega
    | true =>
      rw [hh] at ta tl
      simp only [if_true] at ta tl
      omega
  · intro b hb; rw [← hrel]; exact hi.inner b hb
  · intro b hb
    cases b with
    | true => exact Or.inl rfl
    | false => exact Or.inr (by have := hi.gate false hb rfl; rw [hrel] at this; simpa using this)

/-- C61 refuted with spurious wakeups: a thread gets through a barrier for two, alone. -/
theorem barrier_spurious_violated : ∃ s, run (init 2 2) [.call 0, .spurious 0, .resume 0] = some s ∧ s.arrivals = 1 ∧ s.leaves = 1 := ⟨_, rfl, rfl, rfl⟩

/-! Non-vacuity. -/
example : (run (init 3 4) [.call 0, .call 2, .call 1, .call 3, .resume 0, .call 1, .resume 2, .resume 1, .resume 3]).map (fun s => (s.arrivals, s.leaves, s.trues, s.threads)) =
    some (5, 3, 1, [.out, .inner false, .out, .inner false]) := by decide +kernel
example : Spec.Quiet (init 2 2) [.call 0, .call 1, .resume 0] := by
  refine ⟨(by intro i b h; cases h), fun s' _ => ⟨(by intro i b h; cases h), fun s' _ => ⟨(by intro i b h; cases h), fun s' _ => trivial⟩⟩⟩

end Verif.Thread.Barrier
