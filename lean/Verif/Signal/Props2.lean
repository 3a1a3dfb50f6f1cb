import Verif.Signal.Props
/-
The statements of C66 and C67 about the model of `signal` and `ObservableValue`.
-/
namespace Verif.Signal
open Verif.Thread.Life (Impl IInv)

/-! ### C66 -/

/-- What connecting gives: the handler gets the value that is current then, if it is populated and the value needs it; from then on the connection counts. -/
theorem observable_connect (cfg : Cfg) (s s' : State) (t h : Nat) (send : Bool) (hs : step cfg s (.connect t h send) = some s') :
    s'.seen h = (if send = true ∧ cfg.need s.val = true then [s.val] else []) ∧ s'.first h = s'.seen h ∧ s'.start h = s.hist.length ∧ s'.hist = s.hist ∧ s'.val = s.val := by
  simp only [step, connectStep] at hs
  split at hs
  · injection hs with hs; subst hs
    simp only [set_self]
    refine ⟨?_, trivial, trivial, rfl, rfl⟩
    cases send <;> simp
  · cases hs

/-- What setting does to the value. -/
theorem observable_set (cfg : Cfg) (s s' : State) (t v : Nat) (hs : step cfg s (.set t v) = some s') : s'.val = v ∧ s'.hist = if s.val = v then s.hist else s.hist ++ [v] := by
  simp only [step, setStep] at hs
  split at hs
  · by_cases e : s.val = v
    · rw [if_pos e] at hs; injection hs with hs; subst hs; rw [if_pos e]; exact ⟨e, rfl⟩
    · rw [if_neg e] at hs; injection hs with hs; subst hs; rw [if_neg e]; exact ⟨rfl, rfl⟩
  · cases hs

/-- As long as handlers do not set the value: whenever nobody has the value locked, a connected observer has been called with what it got when it connected and then with every value that
was set since, in order, each once; two successive values differ; the value is the one that was set last. -/
theorem observable_history_partial (cfg : Cfg) (v0 : Nat) (as : List Act) (s : State) (h : Nat) (hr : runIf cfg Spec.noReentry (init v0) as = some s) (hfree : s.owner = none) (hc : s.phase h = .connected) :
    s.seen h = s.first h ++ s.hist.drop (s.start h) ∧ (s.first h = [] ∨ (v0 :: s.hist)[s.start h]?.toList = s.first h) ∧ s.start h ≤ s.hist.length ∧
    (v0 :: s.hist).getLast? = some s.val ∧ ∀ i x y, (v0 :: s.hist)[i]? = some x → (v0 :: s.hist)[i + 1]? = some y → x ≠ y := by
  have hi := runIf_inv (init_inv v0) hr
  have o : Obs v0 s := runIf_ind (fun _ _ _ hi o hok hx => obs_step hi o hok hx) (init_inv v0) (init_obs v0) hr
  have hp := o.past h (by rw [hc]; exact fun e => nomatch e)
  refine ⟨o.done h hc (fun t v a b c d e => ?_), hp.2, hp.1, o.val, o.alt⟩
  have h1 := o.held _ _ _ _ _ _ e
  have h2 := hi.mtx.own t
  rw [hfree, if_neg (fun e => nomatch e)] at h2
  have h3 : 0 < (s.stacks t).countP Frame.holds := List.countP_pos_iff.2 ⟨_, e, by simp [Frame.holds, h1]⟩
  omega

/-- So an observer that got a value when connecting, or for which the value was set since, has the current value. -/
theorem observable_last_partial (cfg : Cfg) (v0 : Nat) (as : List Act) (s : State) (h : Nat) (hr : runIf cfg Spec.noReentry (init v0) as = some s) (hfree : s.owner = none) (hc : s.phase h = .connected)
    (hs : s.first h ≠ [] ∨ s.start h < s.hist.length) : (s.seen h).getLast? = some s.val := by
  obtain ⟨h1, h2, h3, h4, _⟩ := observable_history_partial cfg v0 as s h hr hfree hc
  rw [h1]
  by_cases hl : s.start h < s.hist.length
  · rw [List.getLast?_append, List.getLast?_drop, if_neg (by omega)]
    rw [List.getLast?_cons] at h4
    cases hx : s.hist.getLast? with
    | none => rw [List.getLast?_eq_none_iff] at hx; rw [hx] at hl; simp at hl
    | some w => rw [hx] at h4; simpa using h4
  · have e : s.start h = s.hist.length := by omega
    rw [e, List.drop_length, List.append_nil]
    rcases h2 with h2 | h2
    · rcases hs with hs | hs
      · exact absurd h2 hs
      · exact absurd hs hl
    · rw [← h2, e]
      rw [List.getLast?_eq_getElem?] at h4
      have h4 : (v0 :: s.hist)[s.hist.length]? = some s.val := h4
      rw [h4]; rfl

def allNeed : Cfg := ⟨fun _ => true⟩

/-- Two observers, one populated, and two values set, by two threads. -/
example : ∃ s, runIf allNeed Spec.noReentry (init 5) [.connect 1 7 true, .connected 1, .set 1 6, .next 1, .ret 1, .next 1, .connect 2 8 false, .connected 2, .set 2 9, .next 2, .ret 2, .next 2, .ret 2, .next 2] = some s ∧
    s.owner = none ∧ s.phase 7 = .connected ∧ s.phase 8 = .connected ∧ s.seen 7 = [5, 6, 9] ∧ s.seen 8 = [9] ∧ s.val = 9 := ⟨_, rfl, by decide +kernel⟩

/-- A handler that sets the value (to clamp it, say) leaves the observers that were connected after it with an outdated value: handler 7 is called with 6 and sets 3, so handler 8 is called
with 3 first and with 6 last, although the value is 3. -/
theorem observable_last_violated : ∃ (cfg : Cfg) (as : List Act) (s : State), run cfg (init 5) as = some s ∧ s.owner = none ∧ s.phase 8 = .connected ∧ s.first 8 ≠ [] ∧ s.val = 3 ∧ s.seen 8 = [5, 3, 6] :=
  ⟨allNeed, [.connect 1 7 true, .connected 1, .connect 1 8 true, .connected 1, .set 1 6, .next 1, .set 1 3, .next 1, .ret 1, .next 1, .ret 1, .next 1, .ret 1, .next 1, .ret 1, .next 1], _, rfl, by decide +kernel⟩

/-- So does a slot that sets the value when it gets the current one: it is not connected yet. -/
theorem observable_populate_violated : ∃ (cfg : Cfg) (as : List Act) (s : State), run cfg (init 5) as = some s ∧ s.owner = none ∧ s.phase 7 = .connected ∧ s.first 7 ≠ [] ∧ s.val = 3 ∧ s.seen 7 = [5] :=
  ⟨allNeed, [.connect 1 7 true, .set 1 3, .next 1, .connected 1], _, rfl, by decide +kernel⟩

/-! ### C67 -/

def Frame.calls : Frame → Bool
  | .emit _ _ _ _ _ => true
  | .handler _ _ => true
  | _ => false

/-- Everything that is an emission or a handler has a frame that keeps the mutex at or below it. -/
def Prot : List Frame → Prop
  | [] => True
  | f :: l => (f.calls = true → 0 < (f :: l).countP Frame.holds) ∧ Prot l

theorem Prot.mem {l : List Frame} (h : Prot l) {f : Frame} (hf : f ∈ l) (hc : f.calls = true) : 0 < l.countP Frame.holds := by
  induction l with
  | nil => cases hf
  | cons g l ih =>
    rcases List.mem_cons.1 hf with e | e
    · subst e; exact h.1 hc
    · have := ih h.2 e
      rw [List.countP_cons]; omega

theorem Prot.tail {l : List Frame} (h : Prot l) : Prot l.tail := by
  cases l with
  | nil => exact h
  | cons f l => exact h.2

theorem prot_set {st : Nat → List Frame} (h : ∀ u, Prot (st u)) {t : Nat} {l : List Frame} (hl : Prot l) (u : Nat) : Prot (Verif.Signal.set st t l u) := by
  by_cases e : u = t
  · rw [e, set_self]; exact hl
  · rw [set_ne _ _ e]; exact h u

theorem prot_step {cfg : Cfg} {s s' : State} {a : Act} (hi : Inv s) (hp : ∀ u, Prot (s.stacks u)) (hok : Spec.raisedLocked s a = true) (hs : step cfg s a = some s') : ∀ u, Prot (s'.stacks u) := by
  cases a with
  | lock t => simp only [step, lockStep] at hs; split at hs; (injection hs with hs; subst hs; exact prot_set hp ⟨(fun e => nomatch e), hp t⟩); cases hs
  | unlock t => simp only [step, unlockStep] at hs; split at hs; (injection hs with hs; subst hs; exact prot_set hp (hp t).tail); cases hs
  | emit t v =>
    have ho : s.owner = some t := by simpa [Spec.raisedLocked] using hok
    simp only [step, emitStep] at hs; split at hs
    · injection hs with hs; subst hs
      refine prot_set hp ⟨fun _ => ?_, hp t⟩
      have h1 := hi.mtx.own t
      rw [if_pos ho] at h1
      have h2 := hi.mtx.pos t ho
      show 0 < List.countP _ (_ :: s.stacks t)
      rw [List.countP_cons]; omega
    · cases hs
  | set t v =>
    simp only [step, setStep] at hs; split at hs
    · split at hs
      · injection hs with hs; subst hs; exact hp
      · injection hs with hs; subst hs
        exact prot_set hp ⟨fun _ => by simp [List.countP_cons, Frame.holds], hp t⟩
    · cases hs
  | next t =>
    simp only [step, nextStep] at hs; split at hs
    · rename_i v snap calls k todo lk rest hst
      have h1 := hp t
      rw [hst] at h1
      have h2 : 0 < (Frame.emit v snap calls (k :: todo) lk :: rest).countP Frame.holds := h1.1 rfl
      have h3 : ∀ c, (Frame.emit v snap c todo lk :: rest).countP Frame.holds = (Frame.emit v snap calls (k :: todo) lk :: rest).countP Frame.holds := fun c => by rw [List.countP_cons, List.countP_cons]; rfl
      split at hs
      · cases hs
      · injection hs with hs; subst hs
        refine prot_set hp ⟨fun _ => ?_, fun _ => ?_, h1.2⟩
        · rw [List.countP_cons, h3]; omega
        · rw [h3]; exact h2
      · injection hs with hs; subst hs
        exact prot_set hp ⟨fun _ => by rw [h3]; exact h2, h1.2⟩
    · injection hs with hs; subst hs; split <;> exact prot_set hp (hp t).tail
    · cases hs
  | ret t =>
    simp only [step, retStep] at hs; split at hs
    · split at hs
      · cases hs
      · injection hs with hs; subst hs; exact prot_set hp (hp t).tail
    · cases hs
  | connect t k b => simp only [step, connectStep] at hs; split at hs; (injection hs with hs; subst hs; exact prot_set hp ⟨(fun e => nomatch e), hp t⟩); cases hs
  | connected t => simp only [step, connectedStep] at hs; split at hs; (injection hs with hs; subst hs; exact prot_set hp (hp t).tail); cases hs
  | disconnect t k => simp only [step, disconnectStep] at hs; split at hs; (injection hs with hs; subst hs; exact prot_set hp ⟨(fun e => nomatch e), hp t⟩); cases hs
  | release t =>
    simp only [step, releaseStep] at hs; split at hs
    · split at hs
      · cases hs
      · injection hs with hs; subst hs; exact prot_set hp (hp t).tail
    · cases hs

/-- The steps that finish something that was begun. -/
def Spec.finishing : Act → Bool
  | .unlock _ => true
  | .next _ => true
  | .ret _ => true
  | .connected _ => true
  | .release _ => true
  | _ => false

/-- The handlers that a thread waits for run in no other thread. -/
theorem free_handlers {s : State} (hi : Inv s) (hp : ∀ u, Prot (s.stacks u)) {t : Nat} (ho : s.owner = none ∨ s.owner = some t) (h : Nat) : (s.life h).lockable t = true := by
  have hm := hi.lif.inv h
  rw [Verif.Thread.Life.lockable_iff]
  cases hx : (s.life h).owner with
  | none => exact Or.inl rfl
  | some u =>
    right
    obtain ⟨h1, h2⟩ := hm.owner u hx
    rw [hi.lif.run] at h2
    have h3 : 0 < (s.stacks u).countP (Frame.isH h) := by omega
    obtain ⟨f, hf, e⟩ := List.countP_pos_iff.1 h3
    have h4 : f.calls = true := by cases f <;> simp [Frame.isH] at e; rfl
    have h5 := (hp u).mem hf h4
    have h6 := hi.mtx.own u
    by_cases e : s.owner = some u
    · rcases ho with ho | ho
      · rw [ho] at e; cases e
      · rw [← e, ho]
    · rw [if_neg e] at h6; omega

/-- What is left to do for a thread. -/
def left : List Frame → Nat
  | [] => 0
  | .emit _ _ _ todo _ :: l => 2 * todo.length + 1 + left l
  | _ :: l => 1 + left l

theorem finish_step (cfg : Cfg) {s : State} (hi : Inv s) (hp : ∀ u, Prot (s.stacks u)) {t : Nat} (ho : s.owner = none ∨ s.owner = some t) (hne : s.stacks t ≠ []) :
    ∃ (a : Act) (s' : State), a.thread = t ∧ Spec.finishing a = true ∧ step cfg s a = some s' ∧ left (s'.stacks t) < left (s.stacks t) ∧ (s'.owner = none ∨ s'.owner = some t) := by
  have hfree := fun h => free_handlers hi hp ho h
  have hun : (if s.depth - 1 = 0 then none else s.owner) = none ∨ (if s.depth - 1 = 0 then none else s.owner) = some t := by
    by_cases e : s.depth - 1 = 0
    · rw [if_pos e]; exact Or.inl rfl
    · rw [if_neg e]; exact ho
  cases hst : s.stacks t with
  | nil => exact absurd hst hne
  | cons f rest =>
    have hpop : ∀ s' : State, s'.stacks = (pop s t).stacks → left (s'.stacks t) = left rest := fun s' e => by rw [e]; simp only [pop, set_self, hst]; rfl
    cases f with
    | lock =>
      refine ⟨.unlock t, unlock (pop s t), rfl, rfl, by simp only [step, unlockStep, hst], ?_, hun⟩
      refine Nat.lt_of_le_of_lt (Nat.le_of_eq (hpop _ rfl)) ?_; simp only [left]; omega
    | emit v snap calls todo lk =>
      cases todo with
      | nil =>
        refine ⟨.next t, if lk then unlock (pop s t) else pop s t, rfl, rfl, by simp only [step, nextStep, hst], ?_, ?_⟩
        · refine Nat.lt_of_le_of_lt (Nat.le_of_eq (hpop _ (by cases lk <;> rfl))) ?_; simp only [left]; omega
        · cases lk
          · exact ho
          · exact hun
      | cons k todo =>
        cases hal : (s.life k).alive with
        | true =>
          refine ⟨.next t, _, rfl, rfl, by simp only [step, nextStep, hst, Impl.tryStart, hfree k, hal, if_true]; rfl, ?_, ?_⟩ <;> try exact ho
          simp only [set_self, left, List.length_cons]; omega
        | false =>
          refine ⟨.next t, _, rfl, rfl, by simp only [step, nextStep, hst, Impl.tryStart, hfree k, hal, if_true, Bool.false_eq_true, if_false]; rfl, ?_, ?_⟩ <;> try exact ho
          simp only [set_self, left, List.length_cons]; omega
    | handler k v =>
      have hr : 0 < (s.life k).running t := by
        rw [hi.lif.run, hst, List.countP_cons]; simp [Frame.isH]
      refine ⟨.ret t, _, rfl, rfl, by simp only [step, retStep, hst, Impl.finish, hr, if_true]; rfl, ?_, ?_⟩ <;> try exact ho
      refine Nat.lt_of_le_of_lt (Nat.le_of_eq (hpop _ rfl)) ?_; simp only [left]; omega
    | connecting k =>
      refine ⟨.connected t, _, rfl, rfl, by simp only [step, connectedStep, hst]; rfl, ?_, ?_⟩ <;> try exact hun
      refine Nat.lt_of_le_of_lt (Nat.le_of_eq (hpop _ rfl)) ?_; simp only [left]; omega
    | releasing k =>
      refine ⟨.release t, _, rfl, rfl, by simp only [step, releaseStep, hst, Impl.kill, hfree k, if_true]; rfl, ?_, ?_⟩ <;> try exact ho
      refine Nat.lt_of_le_of_lt (Nat.le_of_eq (hpop _ rfl)) ?_; simp only [left]; omega

theorem finish_all (cfg : Cfg) : ∀ (n : Nat) (s : State) (t : Nat), left (s.stacks t) ≤ n → Inv s → (∀ u, Prot (s.stacks u)) → (s.owner = none ∨ s.owner = some t) →
    ∃ (as : List Act) (s' : State), run cfg s as = some s' ∧ (∀ a ∈ as, a.thread = t ∧ Spec.finishing a = true) ∧ s'.stacks t = [] ∧ s'.owner = none := by
  intro n
  induction n with
  | zero =>
    intro s t hn hi hp ho
    have he : s.stacks t = [] := by
      cases hst : s.stacks t with
      | nil => rfl
      | cons f l => rw [hst] at hn; cases f <;> simp only [left] at hn <;> omega
    refine ⟨[], s, rfl, (fun _ h => nomatch h), he, ?_⟩
    rcases ho with ho | ho
    · exact ho
    · have h1 := hi.mtx.own t
      rw [if_pos ho, he] at h1
      have := hi.mtx.pos t ho
      simp at h1; omega
  | succ n ih =>
    intro s t hn hi hp ho
    by_cases he : s.stacks t = []
    · exact ih s t (by rw [he]; exact Nat.zero_le _) hi hp ho
    · obtain ⟨a, s1, h1, h2, h3, h4, h5⟩ := finish_step cfg hi hp ho he
      have hok : Spec.raisedLocked s a = true := by cases a <;> first | rfl | cases h2
      obtain ⟨as, s', h6, h7, h8⟩ := ih s1 t (by omega) (step_inv hi h3) (prot_step hi hp hok h3) h5
      refine ⟨a :: as, s', by simp only [run, h3]; exact h6, fun b hb => ?_, h8⟩
      rcases List.mem_cons.1 hb with e | e
      · subst e; exact ⟨h1, h2⟩
      · exact h7 b e

/-- If the signal is raised only by threads that have locked it (as `ObservableValue` does): the thread that has the signal locked - and, if nobody has, every thread - can go on by its own
steps alone until it is out of everything it began, whatever the other threads are at: it calls the remaining handlers, resets what it was resetting, and unlocks the signal. So the threads
that wait for the signal, or for a handler to be over, wait only for the code of the handlers. -/
theorem signal_owner_finishes_partial (cfg : Cfg) (v0 : Nat) (as : List Act) (s : State) (t : Nat) (hr : runIf cfg Spec.raisedLocked (init v0) as = some s) (ho : s.owner = none ∨ s.owner = some t) :
    ∃ (bs : List Act) (s' : State), run cfg s bs = some s' ∧ (∀ a ∈ bs, a.thread = t ∧ Spec.finishing a = true) ∧ s'.stacks t = [] ∧ s'.owner = none :=
  finish_all cfg _ s t (Nat.le_refl _) (runIf_inv (init_inv v0) hr)
    (runIf_ind (P := fun s => ∀ u, Prot (s.stacks u)) (fun _ _ _ hi hp hok hx => prot_step hi hp hok hx) (init_inv v0) (fun _ => trivial) hr) ho

/-- Thread 1 has the signal locked and is in handler 7, raised by itself; thread 2 is destroying a connection that thread 1 is about to call. -/
example : ∃ s, runIf allNeed Spec.raisedLocked (init 5) [.connect 1 7 true, .connected 1, .connect 1 8 true, .connected 1, .disconnect 2 8, .lock 1, .emit 1 4, .next 1] = some s ∧
    s.owner = some 1 ∧ s.stacks 1 = [.handler 7 4, .emit 4 [7] [7] [] false, .lock] ∧ s.stacks 2 = [.releasing 8] := ⟨_, rfl, by decide +kernel⟩

/-- Without that condition two threads block each other. Handler 7 is connected. Thread 1 raises the signal (not locked) and is in handler 7; thread 2 has the signal locked and raises it.
Thread 2 waits until handler 7 is over, so if handler 7 now does anything with the signal (locks it, raises it, connects or disconnects anything), nothing that the other threads do ever
lets thread 1 or thread 2 go on: only the return of handler 7 would. -/
def stuck : List Act := [.connect 1 7 false, .connected 1, .emit 1 4, .next 1, .lock 2, .emit 2 6]

structure Stuck (s : State) : Prop where
  owner : s.owner = some 2
  one : s.stacks 1 = [.handler 7 4, .emit 4 [7] [7] [] false]
  two : s.stacks 2 = [.emit 6 [7] [] [7] false, .lock]
  life : (s.life 7).owner = some 1

theorem Stuck.wait {cfg : Cfg} {s : State} (h : Stuck s) {a : Act} (ha : (a.thread = 1 ∧ a ≠ .ret 1) ∨ a.thread = 2) : step cfg s a = none := by
  have hl1 : lockable s 1 = false := by simp [lockable, h.owner]
  have hl7 : (s.life 7).tryStart 2 = none := by simp [Impl.tryStart, Impl.lockable, h.life]
  rcases ha with ⟨ha, hr⟩ | ha
  · cases a <;> simp only [Act.thread] at ha <;> subst ha <;> simp_all [step, lockStep, unlockStep, emitStep, setStep, nextStep, retStep, connectStep, connectedStep, disconnectStep, releaseStep, h.one]
  · cases a <;> simp only [Act.thread] at ha <;> subst ha <;> simp [step, lockStep, unlockStep, emitStep, setStep, nextStep, retStep, connectStep, connectedStep, disconnectStep, releaseStep, h.two, user, hl7]

theorem Stuck.step {cfg : Cfg} {s s' : State} {a : Act} (hi : Inv s) (h : Stuck s) (ha : a ≠ .ret 1) (hs : Verif.Signal.step cfg s a = some s') : Stuck s' := by
  have h1 : a.thread ≠ 1 := fun e => by rw [h.wait (Or.inl ⟨e, ha⟩)] at hs; cases hs
  have h2 : a.thread ≠ 2 := fun e => by rw [h.wait (Or.inr e)] at hs; cases hs
  have hi' := step_inv hi hs
  have ho : ∀ t, t ≠ 2 → lockable s t = false := fun t ht => by simp [lockable, h.owner, Ne.symm ht]
  have hst1 : s'.stacks 1 = s.stacks 1 := signal_stacks_own cfg s s' a 1 hs (fun e => h1 e)
  have hst2 : s'.stacks 2 = s.stacks 2 := signal_stacks_own cfg s s' a 2 hs (fun e => h2 e)
  have hlife : (s'.life 7).owner = some 1 := by
    have hr := hi'.lif.run 7 1
    rw [hst1, h.one] at hr
    have hr : (s'.life 7).running 1 ≠ 0 := by rw [hr]; simp [List.countP_cons, Frame.isH]
    apply Classical.byContradiction
    intro hn
    exact hr ((hi'.lif.inv 7).others 1 hn)
  have hown : s'.owner = some 2 := by
    have h3 := hi'.mtx.own 2
    rw [hst2, h.two] at h3
    by_cases e : s'.owner = some 2
    · exact e
    · rw [if_neg e] at h3; simp [List.countP_cons, Frame.holds] at h3
  exact ⟨hown, hst1.trans h.one, hst2.trans h.two, hlife⟩

theorem signal_deadlock_violated (cfg : Cfg) : ∃ s, run cfg (init 0) stuck = some s ∧
    ∀ (bs : List Act) (s' : State), (∀ a ∈ bs, a ≠ .ret 1) → run cfg s bs = some s' →
      (∃ f, s'.stacks 1 = .handler 7 4 :: f) ∧ s'.owner = some 2 ∧ ∀ a, (a.thread = 1 ∧ a ≠ .ret 1) ∨ a.thread = 2 → step cfg s' a = none := by
  have h0 : ∃ s, run cfg (init 0) stuck = some s ∧ Stuck s := by
    refine ⟨_, rfl, ?_, ?_, ?_, ?_⟩ <;> rfl
  obtain ⟨s, hr, hk⟩ := h0
  refine ⟨s, hr, fun bs => ?_⟩
  have hi := run_inv (init_inv 0) hr
  clear hr
  induction bs generalizing s with
  | nil => intro s' _ e; injection e with e; subst e; exact ⟨⟨_, hk.one⟩, hk.owner, fun a ha => hk.wait ha⟩
  | cons a bs ih =>
    intro s' hb e
    simp only [run] at e
    cases hx : step cfg s a with
    | none => rw [hx] at e; cases e
    | some s1 =>
      rw [hx] at e
      exact ih s1 (hk.step hi (hb a List.mem_cons_self) hx) (step_inv hi hx) s' (fun b hm => hb b (List.mem_cons_of_mem _ hm)) e

/-! ### Cases of C64 and C65 -/

/-- A connection that was reset by thread 2 while thread 1, which had begun to raise the signal before, was at the handler before it: the handler is not called. -/
example : ∃ s, run allNeed (init 0) [.connect 1 7 false, .connected 1, .connect 1 8 false, .connected 1, .emit 1 4, .next 1, .disconnect 2 8, .release 2, .ret 1, .next 1, .next 1] = some s ∧
    s.phase 8 = .gone 2 ∧ s.seen 7 = [4] ∧ s.seen 8 = [] ∧ s.stacks 1 = [] := ⟨_, rfl, by decide +kernel⟩

/-- Thread 2 resets a connection whose handler thread 1 is inside of: it has to wait. -/
example : ∃ s, run allNeed (init 0) [.connect 1 7 false, .connected 1, .emit 1 4, .next 1, .disconnect 2 7] = some s ∧
    s.stacks 2 = [.releasing 7] ∧ (∃ v, Frame.handler 7 v ∈ s.stacks 1) ∧ (step allNeed s (.release 2)).isNone = true := ⟨_, rfl, by decide +kernel, ⟨4, by decide +kernel⟩, by decide +kernel⟩

/-- A handler resets its own connection: it is inside still, and is not called again. -/
example : ∃ s, run allNeed (init 0) [.connect 1 7 false, .connected 1, .emit 1 4, .next 1, .disconnect 1 7, .release 1, .emit 1 5, .next 1] = some s ∧
    s.phase 7 = .gone 1 ∧ (∃ v, Frame.handler 7 v ∈ s.stacks 1) ∧ s.seen 7 = [4] := ⟨_, rfl, by decide +kernel, ⟨4, by decide +kernel⟩, by decide +kernel⟩

/-- An emission that has called two handlers; one that was connected meanwhile is not part of it. -/
example : ∃ s, run allNeed (init 0) [.connect 1 7 false, .connected 1, .connect 1 8 false, .connected 1, .emit 1 4, .next 1, .connect 2 9 false, .connected 2, .ret 1, .next 1, .ret 1] = some s ∧
    s.stacks 1 = [.emit 4 [7, 8] [7, 8] [] false] ∧ s.handlers = [7, 8, 9] ∧ s.seen 9 = [] := ⟨_, rfl, by decide +kernel⟩

end Verif.Signal
