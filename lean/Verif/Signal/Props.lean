import Verif.Signal.Inv
/-
Properties C64 (no call after the connection is reset), C65 (an emission calls every connected handler once, in order), C66 (`ObservableValue` shows every value to every observer) and
C67 (who has locked the signal is not blocked) of the model of `signal`.
-/
namespace Verif.Signal
open Verif.Thread.Life (Impl IInv)

theorem inside_iff (s : State) (t h : Nat) : Spec.Inside s t h ↔ (s.stacks t).countP (Frame.isH h) ≠ 0 := by
  unfold Spec.Inside
  rw [Nat.ne_zero_iff_zero_lt, List.countP_pos_iff]
  constructor
  · rintro ⟨v, e⟩; exact ⟨_, e, by simp [Frame.isH]⟩
  · rintro ⟨f, hf, e⟩
    cases f with
    | handler k v => simp [Frame.isH] at e; subst e; exact ⟨v, hf⟩
    | _ => simp [Frame.isH] at e

/-! ### C64 -/

/-- A connection that is gone stays so and its handler is not called. -/
theorem gone_step {cfg : Cfg} {s s' : State} {a : Act} {h u : Nat} (hi : Inv s) (hs : step cfg s a = some s') (hg : s.phase h = .gone u) : s'.phase h = .gone u ∧ s'.seen h = s.seen h := by
  cases a with
  | lock t =>
    simp only [step, lockStep] at hs; split at hs
    · injection hs with hs; subst hs; exact ⟨hg, rfl⟩
    · cases hs
  | unlock t =>
    simp only [step, unlockStep] at hs; split at hs
    · injection hs with hs; subst hs; exact ⟨hg, rfl⟩
    · cases hs
  | emit t v =>
    simp only [step, emitStep] at hs; split at hs
    · injection hs with hs; subst hs; exact ⟨hg, rfl⟩
    · cases hs
  | set t v =>
    simp only [step, setStep] at hs; split at hs
    · split at hs <;> · injection hs with hs; subst hs; exact ⟨hg, rfl⟩
    · cases hs
  | next t =>
    simp only [step, nextStep] at hs; split at hs
    · rename_i v snap calls k todo lk rest hst
      split at hs
      · cases hs
      · rename_i m hm
        injection hs with hs; subst hs
        refine ⟨hg, ?_⟩
        have hk : k ≠ h := by
          intro e; subst e
          have := (hi.lif.alive k).2 ⟨u, hg⟩
          unfold Impl.tryStart at hm
          rw [this] at hm
          split at hm
          · rw [if_neg (fun e => nomatch e)] at hm; injection hm with hm; injection hm with hm; cases hm
          · cases hm
        exact set_ne _ _ (Ne.symm hk)
      · injection hs with hs; subst hs; exact ⟨hg, rfl⟩
    · injection hs with hs; subst hs; split <;> exact ⟨hg, rfl⟩
    · cases hs
  | ret t =>
    simp only [step, retStep] at hs; split at hs
    · split at hs
      · cases hs
      · injection hs with hs; subst hs; exact ⟨hg, rfl⟩
    · cases hs
  | connect t k b =>
    simp only [step, connectStep] at hs; split at hs
    · rename_i hc
      injection hs with hs; subst hs
      have hk : h ≠ k := by intro e; subst e; rw [hg] at hc; cases hc.2.2
      exact ⟨by simp only []; rw [set_ne _ _ hk]; exact hg, by simp only []; rw [set_ne _ _ hk]⟩
    · cases hs
  | connected t =>
    simp only [step, connectedStep] at hs; split at hs
    · rename_i k rest hst
      injection hs with hs; subst hs
      refine ⟨?_, rfl⟩
      have hk : h ≠ k := by
        intro e; subst e
        have := hi.con.conn h t
        rw [hst, hg] at this
        simp [List.countP_cons, Frame.isC] at this
      show Verif.Signal.set s.phase k .connected h = _
      rw [set_ne _ _ hk]; exact hg
    · cases hs
  | disconnect t k =>
    simp only [step, disconnectStep] at hs; split at hs
    · rename_i hc
      injection hs with hs; subst hs
      have hk : h ≠ k := by intro e; subst e; rw [hg] at hc; cases hc.2.2
      exact ⟨by simp only []; rw [set_ne _ _ hk]; exact hg, rfl⟩
    · cases hs
  | release t =>
    simp only [step, releaseStep] at hs; split at hs
    · rename_i k rest hst
      split at hs
      · cases hs
      · injection hs with hs; subst hs
        refine ⟨?_, rfl⟩
        have hk : h ≠ k := by
          intro e; subst e
          have := hi.con.rel h t
          rw [hst, hg] at this
          simp [List.countP_cons, Frame.isR] at this
        simp only []; rw [set_ne _ _ hk]; exact hg
    · cases hs

/-- After a connection is reset (the destructor of the connection has returned in thread `u`), its handler is not called any more, and no thread is inside it - except `u`, if the
connection was reset from inside the handler. -/
theorem signal_no_call_after_disconnect (cfg : Cfg) (v0 : Nat) (as bs : List Act) (s s' : State) (h u : Nat) (hr : run cfg (init v0) as = some s) (hg : s.phase h = .gone u)
    (hb : run cfg s bs = some s') : s'.seen h = s.seen h ∧ ∀ t, Spec.Inside s' t h → t = u := by
  have hi := run_inv (init_inv v0) hr
  clear hr
  induction bs generalizing s with
  | nil =>
    injection hb with hb; subst hb
    refine ⟨rfl, fun t ht => hi.lif.gone h u t hg ?_⟩
    rw [hi.lif.run]; exact (inside_iff s t h).1 ht
  | cons a bs ih =>
    simp only [run] at hb
    cases hx : step cfg s a with
    | none => rw [hx] at hb; cases hb
    | some s1 =>
      rw [hx] at hb
      obtain ⟨h1, h2⟩ := gone_step hi hx hg
      obtain ⟨h3, h4⟩ := ih s1 h1 hb (step_inv hi hx)
      exact ⟨by rw [h3, h2], h4⟩

/-- Resetting from a thread that is not inside the handler waits until the handler is not running in any thread. -/
theorem signal_disconnect_waits (cfg : Cfg) (v0 : Nat) (as : List Act) (s s' : State) (t h : Nat) (rest : List Frame) (hr : run cfg (init v0) as = some s) (ht : s.stacks t = .releasing h :: rest)
    (hn : ¬ Spec.Inside s t h) (hs : step cfg s (.release t) = some s') : s'.phase h = .gone t ∧ ∀ u, ¬ Spec.Inside s' u h := by
  have hi := run_inv (init_inv v0) hr
  have hi' := step_inv hi hs
  simp only [step, releaseStep, ht] at hs
  split at hs
  · cases hs
  · rename_i m hm
    injection hs with hs; subst hs
    have hp : Verif.Signal.set s.phase h (.gone t) h = .gone t := set_self _ _ _
    refine ⟨hp, fun u hu => ?_⟩
    have e := (inside_iff _ _ _).1 hu
    have e2 := hi'.lif.gone h t u hp (by rw [hi'.lif.run]; exact e)
    subst e2
    apply hn
    rw [inside_iff]
    simp only [pop, set_self] at e
    rw [ht] at e ⊢
    simpa [List.countP_cons, Frame.isH] using e

/-! ### C65 -/

/-- An emission begins with the connected handlers, in the order in which they were connected. -/
theorem signal_emission_start (cfg : Cfg) (v0 : Nat) (as : List Act) (s s' : State) (t v : Nat) (hr : run cfg (init v0) as = some s) (hs : step cfg s (.emit t v) = some s') :
    s'.stacks t = .emit v (s.order.filter fun h => decide (s.phase h = .connected)) [] (s.order.filter fun h => decide (s.phase h = .connected)) false :: s.stacks t := by
  have hi := run_inv (init_inv v0) hr
  simp only [step, emitStep] at hs
  split at hs
  · injection hs with hs; subst hs
    rw [← hi.con.lst]
    exact set_self _ _ _
  · cases hs

/-- The same for `ObservableValue::Set`. -/
theorem signal_set_start (cfg : Cfg) (v0 : Nat) (as : List Act) (s s' : State) (t v : Nat) (hr : run cfg (init v0) as = some s) (hs : step cfg s (.set t v) = some s') (hv : s.val ≠ v) :
    s'.val = v ∧ s'.stacks t = .emit v (s.order.filter fun h => decide (s.phase h = .connected)) [] (s.order.filter fun h => decide (s.phase h = .connected)) true :: s.stacks t := by
  have hi := run_inv (init_inv v0) hr
  simp only [step, setStep] at hs
  split at hs
  · injection hs with hs; subst hs
    rw [← hi.con.lst]
    exact ⟨rfl, set_self _ _ _⟩
  · cases hs

/-- What an emission does with its next handler: it is called with the value unless its connection was reset. -/
theorem signal_emission_next (cfg : Cfg) (v0 : Nat) (as : List Act) (s s' : State) (t v h : Nat) (snap calls todo : List Nat) (lk : Bool) (rest : List Frame) (hr : run cfg (init v0) as = some s)
    (ht : s.stacks t = .emit v snap calls (h :: todo) lk :: rest) (hs : step cfg s (.next t) = some s') :
    (s'.stacks t = .handler h v :: .emit v snap (calls ++ [h]) todo lk :: rest ∧ s'.seen h = s.seen h ++ [v] ∧ ∀ u, s.phase h ≠ .gone u) ∨
    (s'.stacks t = .emit v snap calls todo lk :: rest ∧ s'.seen h = s.seen h ∧ ∃ u, s.phase h = .gone u) := by
  have hi := run_inv (init_inv v0) hr
  simp only [step, nextStep, ht] at hs
  split at hs
  · cases hs
  · rename_i m hm
    injection hs with hs; subst hs
    refine Or.inl ⟨set_self _ _ _, set_self _ _ _, fun u e => ?_⟩
    have := (hi.lif.alive h).2 ⟨u, e⟩
    unfold Impl.tryStart at hm
    rw [this] at hm
    split at hm
    · rw [if_neg (fun e => nomatch e)] at hm; injection hm with hm; injection hm with hm; cases hm
    · cases hm
  · rename_i m hm
    injection hs with hs; subst hs
    refine Or.inr ⟨set_self _ _ _, rfl, (hi.lif.alive h).1 ?_⟩
    unfold Impl.tryStart at hm
    split at hm
    · split at hm
      · injection hm with hm; injection hm with hm; cases hm
      · rename_i e; simpa using e
    · cases hm

/-- Every emission, at any time: the handlers it has called and those it has not come to are taken from its list in order, each at most once, and the others of the list are handlers whose
connections were reset. So when it is over, it has called each handler of the list, once, in order, except those whose connections are reset. -/
theorem signal_emission_all (cfg : Cfg) (v0 : Nat) (as : List Act) (s : State) (t v : Nat) (snap calls todo : List Nat) (lk : Bool) (hr : run cfg (init v0) as = some s)
    (ht : Frame.emit v snap calls todo lk ∈ s.stacks t) : (calls ++ todo).Sublist snap ∧ (calls ++ todo).Nodup ∧ ∀ h ∈ snap, h ∈ calls ∨ h ∈ todo ∨ ∃ u, s.phase h = .gone u := by
  have he := (run_inv (init_inv v0) hr).emi t v snap calls todo lk ht
  exact ⟨he.sub, he.nodup.sublist he.sub, he.all⟩

/-- What a thread is doing is not changed by the steps of the others. -/
theorem signal_stacks_own (cfg : Cfg) (s s' : State) (a : Act) (t : Nat) (hs : step cfg s a = some s') (hn : a.thread ≠ t) : s'.stacks t = s.stacks t := by
  have key : ∀ (u : Nat) (l : List Frame), u ≠ t → Verif.Signal.set s.stacks u l t = s.stacks t := fun u l e => set_ne _ _ (Ne.symm e)
  cases a with
  | lock u => simp only [step, lockStep] at hs; split at hs; (injection hs with hs; subst hs; exact key _ _ hn); cases hs
  | unlock u => simp only [step, unlockStep] at hs; split at hs; (injection hs with hs; subst hs; exact key _ _ hn); cases hs
  | emit u v => simp only [step, emitStep] at hs; split at hs; (injection hs with hs; subst hs; exact key _ _ hn); cases hs
  | set u v =>
    simp only [step, setStep] at hs; split at hs
    · split at hs
      · injection hs with hs; subst hs; rfl
      · injection hs with hs; subst hs; exact key _ _ hn
    · cases hs
  | next u =>
    simp only [step, nextStep] at hs; split at hs
    · split at hs
      · cases hs
      · injection hs with hs; subst hs; exact key _ _ hn
      · injection hs with hs; subst hs; exact key _ _ hn
    · injection hs with hs; subst hs; split <;> exact key _ _ hn
    · cases hs
  | ret u =>
    simp only [step, retStep] at hs; split at hs
    · split at hs
      · cases hs
      · injection hs with hs; subst hs; exact key _ _ hn
    · cases hs
  | connect u k b => simp only [step, connectStep] at hs; split at hs; (injection hs with hs; subst hs; exact key _ _ hn); cases hs
  | connected u => simp only [step, connectedStep] at hs; split at hs; (injection hs with hs; subst hs; exact key _ _ hn); cases hs
  | disconnect u k => simp only [step, disconnectStep] at hs; split at hs; (injection hs with hs; subst hs; exact key _ _ hn); cases hs
  | release u =>
    simp only [step, releaseStep] at hs; split at hs
    · split at hs
      · cases hs
      · injection hs with hs; subst hs; exact key _ _ hn
    · cases hs

/-! ### Runs with a condition -/

theorem runIf_inv {cfg : Cfg} {ok : State → Act → Bool} : ∀ {as : List Act} {s s' : State}, Inv s → runIf cfg ok s as = some s' → Inv s'
  | [], s, s', h, hs => by injection hs with hs; rw [← hs]; exact h
  | a :: as, s, s', h, hs => by
    simp only [runIf] at hs
    split at hs
    · cases hx : step cfg s a with
      | none => rw [hx] at hs; cases hs
      | some r => rw [hx] at hs; exact runIf_inv (step_inv h hx) hs
    · cases hs

theorem runIf_ind {cfg : Cfg} {ok : State → Act → Bool} {P : State → Prop} (hstep : ∀ s s' a, Inv s → P s → ok s a = true → step cfg s a = some s' → P s') :
    ∀ {as : List Act} {s s' : State}, Inv s → P s → runIf cfg ok s as = some s' → P s'
  | [], s, s', _, h, hs => by injection hs with hs; rw [← hs]; exact h
  | a :: as, s, s', hi, h, hs => by
    simp only [runIf] at hs
    split at hs
    · rename_i hok
      cases hx : step cfg s a with
      | none => rw [hx] at hs; cases hs
      | some r => rw [hx] at hs; exact runIf_ind hstep (step_inv hi hx) (hstep _ _ _ hi h hok hx) hs
    · cases hs

/-! ### C66 -/

def Frame.isE : Frame → Bool
  | .emit _ _ _ _ _ => true
  | _ => false

structure Obs (v0 : Nat) (s : State) : Prop where
  one : ∀ t, (s.stacks t).countP Frame.isE ≤ 1
  held : ∀ t v snap calls todo lk, Frame.emit v snap calls todo lk ∈ s.stacks t → lk = true
  todo : ∀ t v snap calls todo lk h, Frame.emit v snap calls todo lk ∈ s.stacks t → h ∈ todo → s.seen h ++ [v] = s.first h ++ s.hist.drop (s.start h)
  done : ∀ h, s.phase h = .connected → (∀ t v snap calls todo lk, Frame.emit v snap calls todo lk ∈ s.stacks t → h ∉ todo) → s.seen h = s.first h ++ s.hist.drop (s.start h)
  conn : ∀ h t, s.phase h = .connecting t → s.seen h = s.first h ∧ s.start h = s.hist.length
  val : (v0 :: s.hist).getLast? = some s.val
  past : ∀ h, s.phase h ≠ .fresh → s.start h ≤ s.hist.length ∧ (s.first h = [] ∨ (v0 :: s.hist)[s.start h]?.toList = s.first h)
  alt : ∀ i x y, (v0 :: s.hist)[i]? = some x → (v0 :: s.hist)[i + 1]? = some y → x ≠ y

theorem init_obs (v0 : Nat) : Obs v0 (init v0) where
  one := fun _ => Nat.zero_le _
  held := fun _ _ _ _ _ _ e => nomatch e
  todo := fun _ _ _ _ _ _ _ e => nomatch e
  done := fun _ e => nomatch e
  conn := fun _ _ e => nomatch e
  val := rfl
  past := fun _ e => absurd rfl e
  alt := fun i x y _ e => by simp [init] at e

/-- The emissions of the new state were there before: nothing else that matters changed. -/
theorem Obs.stack {v0 : Nat} {s s' : State} (o : Obs v0 s) (hph : ∀ h, s'.phase h = s.phase h) (hseen : s'.seen = s.seen) (hfirst : s'.first = s.first) (hstart : s'.start = s.start)
    (hhist : s'.hist = s.hist) (hval : s'.val = s.val) (hone : ∀ t, (s'.stacks t).countP Frame.isE ≤ 1)
    (hold : ∀ t v snap calls todo lk, Frame.emit v snap calls todo lk ∈ s'.stacks t → Frame.emit v snap calls todo lk ∈ s.stacks t)
    (hnew : ∀ t v snap calls h todo lk, Frame.emit v snap calls (h :: todo) lk ∈ s.stacks t → Frame.emit v snap calls (h :: todo) lk ∈ s'.stacks t) : Obs v0 s' where
  one := hone
  held := fun t v a b c d e => o.held t v a b c d (hold _ _ _ _ _ _ e)
  todo := fun t v a b c d h e hm => by rw [hseen, hfirst, hstart, hhist]; exact o.todo t v a b c d h (hold _ _ _ _ _ _ e) hm
  done := fun h hp hn => by
    rw [hseen, hfirst, hstart, hhist]
    refine o.done h (by rw [← hph]; exact hp) (fun t v a b c d e hm => ?_)
    cases c with
    | nil => cases hm
    | cons x xs => exact hn t v a b _ d (hnew _ _ _ _ _ _ _ e) hm
  conn := fun h t hp => by rw [hseen, hfirst, hstart, hhist]; exact o.conn h t (by rw [← hph]; exact hp)
  val := by rw [hhist, hval]; exact o.val
  past := fun h hp => by rw [hstart, hhist, hfirst]; exact o.past h (by rw [← hph]; exact hp)
  alt := by rw [hhist]; exact o.alt

theorem mem_set_stack {st : Nat → List Frame} {t u : Nat} {l : List Frame} {f : Frame} (h : f ∈ Verif.Signal.set st t l u) : (u = t ∧ f ∈ l) ∨ (u ≠ t ∧ f ∈ st u) := by
  by_cases e : u = t
  · rw [e, set_self] at h; exact Or.inl ⟨e, h⟩
  · rw [set_ne _ _ e] at h; exact Or.inr ⟨e, h⟩

theorem count_set_stack {st : Nat → List Frame} (t : Nat) (l : List Frame) (h : ∀ u, (st u).countP Frame.isE ≤ 1) (hl : l.countP Frame.isE ≤ 1) (u : Nat) : (Verif.Signal.set st t l u).countP Frame.isE ≤ 1 := by
  by_cases e : u = t
  · rw [e, set_self]; exact hl
  · rw [set_ne _ _ e]; exact h u

/-- A frame that is not an emission is put on the stack of `t`. -/
theorem Obs.pushed {v0 : Nat} {s s' : State} {t : Nat} {f : Frame} (o : Obs v0 s) (hf : f.isE = false) (hst : s'.stacks = Verif.Signal.set s.stacks t (f :: s.stacks t)) (hph : ∀ h, s'.phase h = s.phase h)
    (hseen : s'.seen = s.seen) (hfirst : s'.first = s.first) (hstart : s'.start = s.start) (hhist : s'.hist = s.hist) (hval : s'.val = s.val) : Obs v0 s' := by
  refine o.stack hph hseen hfirst hstart hhist hval (fun u => ?_) (fun u v a b c d e => ?_) (fun u v a b x c d e => ?_)
  · rw [hst]
    refine count_set_stack t _ o.one ?_ u
    simp only [List.countP_cons, hf]; simpa using o.one t
  · rw [hst] at e
    rcases mem_set_stack e with ⟨e1, e2⟩ | ⟨_, e2⟩
    · rcases List.mem_cons.1 e2 with e2 | e2
      · rw [← e2] at hf; cases hf
      · rw [e1]; exact e2
    · exact e2
  · rw [hst]
    by_cases e1 : u = t
    · rw [e1, set_self]; rw [e1] at e; exact List.mem_cons_of_mem _ e
    · rw [set_ne _ _ e1]; exact e

/-- A frame that is not an emission that goes on is taken from the stack of `t`. -/
theorem Obs.popped {v0 : Nat} {s s' : State} {t : Nat} {f : Frame} {rest : List Frame} (o : Obs v0 s) (hs : s.stacks t = f :: rest) (hf : ∀ v a b x c d, f ≠ .emit v a b (x :: c) d)
    (hst : s'.stacks = Verif.Signal.set s.stacks t (s.stacks t).tail) (hph : ∀ h, s'.phase h = s.phase h) (hseen : s'.seen = s.seen) (hfirst : s'.first = s.first) (hstart : s'.start = s.start)
    (hhist : s'.hist = s.hist) (hval : s'.val = s.val) : Obs v0 s' := by
  refine o.stack hph hseen hfirst hstart hhist hval (fun u => ?_) (fun u v a b c d e => ?_) (fun u v a b x c d e => ?_)
  · rw [hst]
    refine count_set_stack t _ o.one ?_ u
    have := o.one t
    rw [hs] at this ⊢
    simp only [List.countP_cons, List.tail_cons] at this ⊢
    omega
  · rw [hst] at e
    rcases mem_set_stack e with ⟨e1, e2⟩ | ⟨_, e2⟩
    · rw [e1]; exact List.mem_of_mem_tail e2
    · exact e2
  · rw [hst]
    by_cases e1 : u = t
    · rw [e1, set_self, hs]; rw [e1, hs] at e
      rcases List.mem_cons.1 e with e | e
      · exact absurd e.symm (hf _ _ _ _ _ _)
      · exact e
    · rw [set_ne _ _ e1]; exact e

/-- An emission that the mutex protects is the only one. -/
theorem emission_one {v0 : Nat} {s : State} (hi : Inv s) (o : Obs v0 s) {t u v v' : Nat} {a b c a' b' c' : List Nat} {d d' : Bool} (h : Frame.emit v a b c d ∈ s.stacks t)
    (h' : Frame.emit v' a' b' c' d' ∈ s.stacks u) : t = u ∧ Frame.emit v a b c d = Frame.emit v' a' b' c' d' := by
  have own : ∀ (t v : Nat) (a b c : List Nat) (d : Bool), Frame.emit v a b c d ∈ s.stacks t → s.owner = some t := by
    intro t v a b c d h
    have h1 := o.held _ _ _ _ _ _ h
    have h2 := hi.mtx.own t
    have h3 : 0 < (s.stacks t).countP Frame.holds := List.countP_pos_iff.2 ⟨_, h, by simp [Frame.holds, h1]⟩
    by_cases e : s.owner = some t
    · exact e
    · rw [if_neg e] at h2; omega
  have e : t = u := by
    have h1 := own _ _ _ _ _ _ h
    have h2 := own _ _ _ _ _ _ h'
    rw [h1] at h2; injection h2
  subst e
  refine ⟨rfl, ?_⟩
  have h1 := o.one t
  generalize s.stacks t = l at h h' h1
  clear own
  induction l with
  | nil => cases h
  | cons f l ih =>
    simp only [List.countP_cons] at h1
    rcases List.mem_cons.1 h with h | h
    · rcases List.mem_cons.1 h' with h' | h'
      · rw [h, h']
      · have : 0 < l.countP Frame.isE := List.countP_pos_iff.2 ⟨_, h', rfl⟩
        rw [← h] at h1; simp [Frame.isE] at h1; simp [h1] at this
        have := h1 _ h'; simp [Frame.isE] at this
    · rcases List.mem_cons.1 h' with h' | h'
      · have : 0 < l.countP Frame.isE := List.countP_pos_iff.2 ⟨_, h, rfl⟩
        rw [← h'] at h1; simp [Frame.isE] at h1
        have := h1 _ h; simp [Frame.isE] at this
      · exact ih h h' (by omega)

theorem obs_step {cfg : Cfg} {v0 : Nat} {s s' : State} {a : Act} (hi : Inv s) (o : Obs v0 s) (hok : Spec.noReentry s a = true) (hs : step cfg s a = some s') : Obs v0 s' := by
  cases a with
  | lock t =>
    simp only [step, lockStep] at hs; split at hs
    · injection hs with hs; subst hs; exact o.pushed (f := .lock) rfl rfl (fun _ => rfl) rfl rfl rfl rfl rfl
    · cases hs
  | unlock t =>
    simp only [step, unlockStep] at hs; split at hs
    · rename_i rest hst
      injection hs with hs; subst hs; exact o.popped hst (fun _ _ _ _ _ _ e => nomatch e) rfl (fun _ => rfl) rfl rfl rfl rfl rfl
    · cases hs
  | emit t v => cases hok
  | set t v =>
    have hfree : s.owner = none := by simpa [Spec.noReentry] using hok
    have hno : ∀ (u v : Nat) (a b c : List Nat) (d : Bool), Frame.emit v a b c d ∉ s.stacks u := by
      intro u v a b c d e
      have h1 := o.held _ _ _ _ _ _ e
      have h2 := hi.mtx.own u
      rw [hfree, if_neg (fun e => nomatch e)] at h2
      have h3 : 0 < (s.stacks u).countP Frame.holds := List.countP_pos_iff.2 ⟨_, e, by simp [Frame.holds, h1]⟩
      omega
    have hnc : ∀ h t, s.phase h ≠ .connecting t := by
      intro h u e
      have h2 := hi.mtx.own u
      rw [hfree, if_neg (fun e => nomatch e)] at h2
      have h3 := hi.con.conn h u
      rw [if_pos e] at h3
      have h4 : 0 < (s.stacks u).countP Frame.holds := by
        have : 0 < (s.stacks u).countP (Frame.isC h) := by omega
        obtain ⟨f, hf, e⟩ := List.countP_pos_iff.1 this
        refine List.countP_pos_iff.2 ⟨f, hf, ?_⟩
        cases f <;> simp [Frame.isC] at e; rfl
      omega
    simp only [step, setStep] at hs; split at hs
    · split at hs
      · injection hs with hs; subst hs; exact o
      · rename_i hne
        injection hs with hs; subst hs
        have hmem : ∀ {u v' a b c d}, Frame.emit v' a b c d ∈ Verif.Signal.set s.stacks t (.emit v s.handlers [] s.handlers true :: s.stacks t) u → u = t ∧ v' = v ∧ c = s.handlers ∧ d = true := by
          intro u v' a b c d e
          rcases mem_set_stack e with ⟨e1, e2⟩ | ⟨_, e2⟩
          · rcases List.mem_cons.1 e2 with e2 | e2
            · injection e2 with e3 e4 e5 e6 e7; exact ⟨e1, e3, e6, e7⟩
            · exact absurd e2 (hno _ _ _ _ _ _)
          · exact absurd e2 (hno _ _ _ _ _ _)
        have hlast : ∀ h, s.phase h = .connected → s.seen h ++ [v] = s.first h ++ (s.hist ++ [v]).drop (s.start h) := by
          intro h hp
          have h1 := o.done h hp (fun u _ _ _ _ _ e => absurd e (hno _ _ _ _ _ _))
          have h2 := (o.past h (by rw [hp]; exact fun e => nomatch e)).1
          rw [h1, List.drop_append_of_le_length h2, List.append_assoc]
        refine ⟨fun u => ?_, fun u v' a b c d e => (hmem e).2.2.2, fun u v' a b c d h e hm => ?_, fun h hp hn => ?_, fun h u hp => absurd hp (hnc h u), ?_, fun h hp => ?_, fun i x y h1 h2 => ?_⟩
        · refine count_set_stack t _ o.one ?_ u
          have : (s.stacks t).countP Frame.isE = 0 := List.countP_eq_zero.2 fun f hf e => by
            cases f with
            | emit v a b c d => exact hno _ _ _ _ _ _ hf
            | _ => cases e
          show List.countP _ (_ :: s.stacks t) ≤ 1
          simp only [List.countP_cons, this]; simp [Frame.isE]
        · obtain ⟨_, e1, e2, _⟩ := hmem e
          rw [e1]; rw [e2] at hm
          exact hlast h ((handlers_iff hi h).1 hm)
        · exact absurd ((handlers_iff hi h).2 hp) (hn t v s.handlers [] s.handlers true (by
            show _ ∈ Verif.Signal.set s.stacks t _ t
            rw [set_self]; exact List.mem_cons_self))
        · show (v0 :: (s.hist ++ [v])).getLast? = some v
          rw [← List.cons_append, List.getLast?_append]; simp
        · have := o.past h hp
          show s.start h ≤ (s.hist ++ [v]).length ∧ (_ ∨ (v0 :: (s.hist ++ [v]))[s.start h]?.toList = _)
          refine ⟨by rw [List.length_append]; have := this.1; omega, this.2.imp id fun e => ?_⟩
          rw [← List.cons_append, List.getElem?_append_left (by simp only [List.length_cons]; have := this.1; omega)]; exact e
        · have h1 : (v0 :: s.hist ++ [v])[i]? = some x := h1
          have h2 : (v0 :: s.hist ++ [v])[i + 1]? = some y := h2
          by_cases hl : i + 1 < (v0 :: s.hist).length
          · rw [List.getElem?_append_left (by omega)] at h1
            rw [List.getElem?_append_left hl] at h2
            exact o.alt i x y h1 h2
          · have hlen := (List.getElem?_eq_some_iff.1 h2).1
            simp only [List.length_append, List.length_singleton] at hlen
            have e : i + 1 = (v0 :: s.hist).length := by omega
            rw [List.getElem?_append_right (by omega), e, Nat.sub_self] at h2
            injection h2 with h2
            rw [List.getElem?_append_left (by omega)] at h1
            have h3 := o.val
            rw [List.getLast?_eq_getElem?, ← e, Nat.add_sub_cancel, h1] at h3
            injection h3 with h3
            rw [← h2, h3]; exact hne
    · cases hs
  | next t =>
    simp only [step, nextStep] at hs; split at hs
    · rename_i v snap calls k todo lk rest hst
      have hmem0 : Frame.emit v snap calls (k :: todo) lk ∈ s.stacks t := by rw [hst]; exact List.mem_cons_self
      have hei := hi.emi _ _ _ _ _ _ hmem0
      have hnk : k ∉ todo := by
        have := hei.nodup.sublist hei.sub
        rw [List.nodup_append] at this
        exact (List.nodup_cons.1 this.2.1).1
      have hlk := o.held _ _ _ _ _ _ hmem0
      have hone : (Frame.emit v snap calls todo lk :: rest).countP Frame.isE ≤ 1 := by
        have := o.one t; rw [hst] at this; simpa [List.countP_cons, Frame.isE] using this
      have hrest : ∀ {v' a b c d}, Frame.emit v' a b c d ∉ rest := by
        intro v' a b c d e
        have : 0 < rest.countP Frame.isE := List.countP_pos_iff.2 ⟨_, e, rfl⟩
        simp only [List.countP_cons, Frame.isE, if_true] at hone; omega
      have hother : ∀ {u v' a b c d}, u ≠ t → Frame.emit v' a b c d ∉ s.stacks u := fun hu e => hu (emission_one hi o hmem0 e).1.symm
      split at hs
      · cases hs
      · rename_i m hm
        injection hs with hs; subst hs
        have hmem : ∀ {u v' a b c d}, Frame.emit v' a b c d ∈ Verif.Signal.set s.stacks t (.handler k v :: .emit v snap (calls ++ [k]) todo lk :: rest) u → u = t ∧ v' = v ∧ c = todo ∧ d = lk := by
          intro u v' a b c d e
          rcases mem_set_stack e with ⟨e1, e2⟩ | ⟨e1, e2⟩
          · rcases List.mem_cons.1 e2 with e2 | e2
            · cases e2
            · rcases List.mem_cons.1 e2 with e2 | e2
              · injection e2 with e3 e4 e5 e6 e7; exact ⟨e1, e3, e6, e7⟩
              · exact absurd e2 hrest
          · exact absurd e2 (hother e1)
        have hko : s.phase k ≠ .fresh ∧ ∀ u, s.phase k ≠ .connecting u := (hi.con.mem k).1 (hei.old k (hei.sub.subset (by simp)))
        refine ⟨fun u => ?_, fun u v' a b c d e => by rw [(hmem e).2.2.2]; exact hlk, fun u v' a b c d h e hmm => ?_, fun h hp hn => ?_, fun h u hp => ?_, o.val, o.past, o.alt⟩
        · refine count_set_stack t _ o.one ?_ u
          simpa [List.countP_cons, Frame.isE] using hone
        · obtain ⟨_, e1, e2, _⟩ := hmem e
          rw [e1]; rw [e2] at hmm
          have : h ≠ k := by intro e; subst e; exact hnk hmm
          simp only [set_ne _ _ this]
          exact o.todo t v snap calls (k :: todo) lk h hmem0 (List.mem_cons_of_mem _ hmm)
        · by_cases e : h = k
          · subst e; simp only [set_self]
            exact o.todo t v snap calls (h :: todo) lk h hmem0 List.mem_cons_self
          · simp only [set_ne _ _ e]
            refine o.done h hp (fun u v' a b c d e' hm => ?_)
            have := (emission_one hi o hmem0 e').2
            injection this with _ _ _ e6
            rw [← e6] at hm
            rcases List.mem_cons.1 hm with hm | hm
            · exact e hm
            · exact hn t v snap (calls ++ [k]) todo lk (by simp only [set_self]; simp) hm
        · have : h ≠ k := by intro e; subst e; exact hko.2 u hp
          simp only [set_ne _ _ this]; exact o.conn h u hp
      · rename_i m hm
        injection hs with hs; subst hs
        obtain ⟨_, hg⟩ := hi.lif.refuse (l := s.stacks t) hm (fun _ => rfl)
        have hmem : ∀ {u v' a b c d}, Frame.emit v' a b c d ∈ Verif.Signal.set s.stacks t (.emit v snap calls todo lk :: rest) u → u = t ∧ v' = v ∧ c = todo ∧ d = lk := by
          intro u v' a b c d e
          rcases mem_set_stack e with ⟨e1, e2⟩ | ⟨e1, e2⟩
          · rcases List.mem_cons.1 e2 with e2 | e2
            · injection e2 with e3 e4 e5 e6 e7; exact ⟨e1, e3, e6, e7⟩
            · exact absurd e2 hrest
          · exact absurd e2 (hother e1)
        refine ⟨fun u => count_set_stack t _ o.one hone u, fun u v' a b c d e => by rw [(hmem e).2.2.2]; exact hlk, fun u v' a b c d h e hm => ?_, fun h hp hn => ?_, o.conn, o.val, o.past, o.alt⟩
        · obtain ⟨_, e1, e2, _⟩ := hmem e
          rw [e1]; rw [e2] at hm
          exact o.todo t v snap calls (k :: todo) lk h hmem0 (List.mem_cons_of_mem _ hm)
        · refine o.done h hp (fun u v' a b c d e' hm => ?_)
          have := (emission_one hi o hmem0 e').2
          injection this with _ _ _ e6
          rw [← e6] at hm
          rcases List.mem_cons.1 hm with hm | hm
          · obtain ⟨w, hg⟩ := hg
            have hp : s.phase h = .connected := hp
            rw [hm, hg] at hp; cases hp
          · exact hn t v snap calls todo lk (by simp only [set_self]; simp) hm
    · rename_i v snap calls lk rest hst
      injection hs with hs; subst hs
      cases lk with
      | true => exact o.popped hst (fun _ _ _ _ _ _ e => nomatch e) rfl (fun _ => rfl) rfl rfl rfl rfl rfl
      | false => exact o.popped hst (fun _ _ _ _ _ _ e => nomatch e) rfl (fun _ => rfl) rfl rfl rfl rfl rfl
    · cases hs
  | ret t =>
    simp only [step, retStep] at hs; split at hs
    · rename_i k v rest hst
      split at hs
      · cases hs
      · injection hs with hs; subst hs
        exact o.popped hst (fun _ _ _ _ _ _ e => nomatch e) rfl (fun _ => rfl) rfl rfl rfl rfl rfl
    · cases hs
  | connect t k b =>
    simp only [step, connectStep] at hs; split at hs
    · rename_i hc
      injection hs with hs; subst hs
      have hph := hc.2.2
      have hmem : ∀ {u v' a b c d}, Frame.emit v' a b c d ∈ Verif.Signal.set s.stacks t (.connecting k :: s.stacks t) u → Frame.emit v' a b c d ∈ s.stacks u := by
        intro u v' a b c d e
        rcases mem_set_stack e with ⟨e1, e2⟩ | ⟨e1, e2⟩
        · rcases List.mem_cons.1 e2 with e2 | e2
          · cases e2
          · rw [e1]; exact e2
        · exact e2
      have hmem' : ∀ {u v' a b c d}, Frame.emit v' a b c d ∈ s.stacks u → Frame.emit v' a b c d ∈ Verif.Signal.set s.stacks t (.connecting k :: s.stacks t) u := by
        intro u v' a b c d e
        by_cases e1 : u = t
        · rw [e1, set_self]; rw [e1] at e; exact List.mem_cons_of_mem _ e
        · rw [set_ne _ _ e1]; exact e
      have hlast : (v0 :: s.hist)[s.hist.length]? = some s.val := by have := o.val; rw [List.getLast?_eq_getElem?] at this; exact this
      refine ⟨fun u => ?_, fun u v' a b c d e => o.held _ _ _ _ _ _ (hmem e), fun u v' a b c d h e hm => ?_, fun h hp hn => ?_, fun h u hp => ?_, o.val, fun h hp => ?_, o.alt⟩
      · refine count_set_stack t _ o.one ?_ u
        show List.countP _ (_ :: s.stacks t) ≤ 1
        simpa [List.countP_cons, Frame.isE] using o.one t
      · have hei := hi.emi _ _ _ _ _ _ (hmem e)
        have : h ≠ k := by
          intro e; subst e
          exact ((hi.con.mem h).1 (hei.old h (hei.sub.subset (List.mem_append_right _ hm)))).1 hph
        simp only [set_ne _ _ this]
        exact o.todo _ _ _ _ _ _ h (hmem e) hm
      · by_cases e : h = k
        · subst e; simp only [set_self] at hp; cases hp
        · simp only [set_ne _ _ e] at hp ⊢
          exact o.done h hp (fun u v' a b c d e' => hn u v' a b c d (hmem' e'))
      · by_cases e : h = k
        · subst e; simp only [set_self]; exact ⟨trivial, rfl⟩
        · simp only [set_ne _ _ e] at hp ⊢; exact o.conn h u hp
      · by_cases e : h = k
        · subst e; simp only [set_self]
          refine ⟨Nat.le_refl _, ?_⟩
          by_cases hb : (b && cfg.need s.val) = true
          · rw [if_pos hb]; right
            show (v0 :: s.hist)[s.hist.length]?.toList = _
            rw [hlast]; rfl
          · rw [if_neg hb]; exact Or.inl rfl
        · simp only [set_ne _ _ e] at hp ⊢; exact o.past h hp
    · cases hs
  | connected t =>
    simp only [step, connectedStep] at hs; split at hs
    · rename_i k rest hst
      injection hs with hs; subst hs
      have hph : s.phase k = .connecting t := by
        have := hi.con.conn k t
        rw [hst] at this
        simp only [List.countP_cons, Frame.isC, beq_self_eq_true, if_true] at this
        split at this
        · assumption
        · omega
      have hmem : ∀ {u v' a b c d}, Frame.emit v' a b c d ∈ Verif.Signal.set s.stacks t (s.stacks t).tail u → Frame.emit v' a b c d ∈ s.stacks u := by
        intro u v' a b c d e
        rcases mem_set_stack e with ⟨e1, e2⟩ | ⟨e1, e2⟩
        · rw [e1]; exact List.mem_of_mem_tail e2
        · exact e2
      have hmem' : ∀ {u v' a b c d}, Frame.emit v' a b c d ∈ s.stacks u → Frame.emit v' a b c d ∈ Verif.Signal.set s.stacks t (s.stacks t).tail u := by
        intro u v' a b c d e
        by_cases e1 : u = t
        · rw [e1, set_self, hst]; rw [e1, hst] at e
          rcases List.mem_cons.1 e with e | e
          · cases e
          · exact e
        · rw [set_ne _ _ e1]; exact e
      refine ⟨fun u => ?_, fun u v' a b c d e => o.held _ _ _ _ _ _ (hmem e), fun u v' a b c d h e hm => o.todo _ _ _ _ _ _ h (hmem e) hm, fun h hp hn => ?_, fun h u hp => ?_, o.val, fun h hp => ?_, o.alt⟩
      · refine count_set_stack t _ o.one ?_ u
        have := o.one t
        rw [hst] at this ⊢
        simp only [List.countP_cons, List.tail_cons] at this ⊢
        omega
      · by_cases e : h = k
        · subst e
          obtain ⟨h1, h2⟩ := o.conn h t hph
          show s.seen h = s.first h ++ s.hist.drop (s.start h)
          rw [h1, h2, List.drop_length, List.append_nil]
        · have hp : Verif.Signal.set s.phase k .connected h = .connected := hp
          rw [set_ne _ _ e] at hp
          exact o.done h hp (fun u v' a b c d e' => hn u v' a b c d (hmem' e'))
      · have hp : Verif.Signal.set s.phase k .connected h = .connecting u := hp
        by_cases e : h = k
        · rw [e, set_self] at hp; cases hp
        · rw [set_ne _ _ e] at hp; exact o.conn h u hp
      · have hp : Verif.Signal.set s.phase k .connected h ≠ .fresh := hp
        by_cases e : h = k
        · subst e; exact o.past h (by rw [hph]; exact fun e => nomatch e)
        · rw [set_ne _ _ e] at hp; exact o.past h hp
    · cases hs
  | disconnect t k =>
    simp only [step, disconnectStep] at hs; split at hs
    · rename_i hc
      injection hs with hs; subst hs
      have hph := hc.2.2
      have o1 : Obs v0 (push s t (.releasing k)) := o.pushed (f := .releasing k) rfl rfl (fun _ => rfl) rfl rfl rfl rfl rfl
      refine ⟨o1.one, o1.held, o1.todo, fun h hp hn => ?_, fun h u hp => ?_, o1.val, fun h hp => ?_, o1.alt⟩
      · by_cases e : h = k
        · subst e; simp only [set_self] at hp; cases hp
        · simp only [set_ne _ _ e] at hp; exact o1.done h hp hn
      · by_cases e : h = k
        · subst e; simp only [set_self] at hp; cases hp
        · simp only [set_ne _ _ e] at hp; exact o1.conn h u hp
      · by_cases e : h = k
        · subst e; exact o1.past h (by show s.phase h ≠ _; rw [hph]; exact fun e => nomatch e)
        · simp only [set_ne _ _ e] at hp; exact o1.past h hp
    · cases hs
  | release t =>
    simp only [step, releaseStep] at hs; split at hs
    · rename_i k rest hst
      have hph : s.phase k = .removed t := by
        have := hi.con.rel k t
        rw [hst] at this
        simp only [List.countP_cons, Frame.isR, beq_self_eq_true, if_true] at this
        split at this
        · assumption
        · omega
      split at hs
      · cases hs
      · rename_i m hm
        injection hs with hs; subst hs
        have o1 : Obs v0 (pop s t) := o.popped hst (fun _ _ _ _ _ _ e => nomatch e) rfl (fun _ => rfl) rfl rfl rfl rfl rfl
        refine ⟨o1.one, o1.held, o1.todo, fun h hp hn => ?_, fun h u hp => ?_, o1.val, fun h hp => ?_, o1.alt⟩
        · by_cases e : h = k
          · subst e; simp only [set_self] at hp; cases hp
          · simp only [set_ne _ _ e] at hp; exact o1.done h hp hn
        · by_cases e : h = k
          · subst e; simp only [set_self] at hp; cases hp
          · simp only [set_ne _ _ e] at hp; exact o1.conn h u hp
        · by_cases e : h = k
          · subst e; exact o1.past h (by show s.phase h ≠ _; rw [hph]; exact fun e => nomatch e)
          · simp only [set_ne _ _ e] at hp; exact o1.past h hp
    · cases hs

end Verif.Signal
