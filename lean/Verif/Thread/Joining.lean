/-
Model of `JoiningCancellationToken` (stingraykit/thread/JoiningCancellationToken.cpp) registering with two `CancellationToken`s for a wait on a condition variable
(`PosixConditionVariable::Wait`), and property C60. Each token is reduced to whether it is cancelled and whether the handler is registered with it: `Cancel` of a token with the
handler registered owes the waiter a wakeup, delivered when the waiter has released its mutex. Unregistering is not modelled.
-/
namespace Verif.Thread.Joining

/-- One of the two tokens: `CancellationToken` (CancellationToken.h:27-34) and what its `Cancel` still owes. -/
structure Tok where
  cancelled : Bool
  handler : Bool
  owes : Bool
  deriving DecidableEq, Repr

/-- Where a thread is in JoiningCancellationToken.cpp 20-53. -/
inductive Pc where
  | start            -- before `TryRegisterCancellationHandler` of the joining token
  | first            -- registered with the first token, not yet with the second
  | blocked          -- in `pthread_cond_wait`
  | woken            -- woken up
  | refused          -- `Wait` returned `Cancelled` without waiting
  deriving DecidableEq, Repr

/-- The variables and the threads of JoiningCancellationToken.cpp 20-53. -/
structure State where
  t1 : Tok
  t2 : Tok
  pc : Pc
  deriving DecidableEq, Repr

/-- The state after construction, JoiningCancellationToken.cpp 20-53. -/
def init : State := ⟨⟨false, false, false⟩, ⟨false, false, false⟩, .start⟩

/-- `CancellationToken::TryRegisterCancellationHandler`: CancellationToken.cpp:83-92. -/
def Tok.register (t : Tok) : Tok := if t.cancelled then t else { t with handler := true }

/-- `CancellationToken::Cancel`: CancellationToken.cpp:50-63. -/
def Tok.cancel (t : Tok) : Tok := if t.cancelled then t else { t with cancelled := true, owes := t.handler }

/-- The steps a schedule of JoiningCancellationToken.cpp 20-53 is made of. -/
inductive Act where
  | cancel1 | cancel2 | register1 | register2 | deliver1 | deliver2
  deriving DecidableEq, Repr

/-- The steps. `register2` also makes the decision: JoiningCancellationToken.cpp:51-53 and PosixConditionVariable.cpp:105-110. -/
def step (s : State) : Act → Option State
  | .cancel1 => some { s with t1 := s.t1.cancel }
  | .cancel2 => some { s with t2 := s.t2.cancel }
  | .register1 => if s.pc = .start then some { s with t1 := s.t1.register, pc := .first } else none
  | .register2 => if s.pc = .first then some { s with t2 := s.t2.register, pc := if s.t1.handler || s.t2.register.handler then .blocked else .refused } else none
  | .deliver1 => if s.t1.owes = true ∧ s.pc = .blocked then some { s with t1 := { s.t1 with owes := false }, pc := .woken } else none
  | .deliver2 => if s.t2.owes = true ∧ s.pc = .blocked then some { s with t2 := { s.t2 with owes := false }, pc := .woken } else none

/-- One step after another, for histories of JoiningCancellationToken.cpp 20-53. -/
def run (s : State) : List Act → Option State
  | [] => some s
  | a :: as => match step s a with
    | none => none
    | some s' => run s' as

/-- `IsCancelled`: JoiningCancellationToken.h:40-41. -/
def isCancelled (s : State) : Bool := s.t1.cancelled || s.t2.cancelled

/-- Invariant used in the proofs about JoiningCancellationToken.cpp 20-53. -/
structure Inv (s : State) : Prop where
  h1 : s.pc = .start → s.t1.handler = false ∧ s.t1.owes = false
  h2 : s.pc = .start ∨ s.pc = .first → s.t2.handler = false ∧ s.t2.owes = false
  o1 : s.pc = .blocked ∨ s.pc = .first → s.t1.handler = true → s.t1.cancelled = true → s.t1.owes = true
  o2 : s.pc = .blocked → s.t2.handler = true → s.t2.cancelled = true → s.t2.owes = true
  r1 : s.pc = .refused → isCancelled s = true
  c1 : s.pc = .first → s.t1.handler = false → s.t1.cancelled = true
  w : s.pc = .woken → isCancelled s = true
  w1 : s.t1.owes = true → s.t1.cancelled = true
  w2 : s.t2.owes = true → s.t2.cancelled = true

theorem init_inv : Inv init := by constructor <;> simp [init]

theorem step_inv {s s' : State} {a : Act} (h : Inv s) (hs : step s a = some s') : Inv s' := by
  obtain ⟨⟨c1, hd1, ow1⟩, ⟨c2, hd2, ow2⟩, pc⟩ := s
  obtain ⟨a1, a2, a3, a4, a5, a6, a7, a8, a9⟩ := h
  simp only [isCancelled] at *
  cases a <;> simp only [step, Tok.cancel, Tok.register] at hs
  · injection hs with hs; subst hs
    cases c1
    · exact ⟨fun e => ⟨(a1 e).1, (a1 e).1⟩, a2, fun _ h _ => h, a4, fun _ => rfl, fun _ _ => rfl, fun _ => rfl, fun _ => rfl, a9⟩
    · exact ⟨a1, a2, a3, a4, a5, a6, a7, a8, a9⟩
  · injection hs with hs; subst hs
    have ht : ∀ c : Bool, (c || true) = true := by decide
    cases c2
    · exact ⟨a1, fun e => ⟨(a2 e).1, (a2 e).1⟩, a3, fun _ h _ => h, fun _ => ht _, a6, fun _ => ht _, a8, fun _ => rfl⟩
    · exact ⟨a1, a2, a3, a4, a5, a6, a7, a8, a9⟩
  · cases pc <;> simp at hs
    subst hs
    cases c1 <;> constructor <;> simp_all [isCancelled]
  · cases pc <;> simp at hs
    subst hs
    cases c2 <;> cases hd1 <;> constructor <;> simp_all [isCancelled]
  · cases pc <;> simp at hs
    obtain ⟨ho, rfl⟩ := hs
    constructor <;> simp_all [isCancelled]
  · cases pc <;> simp at hs
    obtain ⟨ho, rfl⟩ := hs
    constructor <;> simp_all [isCancelled]

theorem run_inv : ∀ {as : List Act} {s s' : State}, Inv s → run s as = some s' → Inv s'
  | [], s, s', hi, h => by injection h with h; exact h ▸ hi
  | a :: as, s, s', hi, h => by
    rw [run] at h
    cases hs : step s a with
    | none => rw [hs] at h; cases h
    | some t => rw [hs] at h; exact run_inv (step_inv hi hs) h

/-- C60 as far as it is true: a thread is only refused or woken when the joined token is cancelled; and a thread blocked with its handler registered with both tokens - neither was
cancelled when it registered - is owed a wakeup as soon as either of them is cancelled. Not true: when one of the tokens was cancelled before the registration, see
`joining_violated`. -/
theorem joining_partial {as : List Act} {s : State} (h : run init as = some s) :
    (s.pc = .refused → isCancelled s = true) ∧ (s.pc = .woken → isCancelled s = true) ∧
    (s.pc = .blocked → s.t1.handler = true → s.t2.handler = true → isCancelled s = true →
      (∃ s', step s .deliver1 = some s' ∧ s'.pc = .woken) ∨ (∃ s', step s .deliver2 = some s' ∧ s'.pc = .woken)) := by
  have hi := run_inv init_inv h
  refine ⟨hi.r1, hi.w, fun hb h1 h2 hc => ?_⟩
  unfold isCancelled at hc
  rw [Bool.or_eq_true] at hc
  rcases hc with hc | hc
  · have := hi.o1 (Or.inl hb) h1 hc
    exact Or.inl ⟨_, by simp only [step]; rw [if_pos ⟨this, hb⟩], rfl⟩
  · have := hi.o2 hb h2 hc
    exact Or.inr ⟨_, by simp only [step]; rw [if_pos ⟨this, hb⟩], rfl⟩

/-- C60, the other true part: when both tokens are cancelled before the wait, the wait returns `Cancelled` at once. -/
theorem joining_both_partial {as : List Act} {s : State} (h : run init as = some s) (hp : s.pc = .start) (h1 : s.t1.cancelled = true) (h2 : s.t2.cancelled = true) :
    ∃ s', run s [.register1, .register2] = some s' ∧ s'.pc = .refused := by
  have hi := run_inv init_inv h
  obtain ⟨⟨c1, hd1, ow1⟩, ⟨c2, hd2, ow2⟩, pc⟩ := s
  simp only [] at hp h1 h2
  subst hp; subst h1; subst h2
  have e1 := (hi.h1 rfl).1
  have e2 := (hi.h2 (Or.inl rfl)).1
  simp only [] at e1 e2
  subst e1; subst e2
  exact ⟨_, rfl, rfl⟩

theorem stuck : ∀ (as : List Act) (s s' : State), s.pc = .blocked → s.t1 = ⟨true, false, false⟩ → s.t2 = ⟨false, true, false⟩ → .cancel2 ∉ as → run s as = some s' → s'.pc = .blocked
  | [], s, s', h1, _, _, _, h => by injection h with h; exact h ▸ h1
  | a :: as, s, s', h1, h2, h3, hn, h => by
    rw [run] at h
    cases hs : step s a with
    | none => rw [hs] at h; cases h
    | some t =>
      rw [hs] at h
      rw [List.mem_cons, not_or] at hn
      have ht : t = s := by
        obtain ⟨t1, t2, pc⟩ := s
        simp only [] at h1 h2 h3
        subst h1; subst h2; subst h3
        cases a <;> simp [step, Tok.cancel] at hs
        · exact hs.symm
        · exact absurd rfl hn.1
      subst ht
      exact stuck as t s' h1 h2 h3 hn.2 h

/-- C60 refuted: the first token is cancelled, then a thread waits (or sleeps) with the joined token, which is cancelled, too: it blocks, and stays blocked for as long as the second
token is not cancelled as well. -/
theorem joining_violated : ∃ s, run init [.cancel1] = some s ∧ isCancelled s = true ∧
    ∃ s', run s [.register1, .register2] = some s' ∧ s'.pc = .blocked ∧ ∀ as s'', .cancel2 ∉ as → run s' as = some s'' → s''.pc = .blocked :=
  ⟨_, rfl, rfl, _, rfl, rfl, fun as s'' hn h => stuck as _ s'' rfl rfl rfl hn h⟩

/-! Non-vacuity. -/
example : ∃ s, run init [.register1, .cancel1, .register2] = some s ∧ s.pc = .blocked ∧ s.t1.handler = true ∧ s.t2.handler = true ∧ isCancelled s = true := ⟨_, rfl, rfl, rfl, rfl, rfl⟩
example : ∃ s, run init [.cancel2, .cancel1, .register1, .register2] = some s ∧ s.pc = .refused := ⟨_, rfl, rfl⟩

end Verif.Thread.Joining
