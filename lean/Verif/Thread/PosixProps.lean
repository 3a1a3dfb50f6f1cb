import Verif.Thread.Posix

/-
C148.  Threads: constructor, destructor, backtraces, CPU time of children.
-/
namespace Verif.Thread.Posix

theorem put_all {s : State} {i : Nat} {t : Thr} {P : Thr → Prop} (h : ∀ k, P (s.thr k)) (ht : P t) : ∀ k, P ((s.put i t).thr k) := by
  intro k
  show P (if k = i then t else s.thr k)
  split
  · exact ht
  · exact h k

/-- What holds of a thread by itself. -/
structure Ok (t : Thr) : Prop where
  returned : t.returned = true → t.data = true ∧ t.started = true
  joined : t.joined = true → t.phase = .gone ∧ t.cancelled = true ∧ t.released = true
  released : t.released = true → t.senders = 0 ∧ t.destroying ≠ none
  destroying : t.destroying ≠ none → t.cancelled = true ∧ t.returned = true
  failed : t.phase = .failed → t.data = false
  unknown : t.phase = .made → t.data = false
  running : t.phase = .running ∨ t.phase = .left ∨ t.phase = .gone → t.data = true
  known : t.phase = .known → t.data = true

theorem store_put (s : State) (parent : Option Nat) (time : Nat) : store s parent time = s ∨ ∃ p, parent = some p ∧ store s parent time = s.put p { s.thr p with children := (s.thr p).children + time } := by
  cases parent with
  | none => exact .inl rfl
  | some p => exact .inr ⟨p, rfl, rfl⟩

theorem step_ok {s s' : State} {a : Act} (h : step s a = some s') (hi : ∀ k, Ok (s.thr k)) (hs : ∀ x ∈ s.signals, x.2 = false) :
    (∀ k, Ok (s'.thr k)) ∧ (∀ x ∈ s'.signals, x.2 = false) := by
  unfold step at h
  split at h
  · simp at h
  · cases a with
    | begin p known =>
      simp only [] at h
      split at h
      · simp only [Option.some.injEq] at h; subst h
        refine ⟨?_, hs⟩
        apply put_all
        · apply put_all hi
          have := hi p
          constructor <;> first | exact this.returned | exact this.joined | exact this.released | exact this.destroying | exact this.failed | exact this.unknown | exact this.running | exact this.known
        · constructor <;> simp [Thr.new]
      · simp at h
    | fail c =>
      simp only [] at h
      split at h
      · rename_i hc
        simp only [Option.some.injEq] at h; subst h
        refine ⟨?_, hs⟩
        apply put_all hi
        have := hi c
        refine ⟨fun h => ⟨(this.returned h).1, rfl⟩, fun h => ?_, this.released, this.destroying, fun _ => this.unknown hc.2, by simp, by simp, by simp⟩
        have := (this.joined h).1
        rw [hc.2] at this; simp at this
      · simp at h
    | setData c =>
      simp only [] at h
      split at h
      · rename_i hc
        simp only [Option.some.injEq] at h; subst h
        refine ⟨?_, hs⟩
        apply put_all hi
        have := hi c
        refine ⟨fun h => ⟨rfl, (this.returned h).2⟩, fun h => ?_, this.released, this.destroying, by simp, by simp, by simp, fun _ => rfl⟩
        have := (this.joined h).1
        rw [hc.2] at this; simp at this
      · simp at h
    | start c =>
      simp only [] at h
      split at h
      · rename_i hc
        simp only [Option.some.injEq] at h; subst h
        refine ⟨?_, hs⟩
        apply put_all hi
        have := hi c
        refine ⟨fun h => ⟨(this.returned h).1, rfl⟩, fun h => ?_, this.released, this.destroying, by simp, by simp, fun _ => this.known hc.2, by simp⟩
        have := (this.joined h).1
        rw [hc.2] at this; simp at this
      · simp at h
    | construct p c =>
      simp only [] at h
      split at h
      · rename_i hc
        split at h
        · rename_i hd
          simp only [Option.some.injEq] at h; subst h
          refine ⟨?_, hs⟩
          have hpp := hi p
          have hcc := hi c
          apply put_all
          · apply put_all hi
            exact ⟨fun _ => ⟨hd, hc.2.2.2.2.2⟩, hcc.joined, hcc.released, fun h => ⟨(hcc.destroying h).1, rfl⟩, hcc.failed, hcc.unknown, hcc.running, hcc.known⟩
          · exact ⟨hpp.returned, hpp.joined, hpp.released, hpp.destroying, hpp.failed, hpp.unknown, hpp.running, hpp.known⟩
        · simp only [Option.some.injEq] at h; subst h
          exact ⟨hi, hs⟩
      · simp at h
    | exit c cpu =>
      simp only [] at h
      split at h
      · rename_i hc
        simp only [Option.some.injEq] at h
        have hr : (s.thr c).phase = .running := by
          have := hc.2.2
          simp only [free, Bool.and_eq_true, decide_eq_true_eq] at this
          exact this.1
        have hcc := hi c
        have h1 : ∀ k, Ok ((s.put c { s.thr c with phase := .left, cpu := cpu }).thr k) := by
          apply put_all hi
          refine ⟨hcc.returned, fun h => ?_, hcc.released, hcc.destroying, by simp, by simp, fun _ => hcc.running (.inl hr), by simp⟩
          have := (hcc.joined h).1
          rw [hr] at this; simp at this
        rcases store_put (s.put c { s.thr c with phase := .left, cpu := cpu }) (s.thr c).parent (cpu + (s.thr c).children) with e | ⟨p, -, e⟩
        · rw [e] at h; subst h; exact ⟨h1, hs⟩
        · rw [e] at h; subst h
          refine ⟨?_, hs⟩
          have hpp := h1 p
          apply put_all h1
          exact ⟨hpp.returned, hpp.joined, hpp.released, hpp.destroying, hpp.failed, hpp.unknown, hpp.running, hpp.known⟩
      · simp at h
    | finish c =>
      simp only [] at h
      split at h
      · rename_i hc
        simp only [Option.some.injEq] at h; subst h
        refine ⟨?_, hs⟩
        apply put_all hi
        have := hi c
        exact ⟨this.returned, fun h => ⟨rfl, (this.joined h).2⟩, this.released, this.destroying, by simp, by simp, fun _ => this.running (.inr (.inl hc.2)), by simp⟩
      · simp at h
    | destroy p c =>
      simp only [] at h
      split at h
      · rename_i hc
        simp only [Option.some.injEq] at h; subst h
        refine ⟨?_, hs⟩
        have hpp := hi p
        have h1 : ∀ k, Ok ((s.put p { s.thr p with busy := some c }).thr k) := by
          apply put_all hi
          exact ⟨hpp.returned, hpp.joined, hpp.released, hpp.destroying, hpp.failed, hpp.unknown, hpp.running, hpp.known⟩
        have hcc := h1 c
        apply put_all h1
        refine ⟨hcc.returned, fun h => ⟨(hcc.joined h).1, rfl, (hcc.joined h).2.2⟩, fun h => ⟨(hcc.released h).1, by simp⟩, fun _ => ⟨rfl, ?_⟩, hcc.failed, hcc.unknown, hcc.running, hcc.known⟩
        show (if c = p then _ else s.thr c).returned = true
        split
        · rename_i e; rw [← e]; exact hc.2.2.2.2.1
        · exact hc.2.2.2.2.1
      · simp at h
    | release p c =>
      simp only [] at h
      split at h
      · rename_i hc
        simp only [Option.some.injEq] at h; subst h
        refine ⟨?_, hs⟩
        apply put_all hi
        have := hi c
        exact ⟨this.returned, fun h => ⟨(this.joined h).1, (this.joined h).2.1, rfl⟩, fun _ => ⟨hc.2.2.2, by simp [hc.2.1]⟩, this.destroying, this.failed, this.unknown, this.running, this.known⟩
      · simp at h
    | join p c =>
      simp only [] at h
      split at h
      · rename_i hc
        split at h
        · simp only [Option.some.injEq] at h; subst h; exact ⟨hi, hs⟩
        · split at h
          · rename_i hg
            simp only [Option.some.injEq] at h; subst h
            refine ⟨?_, hs⟩
            have hpp := hi p
            have hcc := hi c
            apply put_all
            · apply put_all hi
              exact ⟨hcc.returned, fun _ => ⟨hg, (hcc.destroying (by simp [hc.2.1])).1, hc.2.2.1⟩, hcc.released, hcc.destroying, hcc.failed, hcc.unknown, hcc.running, hcc.known⟩
            · exact ⟨hpp.returned, hpp.joined, hpp.released, hpp.destroying, hpp.failed, hpp.unknown, hpp.running, hpp.known⟩
          · simp at h
      · simp at h
    | guard c =>
      simp only [] at h
      split at h
      · rename_i hc
        simp only [Option.some.injEq] at h; subst h
        refine ⟨?_, hs⟩
        apply put_all hi
        have := hi c
        refine ⟨this.returned, this.joined, fun h => ?_, this.destroying, this.failed, this.unknown, this.running, this.known⟩
        have e := hc.2.2.2
        simp only [] at h
        rw [e] at h; simp at h
      · simp at h
    | send c =>
      simp only [] at h
      split at h
      · rename_i hc
        simp only [Option.some.injEq] at h; subst h
        refine ⟨hi, ?_⟩
        intro x hx
        rcases List.mem_append.mp hx with hx | hx
        · exact hs x hx
        · simp only [List.mem_singleton] at hx
          subst hx
          cases hj : (s.thr c).joined with
          | false => rfl
          | true =>
            have := ((hi c).released ((hi c).joined hj).2.2).1
            omega
      · simp at h
    | unguard c =>
      simp only [] at h
      split at h
      · rename_i hc
        simp only [Option.some.injEq] at h; subst h
        refine ⟨?_, hs⟩
        apply put_all hi
        have := hi c
        refine ⟨this.returned, this.joined, fun h => ⟨?_, (this.released h).2⟩, this.destroying, this.failed, this.unknown, this.running, this.known⟩
        have := (this.released h).1
        show (s.thr c).senders - 1 = 0
        omega
      · simp at h

theorem run_ok : ∀ {as : List Act} {s s' : State}, run s as = some s' → (∀ k, Ok (s.thr k)) → (∀ x ∈ s.signals, x.2 = false) →
    (∀ k, Ok (s'.thr k)) ∧ (∀ x ∈ s'.signals, x.2 = false)
  | [], s, s', h, hi, hs => by simp only [run, Option.some.injEq] at h; subst h; exact ⟨hi, hs⟩
  | a :: as, s, s', h, hi, hs => by
    simp only [run] at h
    split at h
    · simp at h
    · rename_i s1 h1
      have := step_ok h1 hi hs
      exact run_ok h this.1 this.2

theorem init_ok (k : Nat) : Ok (State.init.thr k) := by
  constructor <;> simp [State.init, Thr.main]

/-! ### The theorems -/

/-- Whether the thread is past its set-up. -/
def Begun (t : Thr) : Prop := t.started = true → t.phase ≠ .made ∧ t.phase ≠ .known

theorem step_begun {s s' : State} {a : Act} (h : step s a = some s') (hi : ∀ k, Begun (s.thr k)) : ∀ k, Begun (s'.thr k) := by
  intro k
  have hk := hi k
  simp only [Begun] at hi hk ⊢
  cases a <;> simp only [step, store, State.put, Thr.new] at h <;> grind

theorem run_begun : ∀ {as : List Act} {s s' : State}, run s as = some s' → (∀ k, Begun (s.thr k)) → ∀ k, Begun (s'.thr k)
  | [], s, s', h, hi => by simp only [run, Option.some.injEq] at h; subst h; exact hi
  | a :: as, s, s', h, hi => by
    simp only [run] at h
    split at h
    · simp at h
    · next h1 => exact run_begun h (step_begun h1 hi)

/-- A constructor that returned has seen its thread run: the handle and the thread's data are there, and the thread has come to the user's function. -/
theorem constructed {as : List Act} {s : State} (h : run .init as = some s) (c : Nat) (hr : (s.thr c).returned = true) :
    (s.thr c).data = true ∧ (s.thr c).started = true ∧ ((s.thr c).phase = .running ∨ (s.thr c).phase = .left ∨ (s.thr c).phase = .gone) := by
  have hk := (run_ok h init_ok (by simp [State.init])).1 c
  have hb := run_begun h (fun k => by simp [Begun, State.init, Thr.main]) c
  have h1 := hk.returned hr
  have h2 := hb h1.2
  refine ⟨h1.1, h1.2, ?_⟩
  cases hp : (s.thr c).phase with
  | made => exact absurd hp h2.1
  | known => exact absurd hp h2.2
  | failed => have := hk.failed hp; rw [h1.1] at this; cases this
  | running => simp
  | left => simp
  | gone => simp

/-- When the destructor has got past the join, the thread has ended, and it had been asked to end before. -/
theorem destroyed {as : List Act} {s : State} (h : run .init as = some s) (c : Nat) (hr : (s.thr c).joined = true) :
    (s.thr c).phase = .gone ∧ (s.thr c).cancelled = true ∧ (s.thr c).released = true :=
  ((run_ok h init_ok (by simp [State.init])).1 c).joined hr

/-- Threads that run the user's function, or have run it, were made known to their owner first. -/
theorem running_known {as : List Act} {s : State} (h : run .init as = some s) (c : Nat)
    (hr : (s.thr c).phase = .running ∨ (s.thr c).phase = .left ∨ (s.thr c).phase = .gone) : (s.thr c).data = true :=
  ((run_ok h init_ok (by simp [State.init])).1 c).running hr

/-- No signal of a backtrace is ever sent to a handle that has been joined. -/
theorem no_signal_after_join {as : List Act} {s : State} (h : run .init as = some s) : ∀ x ∈ s.signals, x.2 = false :=
  (run_ok h init_ok (by simp [State.init])).2

/-- A thread that could not set itself up never leads to a constructed object: the constructor stops the program. -/
theorem failed_start {as : List Act} {s : State} (h : run .init as = some s) (c p : Nat) (hf : (s.thr c).phase = .failed) :
    (s.thr c).returned = false ∧ ∀ s', step s (.construct p c) = some s' → s'.fatal = true := by
  have hk := (run_ok h init_ok (by simp [State.init])).1 c
  have hd := hk.failed hf
  refine ⟨?_, ?_⟩
  · cases hr : (s.thr c).returned with
    | false => rfl
    | true => have := (hk.returned hr).1; rw [hd] at this; simp at this
  · intro s' h'
    unfold step at h'
    split at h'
    · simp at h'
    · simp only [] at h'
      split at h'
      · simp only [hd, Bool.false_eq_true, if_false, Option.some.injEq] at h'
        subst h'; rfl
      · simp at h'

/-- Where all goes well: a thread is begun, signalled, asked to end, joined. -/
def session : List Act :=
  [.begin 0 true, .setData 1, .guard 1, .start 1, .construct 0 1, .send 1, .destroy 0 1, .exit 1 7, .unguard 1, .finish 1, .release 0 1, .join 0 1]

example : (run .init session).map (fun s => ((s.thr 1).joined, (s.thr 0).children, s.signals, s.fatal)) = some (true, 7, [(1, false)], false) := by decide
/-- The guard held by the sender keeps the destructor waiting; so does the thread itself. -/
example : run .init (session.take 8 ++ [.release 0 1]) = none ∧ run .init (session.take 7 ++ [.unguard 1, .release 0 1, .join 0 1]) = none :=
  ⟨rfl, rfl⟩
example : (run .init [.begin 0 true, .fail 1, .construct 0 1]).map (·.fatal) = some true := by decide

/-- A thread that destroys the object of itself does not wait for itself for ever: it stops the program. -/
theorem self_destruction_violated :
    ∃ as s, run .init as = some s ∧ s.fatal = true ∧ (∀ c, c < s.n → (s.thr c).phase ≠ .failed) ∧
      ∃ c, (s.thr c).destroying = some c ∧ (s.thr c).joined = false ∧ (s.thr c).phase = .running :=
  ⟨[.begin 0 true, .setData 1, .start 1, .construct 0 1, .destroy 1 1, .release 1 1, .join 1 1], _, rfl, rfl,
   by intro c hc
      have : c = 0 ∨ c = 1 := by simp [State.put, State.init] at hc; omega
      rcases this with e | e <;> subst e <;> decide,
   1, by decide⟩

/-! ### CPU time -/

/-- The thread's function is over. -/
def exited (t : Thr) : Bool := t.phase = .left || t.phase = .gone

/-- Sum over the threads. -/
def total (f : Nat → Nat) : Nat → Nat
  | 0 => 0
  | n + 1 => total f n + f n

theorem total_congr {f g : Nat → Nat} : ∀ {n : Nat}, (∀ k, k < n → f k = g k) → total f n = total g n
  | 0, _ => rfl
  | n + 1, h => by rw [total, total, total_congr fun k hk => h k (by omega), h n (by omega)]

theorem total_set {f g : Nat → Nat} {i : Nat} : ∀ {n : Nat}, i < n → (∀ k, k ≠ i → g k = f k) → total g n + f i = total f n + g i
  | 0, h, _ => by omega
  | n + 1, h, hg => by
    rw [total, total]
    by_cases e : i = n
    · subst e
      rw [total_congr (g := f) fun k hk => hg k (by omega)]
      omega
    · have := total_set (n := n) (by omega) hg
      have := hg n (by omega)
      omega

/-- The time an ended thread used; 0 for others. -/
def spent (t : Thr) : Nat := if exited t then t.cpu else 0
/-- What can still be asked for: what a living thread knows of its children; and what an ended thread without a parent reported when it ended. -/
def held (t : Thr) : Nat := if exited t then (if t.parent = none then t.cpu + t.children else 0) else t.children

/-- Every thread ends before the thread that began it. -/
def Orderly : State → List Act → Prop
  | _, [] => True
  | s, a :: as => (∀ c cpu p, a = .exit c cpu → (s.thr c).parent = some p → exited (s.thr p) = false) ∧ ∀ s', step s a = some s' → Orderly s' as

/-- The books. -/
structure Books (s : State) : Prop where
  parents : ∀ c p, c < s.n → (s.thr c).parent = some p → p < c
  balance : total (fun i => spent (s.thr i)) s.n = total (fun i => held (s.thr i)) s.n

/-- Steps that move no time. -/
theorem quiet_put {s : State} {i : Nat} {t : Thr} (hb : Books s) (h1 : t.parent = (s.thr i).parent) (h2 : exited t = exited (s.thr i))
    (h3 : t.cpu = (s.thr i).cpu) (h4 : t.children = (s.thr i).children) : Books (s.put i t) := by
  have hput : ∀ k, (s.put i t).thr k = if k = i then t else s.thr k := fun _ => rfl
  refine ⟨?_, ?_⟩
  · intro c p hc hp
    rw [hput] at hp
    split at hp
    · rename_i e; rw [e]; rw [e] at hc; exact hb.parents i p hc (h1 ▸ hp)
    · exact hb.parents c p hc hp
  · have e1 : ∀ k, spent ((s.put i t).thr k) = spent (s.thr k) := by
      intro k; rw [hput]; split
      · rename_i e; rw [e]; simp only [spent, h2, h3]
      · rfl
    have e2 : ∀ k, held ((s.put i t).thr k) = held (s.thr k) := by
      intro k; rw [hput]; split
      · rename_i e; rw [e]; simp only [held, h1, h2, h3, h4]
      · rfl
    simp only [e1, e2]
    exact hb.balance

theorem begin_books {s : State} {q : Option Nat} (hb : Books s) (hq : ∀ p, q = some p → p < s.n) :
    Books { s.put s.n (Thr.new q) with n := s.n + 1 } := by
  have hput : ∀ k, (if k = s.n then Thr.new q else s.thr k) = if k = s.n then Thr.new q else s.thr k := fun _ => rfl
  refine ⟨?_, ?_⟩
  · intro c p hc hp
    change c < s.n + 1 at hc
    change (if c = s.n then Thr.new q else s.thr c).parent = some p at hp
    split at hp
    · rename_i e; rw [e]; exact hq p hp
    · exact hb.parents c p (by omega) hp
  · show total (fun i => spent (if i = s.n then Thr.new q else s.thr i)) (s.n + 1) = total (fun i => held (if i = s.n then Thr.new q else s.thr i)) (s.n + 1)
    rw [total, total]
    rw [total_congr (g := fun i => spent (s.thr i)) (by intro k hk; simp only [if_neg (show ¬k = s.n by omega)])]
    rw [total_congr (g := fun i => held (s.thr i)) (f := fun i => held (if i = s.n then Thr.new q else s.thr i)) (by intro k hk; simp only [if_neg (show ¬k = s.n by omega)])]
    rw [hb.balance]
    simp only [if_pos]
    rfl

theorem exit_books {s : State} {c cpu : Nat} (hb : Books s) (hc : c < s.n) (hr : exited (s.thr c) = false)
    (ho : ∀ p, (s.thr c).parent = some p → exited (s.thr p) = false) :
    Books (store (s.put c { s.thr c with phase := .left, cpu := cpu }) (s.thr c).parent (cpu + (s.thr c).children)) := by
  have hput : ∀ k, (s.put c { s.thr c with phase := .left, cpu := cpu }).thr k = if k = c then { s.thr c with phase := .left, cpu := cpu } else s.thr k := fun _ => rfl
  -- after the first change
  have a1 := total_set (f := fun i => spent (s.thr i)) (g := fun i => spent ((s.put c { s.thr c with phase := .left, cpu := cpu }).thr i)) hc
    (by intro k hk; simp only [hput, if_neg hk])
  have a2 := total_set (f := fun i => held (s.thr i)) (g := fun i => held ((s.put c { s.thr c with phase := .left, cpu := cpu }).thr i)) hc
    (by intro k hk; simp only [hput, if_neg hk])
  have b1 : spent (s.thr c) = 0 := by simp [spent, hr]
  have b2 : held (s.thr c) = (s.thr c).children := by simp [held, hr]
  have b3 : spent ((s.put c { s.thr c with phase := .left, cpu := cpu }).thr c) = cpu := by simp [hput, spent, exited]
  have hbal := hb.balance
  simp only [b1, b2, b3] at a1 a2
  have hpar : ∀ k p, k < s.n → ((s.put c { s.thr c with phase := .left, cpu := cpu }).thr k).parent = some p → p < k := by
    intro k p hk hp
    rw [hput] at hp
    split at hp
    · rename_i e; rw [e]; exact hb.parents c p hc hp
    · exact hb.parents k p hk hp
  have b4 : (s.thr c).parent = none → held ((s.put c { s.thr c with phase := .left, cpu := cpu }).thr c) = cpu + (s.thr c).children := by
    intro hq
    rw [hput, if_pos rfl]
    simp [held, exited, hq]
  have b5 : ∀ p, (s.thr c).parent = some p → held ((s.put c { s.thr c with phase := .left, cpu := cpu }).thr c) = 0 := by
    intro p hq
    rw [hput, if_pos rfl]
    simp [held, exited, hq]
  have hn : (s.put c { s.thr c with phase := .left, cpu := cpu }).n = s.n := rfl
  have hother : ∀ p, p ≠ c → (s.put c { s.thr c with phase := .left, cpu := cpu }).thr p = s.thr p := by
    intro p hp; rw [hput]; exact if_neg hp
  clear hput
  generalize s.put c { s.thr c with phase := .left, cpu := cpu } = s1 at *
  cases hq : (s.thr c).parent with
  | none =>
    refine ⟨by rw [← hn] at hpar; exact hpar, ?_⟩
    rw [b4 hq] at a2
    show total (fun i => spent (s1.thr i)) s1.n = total (fun i => held (s1.thr i)) s1.n
    rw [hn]
    omega
  | some p =>
    have hpc := hb.parents c p hc hq
    have hal := ho p hq
    rw [b5 p hq] at a2
    have hp1 : s1.thr p = s.thr p := hother p (by omega)
    generalize ht : cpu + (s.thr c).children = time
    have hput2 : ∀ k, (store s1 (some p) time).thr k = if k = p then { s1.thr p with children := (s1.thr p).children + time } else s1.thr k := fun _ => rfl
    have c1 : ∀ k, spent ((store s1 (some p) time).thr k) = spent (s1.thr k) := by
      intro k; rw [hput2]; split
      · rename_i e; rw [e]; rfl
      · rfl
    have c2 := total_set (f := fun i => held (s1.thr i)) (g := fun i => held ((store s1 (some p) time).thr i)) (show p < s.n by omega)
      (by intro k hk; simp only [hput2, if_neg hk])
    have d1 : held (s1.thr p) = (s.thr p).children := by rw [hp1]; simp [held, hal]
    have d2 : held ((store s1 (some p) time).thr p) = (s.thr p).children + time := by
      rw [hput2, if_pos rfl, hp1]
      have : exited { s.thr p with children := (s.thr p).children + time } = false := hal
      simp [held, this]
    simp only [d1, d2] at c2
    refine ⟨?_, ?_⟩
    · intro k q hk hkq
      change k < s1.n at hk
      rw [hput2] at hkq
      split at hkq
      · rename_i e; subst e; exact hpar k q (by omega) hkq
      · exact hpar k q (by omega) hkq
    · show total (fun i => spent ((store s1 (some p) time).thr i)) s1.n = total (fun i => held ((store s1 (some p) time).thr i)) s1.n
      simp only [c1]
      rw [hn]
      omega

theorem step_books {s s' : State} {a : Act} (h : step s a = some s') (hb : Books s)
    (ho : ∀ c cpu p, a = .exit c cpu → (s.thr c).parent = some p → exited (s.thr p) = false) : Books s' := by
  unfold step at h
  split at h
  · simp at h
  · cases a with
    | begin p known =>
      simp only [] at h
      split at h
      · rename_i hc
        simp only [Option.some.injEq] at h; subst h
        have h1 : Books (s.put p { s.thr p with busy := some s.n }) := quiet_put hb rfl rfl rfl rfl
        apply begin_books h1
        intro q hq
        cases known with
        | true => simp at hq; subst hq; exact hc.1
        | false => simp at hq
      · simp at h
    | fail c =>
      simp only [] at h
      split at h
      · rename_i hc
        simp only [Option.some.injEq] at h; subst h
        exact quiet_put hb rfl (by simp [exited, hc.2]) rfl rfl
      · simp at h
    | setData c =>
      simp only [] at h
      split at h
      · rename_i hc
        simp only [Option.some.injEq] at h; subst h
        exact quiet_put hb rfl (by simp [exited, hc.2]) rfl rfl
      · simp at h
    | start c =>
      simp only [] at h
      split at h
      · rename_i hc
        simp only [Option.some.injEq] at h; subst h
        exact quiet_put hb rfl (by simp [exited, hc.2]) rfl rfl
      · simp at h
    | construct p c =>
      simp only [] at h
      split at h
      · rename_i hc
        split at h
        · simp only [Option.some.injEq] at h; subst h
          have e : (s.put c { s.thr c with returned := true }).thr p = s.thr p := if_neg hc.2.2.1
          have h1 : Books (s.put c { s.thr c with returned := true }) := quiet_put hb rfl rfl rfl rfl
          exact quiet_put h1 (by rw [e]) (by rw [e]; rfl) (by rw [e]) (by rw [e])
        · simp only [Option.some.injEq] at h; subst h
          exact ⟨hb.parents, hb.balance⟩
      · simp at h
    | exit c cpu =>
      simp only [] at h
      split at h
      · rename_i hc
        simp only [Option.some.injEq] at h; subst h
        have hr : (s.thr c).phase = .running := by
          have := hc.2.2
          simp only [free, Bool.and_eq_true, decide_eq_true_eq] at this
          exact this.1
        exact exit_books hb hc.1 (by simp [exited, hr]) (fun p hp => ho c cpu p rfl hp)
      · simp at h
    | finish c =>
      simp only [] at h
      split at h
      · rename_i hc
        simp only [Option.some.injEq] at h; subst h
        exact quiet_put hb rfl (by simp [exited, hc.2]) rfl rfl
      · simp at h
    | destroy p c =>
      simp only [] at h
      split at h
      · simp only [Option.some.injEq] at h; subst h
        have h1 : Books (s.put p { s.thr p with busy := some c }) := quiet_put hb rfl rfl rfl rfl
        exact quiet_put h1 rfl rfl rfl rfl
      · simp at h
    | release p c =>
      simp only [] at h
      split at h
      · simp only [Option.some.injEq] at h; subst h
        exact quiet_put hb rfl rfl rfl rfl
      · simp at h
    | join p c =>
      simp only [] at h
      split at h
      · split at h
        · simp only [Option.some.injEq] at h; subst h; exact ⟨hb.parents, hb.balance⟩
        · rename_i hpc
          split at h
          · simp only [Option.some.injEq] at h; subst h
            have e : (s.put c { s.thr c with joined := true }).thr p = s.thr p := if_neg hpc
            have h1 : Books (s.put c { s.thr c with joined := true }) := quiet_put hb rfl rfl rfl rfl
            exact quiet_put h1 (by rw [e]) (by rw [e]; rfl) (by rw [e]) (by rw [e])
          · simp at h
      · simp at h
    | guard c =>
      simp only [] at h
      split at h
      · simp only [Option.some.injEq] at h; subst h
        exact quiet_put hb rfl rfl rfl rfl
      · simp at h
    | send c =>
      simp only [] at h
      split at h
      · simp only [Option.some.injEq] at h; subst h; exact ⟨hb.parents, hb.balance⟩
      · simp at h
    | unguard c =>
      simp only [] at h
      split at h
      · simp only [Option.some.injEq] at h; subst h
        exact quiet_put hb rfl rfl rfl rfl
      · simp at h

theorem run_books : ∀ {as : List Act} {s s' : State}, run s as = some s' → Books s → Orderly s as → Books s'
  | [], s, s', h, hb, _ => by simp only [run, Option.some.injEq] at h; subst h; exact hb
  | a :: as, s, s', h, hb, ho => by
    simp only [run] at h
    split at h
    · simp at h
    · rename_i s1 h1
      exact run_books h (step_books h1 hb ho.1) (ho.2 s1 h1)

/-- While every thread ends before the thread that began it, no CPU time is lost: what all ended threads used is what the living ones know of
their children together with what the ended threads without a parent reported. -/
theorem cpu_accounted_partial {as : List Act} {s : State} (h : run .init as = some s) (ho : Orderly .init as) :
    total (fun i => if exited (s.thr i) then (s.thr i).cpu else 0) s.n =
      total (fun i => if exited (s.thr i) then (if (s.thr i).parent = none then (s.thr i).cpu + (s.thr i).children else 0) else (s.thr i).children) s.n :=
  (run_books h ⟨by intro c p hc hp; simp [State.init, Thr.main] at hp, by decide⟩ ho).balance

/-- A grandchild's time reaches the first thread. -/
def family : List Act :=
  [.begin 0 true, .setData 1, .start 1, .construct 0 1, .begin 1 true, .setData 2, .start 2, .construct 1 2, .exit 2 5, .exit 1 7]

example : (run .init family).map (fun s => ((s.thr 0).children, s.n)) = some (12, 3) := by decide
example : Orderly .init family := by
  have key : ∀ (as : List Act) (s : State), (∀ s', ∀ n, n ≤ as.length → run s (as.take n) = some s' →
      ∀ c cpu p, as[n]? = some (.exit c cpu) → (s'.thr c).parent = some p → exited (s'.thr p) = false) → Orderly s as := by
    intro as
    induction as with
    | nil => intro s _; trivial
    | cons a as ih =>
      intro s hs
      refine ⟨fun c cpu p ha hp => hs s 0 (by simp) rfl c cpu p (by simp [ha]) hp, fun s1 h1 => ih s1 ?_⟩
      intro s' n hn hr
      exact hs s' (n + 1) (by simpa using hn) (by simp only [List.take_succ_cons, run, h1]; exact hr)
  apply key
  intro s' n hn hr c cpu p hx hp
  change n ≤ 10 at hn
  have : n = 8 ∨ n = 9 := by
    have : ∀ m, m ≤ 10 → (∃ c cpu, family[m]? = some (.exit c cpu)) → m = 8 ∨ m = 9 := by
      intro m hm
      match m, hm with
      | 0, _ | 1, _ | 2, _ | 3, _ | 4, _ | 5, _ | 6, _ | 7, _ | 10, _ => rintro ⟨c, cpu, h⟩; simp [family] at h
      | 8, _ => simp
      | 9, _ => simp
    exact this n hn ⟨c, cpu, hx⟩
  rcases this with e | e
  · subst e
    simp [family] at hx
    obtain ⟨e1, e2⟩ := hx; subst e1
    simp only [family] at hr
    have : s' = (run .init (family.take 8)).get rfl := by
      apply Option.some.inj; rw [← hr]; rfl
    subst this
    have e : p = 1 := by
      have : ((((run .init (family.take 8)).get rfl).thr 2).parent) = some 1 := by decide
      rw [this] at hp; exact (Option.some.inj hp).symm
    subst e; decide
  · subst e
    simp [family] at hx
    obtain ⟨e1, e2⟩ := hx; subst e1
    have : s' = (run .init (family.take 9)).get rfl := by
      apply Option.some.inj; rw [← hr]; rfl
    subst this
    have e : p = 0 := by
      have : ((((run .init (family.take 9)).get rfl).thr 1).parent) = some 0 := by decide
      rw [this] at hp; exact (Option.some.inj hp).symm
    subst e; decide

/-- Not so otherwise: the time of a thread that outlives the thread that began it is known to nobody. -/
theorem cpu_lost_violated :
    ∃ as s, run .init as = some s ∧ s.fatal = false ∧ total (fun i => if exited (s.thr i) then (s.thr i).cpu else 0) s.n = 12 ∧
      total (fun i => if exited (s.thr i) then (if (s.thr i).parent = none then (s.thr i).cpu + (s.thr i).children else 0) else (s.thr i).children) s.n = 7 :=
  ⟨family.take 8 ++ [.exit 1 7, .exit 2 5], _, rfl, by decide, by decide, by decide⟩

end Verif.Thread.Posix
