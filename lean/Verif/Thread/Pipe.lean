/-
Model of `BithreadPipe` (stingraykit/io/BithreadPipe.h) as a transition system, and property C38. Any number of threads read, and - in the model - any number write; the property is
about schedules in which a write begins only after the previous one has returned or thrown. Sections under the mutex are single steps; waiting is interleaved with anything, with
spurious wakeups, cancellation and timeouts (one outcome here: the call throws). A `ConstByteData` is its bytes.
-/
namespace Verif.Thread.Pipe

/-- Where a thread is in BithreadPipe.h 35-79. -/
inductive RPc where
  | out
  | waiting (size : Nat) (woken : Bool)       -- in `Read` with a buffer of `size` bytes, waiting on `_full` (36)
  deriving DecidableEq, Repr

/-- Where a thread is in BithreadPipe.h 35-79. -/
inductive WPc where
  | out
  | waiting (woken : Bool)                    -- in `Write`, waiting on `_empty` (63)
  deriving DecidableEq, Repr

/-- What is observed, in order.  For BithreadPipe.h 35-79. -/
inductive Ev where
  | write (data : List UInt8)     -- a call of `Write` begins
  | written                       -- `Write` returns
  | writeThrew                    -- `Write` throws
  | got (data : List UInt8)       -- a call of `Read` returns these bytes
  deriving DecidableEq, Repr

/-- The variables and the threads of BithreadPipe.h 35-79. -/
structure State where
  data : Option (List UInt8)      -- `_data`
  readers : Nat → RPc
  writers : Nat → WPc
  trace : List Ev

/-- The state after construction, BithreadPipe.h 35-79. -/
def init : State := ⟨none, fun _ => .out, fun _ => .out, []⟩

/-- Change of a function at one point; a helper of the model of BithreadPipe.h 35-79. -/
def set {α : Type} (f : Nat → α) (i : Nat) (x : α) : Nat → α := fun j => if j = i then x else f j

/-- `_full.Broadcast()`.  For BithreadPipe.h 35-79. -/
def RPc.wake : RPc → RPc
  | .waiting n _ => .waiting n true
  | .out => .out

/-- `_empty.Broadcast()`.  For BithreadPipe.h 35-79. -/
def WPc.wake : WPc → WPc
  | .waiting _ => .waiting true
  | .out => .out

/-- `Read` from the loop condition on: BithreadPipe.h:35-50. -/
def tryRead (s : State) (t n : Nat) : State := match s.data with
  | none => { s with readers := set s.readers t (.waiting n false) }
  | some d =>
    if min n d.length = d.length then
      { s with data := none, readers := set s.readers t .out, writers := fun w => (s.writers w).wake, trace := s.trace ++ [.got (d.take (min n d.length))] }
    else { s with data := some (d.drop (min n d.length)), readers := set s.readers t .out, trace := s.trace ++ [.got (d.take (min n d.length))] }

/-- `Write` from the loop condition on: BithreadPipe.h:62-72. -/
def tryWrite (s : State) (w : Nat) : State := match s.data with
  | some _ => { s with writers := set s.writers w (.waiting false) }
  | none => { s with writers := set s.writers w .out, trace := s.trace ++ [.written] }

/-- The steps a schedule of BithreadPipe.h 35-79 is made of. -/
inductive Act where
  | read (t n : Nat) | readResume (t : Nat) | readThrow (t : Nat) | readSpurious (t : Nat)
  | write (w : Nat) (data : List UInt8) | writeResume (w : Nat) | writeThrow (w : Nat) | writeSpurious (w : Nat)
  deriving DecidableEq, Repr

/-- One step, BithreadPipe.h 35-79. -/
def step (s : State) : Act → Option State
  | .read t n => if s.readers t = .out then some (tryRead s t n) else none
  | .readResume t => match s.readers t with
    | .waiting n true => some (tryRead s t n)
    | _ => none
  /- BithreadPipe.h:39-40 -/
  | .readThrow t => match s.readers t with
    | .waiting _ _ => some { s with readers := set s.readers t .out }
    | _ => none
  | .readSpurious t => match s.readers t with
    | .waiting n _ => some { s with readers := set s.readers t (.waiting n true) }
    | _ => none
  /- BithreadPipe.h:55-60 -/
  | .write w d => if s.writers w = .out then
      some (tryWrite { s with data := some d, readers := fun t => (s.readers t).wake, trace := s.trace ++ [.write d] } w)
    else none
  | .writeResume w => match s.writers w with
    | .waiting true => some (tryWrite s w)
    | _ => none
  /- BithreadPipe.h:66-67 and 60 -/
  | .writeThrow w => match s.writers w with
    | .waiting _ => some { s with data := none, writers := set s.writers w .out, trace := s.trace ++ [.writeThrew] }
    | _ => none
  | .writeSpurious w => match s.writers w with
    | .waiting _ => some { s with writers := set s.writers w (.waiting true) }
    | _ => none

/-- `Peek`: BithreadPipe.h:75-79. -/
def peek (s : State) : Bool := s.data.isSome

/-- One step after another, for histories of BithreadPipe.h 35-79. -/
def run (s : State) : List Act → Option State
  | [] => some s
  | a :: as => match step s a with
    | none => none
    | some s' => run s' as

/-! ### What the property is about -/

/-- The observations a pipe allows, reading them from the beginning: at most one write at a time; the bytes got by readers are the next bytes of that write; it returns only when all its
bytes have been got; when it throws, what is left is dropped. The state is what is left of the write in progress; `none` when the observations are not allowed. -/
def Spec.next : Option (List UInt8) → Ev → Option (Option (List UInt8))
  | none, .write d => some (some d)
  | some left, .got d => if d <+: left then some (some (left.drop d.length)) else none
  | some [], .written => some none
  | some _, .writeThrew => some none
  | _, _ => none

def Spec.after : Option (List UInt8) → List Ev → Option (Option (List UInt8))
  | st, [] => some st
  | st, e :: es => match Spec.next st e with
    | none => none
    | some st' => Spec.after st' es

/-- A schedule in which a write begins only when no other one is in progress. -/
def Spec.Alone (s : State) : List Act → Prop
  | [] => True
  | a :: as => (∀ w d, a = .write w d → ∀ v, s.writers v = .out) ∧ ∀ s', step s a = some s' → Spec.Alone s' as

/-- The bytes got, and the bytes of the writes begun. -/
def Spec.gotten : List Ev → List UInt8
  | [] => []
  | .got d :: es => d ++ Spec.gotten es
  | _ :: es => Spec.gotten es

def Spec.offered : List Ev → List UInt8
  | [] => []
  | .write d :: es => d ++ Spec.offered es
  | _ :: es => Spec.offered es

theorem after_append (st : Option (List UInt8)) (es fs : List Ev) : Spec.after st (es ++ fs) = (Spec.after st es).bind fun st' => Spec.after st' fs := by
  induction es generalizing st with
  | nil => rfl
  | cons e es ih =>
    simp only [List.cons_append, Spec.after]
    cases Spec.next st e with
    | none => rfl
    | some st' => exact ih st'

/-- The write in progress, if any: `left` is what its readers have not got yet; `_data` is that, or nothing when it is empty and the last reader has taken everything.  For BithreadPipe.h 35-79. -/
structure Inv (s : State) : Prop where
  ok : ∃ st, Spec.after none s.trace = some st ∧
    (st = none → s.data = none ∧ ∀ w, s.writers w = .out) ∧
    (∀ left, st = some left → (s.data = some left ∨ (s.data = none ∧ left = [])) ∧ ∃ w, s.writers w ≠ .out ∧ ∀ v, v ≠ w → s.writers v = .out)
  asleep : ∀ t n, s.readers t = .waiting n false → s.data = none
  asleepW : ∀ w, s.writers w = .waiting false → s.data ≠ none

theorem init_inv : Inv init := ⟨⟨none, rfl, fun _ => ⟨rfl, fun _ => rfl⟩, fun _ h => (nomatch h)⟩, fun _ _ h => (nomatch h), fun _ h => (nomatch h)⟩

theorem set_self {α : Type} (f : Nat → α) (i : Nat) (x : α) : set f i x i = x := by unfold set; rw [if_pos rfl]
theorem set_ne {α : Type} (f : Nat → α) {i j : Nat} (x : α) (h : j ≠ i) : set f i x j = f j := by unfold set; rw [if_neg h]

theorem wake_out (p : WPc) : p.wake = .out ↔ p = .out := by cases p <;> simp [WPc.wake]
theorem wake_asleep (p : WPc) : p.wake ≠ .waiting false := by cases p <;> simp [WPc.wake]
theorem rwake_asleep (p : RPc) (n : Nat) : p.wake ≠ .waiting n false := by cases p <;> simp [RPc.wake]

theorem set_asleep {f : Nat → RPc} {i j n : Nat} {x : RPc} (h : set f i x j = .waiting n false) : x = .waiting n false ∨ f j = .waiting n false := by
  by_cases e : j = i
  · subst e; rw [set_self] at h; exact Or.inl h
  · rw [set_ne _ _ e] at h; exact Or.inr h

theorem set_asleepW {f : Nat → WPc} {i j : Nat} {x : WPc} (h : set f i x j = .waiting false) : x = .waiting false ∨ f j = .waiting false := by
  by_cases e : j = i
  · subst e; rw [set_self] at h; exact Or.inl h
  · rw [set_ne _ _ e] at h; exact Or.inr h

/-- A change of one reader only. -/
theorem inv_reader {s : State} (h : Inv s) (t : Nat) (p : RPc) (hp : ∀ n, p = .waiting n false → s.data = none) : Inv { s with readers := set s.readers t p } := by
  refine ⟨h.ok, fun u n hu => ?_, h.asleepW⟩
  rcases set_asleep hu with e | e
  · exact hp n e
  · exact h.asleep u n e

theorem read_inv {s : State} (h : Inv s) (t n : Nat) : Inv (tryRead s t n) := by
  unfold tryRead
  cases hd : s.data with
  | none =>
    have := inv_reader h t (.waiting n false) (fun _ _ => hd)
    rw [hd] at this; exact this
  | some d =>
    simp only []
    obtain ⟨st, h1, h2, h3⟩ := h.ok
    cases st with
    | none => have := (h2 rfl).1; rw [hd] at this; cases this
    | some left =>
      obtain ⟨hl, w, hw1, hw2⟩ := h3 left rfl
      have hl : d = left := by
        rcases hl with e | ⟨e, _⟩
        · rw [hd] at e; injection e
        · rw [hd] at e; cases e
      subst hl
      have hpre : d.take (min n d.length) <+: d := List.take_prefix _ _
      have hnext : Spec.after none (s.trace ++ [.got (d.take (min n d.length))]) = some (some (d.drop (min n d.length))) := by
        rw [after_append, h1]
        simp only [Option.bind, Spec.after, Spec.next, if_pos hpre, List.length_take]
        rw [Nat.min_eq_left (Nat.min_le_right _ _)]
      by_cases hm : min n d.length = d.length
      · rw [if_pos hm]
        refine ⟨⟨_, hnext, fun e => (nomatch e), fun l hl => ⟨Or.inr ⟨rfl, ?_⟩, w, fun e => hw1 ((wake_out _).1 e), fun v hv => (wake_out _).2 (hw2 v hv)⟩⟩, fun u k hu => rfl, fun v hv => absurd hv (wake_asleep _)⟩
        injection hl with hl
        rw [← hl, hm, List.drop_length]
      · rw [if_neg hm]
        refine ⟨⟨_, hnext, fun e => (nomatch e), fun l hl => ⟨Or.inl (by injection hl with hl; rw [hl]), w, hw1, hw2⟩⟩, fun u k hu => ?_, fun v _ e => (nomatch e)⟩
        rcases set_asleep hu with e | e
        · cases e
        · have := h.asleep u k e; rw [hd] at this; cases this

theorem write_inv {s : State} (h : Inv s) (w : Nat) (hw : s.writers w ≠ .out) : Inv (tryWrite s w) := by
  unfold tryWrite
  obtain ⟨st, h1, h2, h3⟩ := h.ok
  cases st with
  | none => exact absurd ((h2 rfl).2 w) hw
  | some left =>
    obtain ⟨hl, v, hv1, hv2⟩ := h3 left rfl
    have hvw : v = w := Decidable.byContradiction fun e => hw (hv2 w (fun e' => e e'.symm))
    subst hvw
    cases hd : s.data with
    | some d =>
      refine ⟨⟨some left, h1, fun e => (nomatch e), fun l e => ⟨by injection e with e; rw [← e]; rw [hd] at hl; exact hl, v, ?_, fun u hu => ?_⟩⟩, fun t n ht => ?_, fun u _ e => ?_⟩
      · show set s.writers v _ v ≠ .out
        rw [set_self]; exact fun e => (nomatch e)
      · show set s.writers v _ u = .out
        rw [set_ne _ _ hu]; exact hv2 u hu
      · have := h.asleep t n ht; rw [hd] at this; cases this
      · exact (nomatch (e : some d = none))
    | none =>
      have hle : left = [] := by
        rcases hl with e | ⟨_, e⟩
        · rw [hd] at e; cases e
        · exact e
      subst hle
      refine ⟨⟨none, by rw [after_append, h1]; rfl, fun _ => ⟨rfl, fun u => ?_⟩, fun _ e => (nomatch e)⟩, fun _ _ _ => rfl, fun u hu => ?_⟩
      · show set s.writers v _ u = .out
        by_cases e : u = v
        · rw [e, set_self]
        · rw [set_ne _ _ e]; exact hv2 u e
      · rcases set_asleepW hu with e | e
        · cases e
        · exact absurd hd (h.asleepW u e)

theorem step_inv {s s' : State} {a : Act} (h : Inv s) (ha : ∀ w d, a = .write w d → ∀ v, s.writers v = .out) (hs : step s a = some s') : Inv s' := by
  cases a with
  | read t n =>
    simp only [step] at hs
    by_cases ht : s.readers t = .out
    · rw [if_pos ht] at hs; injection hs with hs; exact hs ▸ read_inv h t n
    · rw [if_neg ht] at hs; cases hs
  | readResume t =>
    simp only [step] at hs
    cases ht : s.readers t with
    | out => rw [ht] at hs; cases hs
    | waiting n b =>
      cases b with
      | false => rw [ht] at hs; cases hs
      | true => rw [ht] at hs; injection hs with hs; exact hs ▸ read_inv h t n
  | readThrow t =>
    simp only [step] at hs
    cases ht : s.readers t with
    | out => rw [ht] at hs; cases hs
    | waiting n b => rw [ht] at hs; injection hs with hs; exact hs ▸ inv_reader h t .out (fun _ e => (nomatch e))
  | readSpurious t =>
    simp only [step] at hs
    cases ht : s.readers t with
    | out => rw [ht] at hs; cases hs
    | waiting n b => rw [ht] at hs; injection hs with hs; exact hs ▸ inv_reader h t _ (fun _ e => by injection e with _ e; cases e)
  | write w d =>
    simp only [step] at hs
    have hall := ha w d rfl
    rw [if_pos (hall w)] at hs; injection hs with hs; subst hs
    obtain ⟨st, h1, h2, h3⟩ := h.ok
    have hst : st = none := by
      cases st with
      | none => rfl
      | some left =>
        obtain ⟨_, v, hv, _⟩ := h3 left rfl
        exact absurd (hall v) hv
    subst hst
    refine ⟨⟨some d, by show Spec.after none (s.trace ++ [.write d]) = _; rw [after_append, h1]; rfl, fun e => (nomatch e), fun l e => ⟨Or.inl (by injection e with e; rw [← e]; rfl), w, ?_, fun v hv => ?_⟩⟩,
      fun t n ht => absurd ht (rwake_asleep _ _), fun v _ e => (nomatch (e : some d = none))⟩
    · show set s.writers w _ w ≠ .out
      rw [set_self]; exact fun e => (nomatch e)
    · show set s.writers w _ v = .out
      rw [set_ne _ _ hv]; exact hall v
  | writeResume w =>
    simp only [step] at hs
    cases hw : s.writers w with
    | out => rw [hw] at hs; cases hs
    | waiting b =>
      cases b with
      | false => rw [hw] at hs; cases hs
      | true => rw [hw] at hs; injection hs with hs; exact hs ▸ write_inv h w (by rw [hw]; exact fun e => (nomatch e))
  | writeThrow w =>
    simp only [step] at hs
    cases hw : s.writers w with
    | out => rw [hw] at hs; cases hs
    | waiting b =>
      rw [hw] at hs; injection hs with hs; subst hs
      obtain ⟨st, h1, h2, h3⟩ := h.ok
      cases st with
      | none => have := (h2 rfl).2 w; rw [hw] at this; cases this
      | some left =>
        obtain ⟨hl, v, hv1, hv2⟩ := h3 left rfl
        have hvw : v = w := Decidable.byContradiction fun e => by have := hv2 w (fun e' => e e'.symm); rw [hw] at this; cases this
        subst hvw
        refine ⟨⟨none, by rw [after_append, h1]; cases left <;> rfl, fun _ => ⟨rfl, fun u => ?_⟩, fun _ e => (nomatch e)⟩, fun _ _ _ => rfl, fun u hu => ?_⟩
        · show set s.writers v _ u = .out
          by_cases e : u = v
          · rw [e, set_self]
          · rw [set_ne _ _ e]; exact hv2 u e
        · rcases set_asleepW hu with e | e
          · cases e
          · by_cases eu : u = v
            · rw [eu] at hu; have : set s.writers v .out v = .waiting false := hu; rw [set_self] at this; cases this
            · have := hv2 u eu; rw [e] at this; cases this
  | writeSpurious w =>
    simp only [step] at hs
    cases hw : s.writers w with
    | out => rw [hw] at hs; cases hs
    | waiting b =>
      rw [hw] at hs; injection hs with hs; subst hs
      obtain ⟨st, h1, h2, h3⟩ := h.ok
      refine ⟨⟨st, h1, fun e => ?_, fun l e => ?_⟩, h.asleep, fun u hu => ?_⟩
      · have := (h2 e).2 w; rw [hw] at this; cases this
      · obtain ⟨hl, v, hv1, hv2⟩ := h3 l e
        have hvw : v = w := Decidable.byContradiction fun e => by have := hv2 w (fun e' => e e'.symm); rw [hw] at this; cases this
        subst hvw
        refine ⟨hl, v, ?_, fun u hu => ?_⟩
        · show set s.writers v _ v ≠ .out
          rw [set_self]; exact fun e => (nomatch e)
        · show set s.writers v _ u = .out
          rw [set_ne _ _ hu]; exact hv2 u hu
      · rcases set_asleepW hu with e | e
        · cases e
        · exact h.asleepW u e

theorem run_inv : ∀ {as : List Act} {s s' : State}, Inv s → Spec.Alone s as → run s as = some s' → Inv s'
  | [], s, s', hi, _, h => by injection h with h; exact h ▸ hi
  | a :: as, s, s', hi, ha, h => by
    rw [run] at h
    cases hs : step s a with
    | none => rw [hs] at h; cases h
    | some t => rw [hs] at h; exact run_inv (step_inv hi ha.1 hs) (ha.2 t hs) h

/-- C38: in every schedule without overlapping writes, what is observed is what the specification allows: readers get the bytes of the write in progress, in order and without gaps; a
write that returns has been read completely; a write that throws was read up to some point, and the rest is never read. -/
theorem pipe_transfers {as : List Act} {s : State} (ha : Spec.Alone init as) (h : run init as = some s) : ∃ st, Spec.after none s.trace = some st :=
  let ⟨st, h1, _⟩ := (run_inv init_inv ha h).ok
  ⟨st, h1⟩

/-- What the specification means for the bytes: if no write threw, the bytes read so far followed by those left of the write in progress are the bytes of all writes. -/
theorem spec_bytes : ∀ (es : List Ev) (st st' : Option (List UInt8)), .writeThrew ∉ es → Spec.after st es = some st' → st.getD [] ++ Spec.offered es = Spec.gotten es ++ st'.getD []
  | [], st, st', _, h => by
    simp only [Spec.after] at h; injection h with h; subst h; simp [Spec.offered, Spec.gotten]
  | e :: es, st, st', hn, h => by
    rw [List.mem_cons, not_or] at hn
    simp only [Spec.after] at h
    cases hx : Spec.next st e with
    | none => rw [hx] at h; cases h
    | some st1 =>
      rw [hx] at h
      have ih := spec_bytes es st1 st' hn.2 h
      cases e with
      | writeThrew => exact absurd rfl hn.1
      | write d =>
        cases st with
        | some l => cases l <;> cases hx
        | none => injection hx with hx; subst hx; simpa [Spec.offered, Spec.gotten] using ih
      | written =>
        cases st with
        | none => cases hx
        | some l =>
          cases l with
          | cons => cases hx
          | nil => injection hx with hx; subst hx; simpa [Spec.offered, Spec.gotten] using ih
      | got d =>
        cases st with
        | none => cases hx
        | some l =>
          have hx : (if d <+: l then some (some (l.drop d.length)) else none) = some st1 := by cases l <;> exact hx
          by_cases hp : d <+: l
          · rw [if_pos hp] at hx; injection hx with hx; subst hx
            obtain ⟨m, rfl⟩ := hp
            simp only [Option.getD_some, List.drop_left, Spec.offered, Spec.gotten] at ih ⊢
            rw [List.append_assoc, List.append_assoc, ih]
          · rw [if_neg hp] at hx; cases hx

/-- C38 for the whole stream: if no write threw and none is in progress, the bytes read are exactly the bytes written, in order. -/
theorem pipe_bytes {as : List Act} {s : State} (ha : Spec.Alone init as) (h : run init as = some s) (hn : .writeThrew ∉ s.trace) (hw : ∀ w, s.writers w = .out) :
    Spec.gotten s.trace = Spec.offered s.trace := by
  obtain ⟨st, h1, h2, h3⟩ := (run_inv init_inv ha h).ok
  cases st with
  | some l => obtain ⟨_, v, hv, _⟩ := h3 l rfl; exact absurd (hw v) hv
  | none => simpa using (spec_bytes s.trace none none hn h1).symm

/-- C38, nobody is forgotten: a reader does not stay blocked while there is data, nor a writer when there is none; `Peek` tells readers the truth. -/
theorem pipe_wakeups {as : List Act} {s : State} (ha : Spec.Alone init as) (h : run init as = some s) :
    (peek s = true → ∀ t n b, s.readers t = .waiting n b → ∃ s', step s (.readResume t) = some s' ∧ s'.readers t = .out) ∧
    (peek s = false → ∀ w b, s.writers w = .waiting b → ∃ s', step s (.writeResume w) = some s' ∧ s'.writers w = .out) ∧
    (∀ t n, s.readers t = .out → ∃ s', step s (.read t n) = some s' ∧ (s'.readers t = .out ↔ peek s = true)) := by
  have hi := run_inv init_inv ha h
  unfold peek
  refine ⟨fun hp t n b ht => ?_, fun hp w b hw => ?_, fun t n ht => ?_⟩
  · cases hd : s.data with
    | none => rw [hd] at hp; cases hp
    | some d =>
      cases b with
      | false => have := hi.asleep t n ht; rw [hd] at this; cases this
      | true =>
        simp only [step, ht]
        refine ⟨_, rfl, ?_⟩
        unfold tryRead; rw [hd]; simp only []
        by_cases hm : min n d.length = d.length
        · rw [if_pos hm]; exact set_self _ _ _
        · rw [if_neg hm]; exact set_self _ _ _
  · cases hd : s.data with
    | some d => rw [hd] at hp; cases hp
    | none =>
      cases b with
      | false => exact absurd hd (hi.asleepW w hw)
      | true =>
        simp only [step, hw]
        refine ⟨_, rfl, ?_⟩
        unfold tryWrite; rw [hd]; exact set_self _ _ _
  · simp only [step, if_pos ht]
    refine ⟨_, rfl, ?_⟩
    unfold tryRead
    cases hd : s.data with
    | none => simp only []; rw [set_self]; exact ⟨fun e => (nomatch e), fun e => (nomatch e)⟩
    | some d =>
      simp only []
      by_cases hm : min n d.length = d.length
      · rw [if_pos hm]; exact ⟨fun _ => rfl, fun _ => set_self _ _ _⟩
      · rw [if_neg hm]; exact ⟨fun _ => rfl, fun _ => set_self _ _ _⟩

/-- Why writes must not overlap: the second one replaces the data of the first, which returns as if it had been read. -/
theorem overlapping_writes_lose_data : ∃ s, run init [.write 1 [1, 2], .write 2 [3], .read 5 10, .writeResume 1, .writeResume 2] = some s ∧
    s.trace = [.write [1, 2], .write [3], .got [3], .written, .written] := ⟨_, rfl, rfl⟩

/-! Non-vacuity: a reader waiting first, short reads, an empty write, a write that throws after some bytes were read. -/
def Spec.demo : List Act := [.read 5 2, .write 1 [1, 2, 3], .readResume 5, .read 6 1, .writeResume 1, .write 1 [], .read 5 4, .writeResume 1, .write 2 [4, 5], .read 6 1, .writeThrow 2, .read 5 1]
example : (run init Spec.demo).map (fun s => (s.trace, s.data, s.readers 5)) = some ([.write [1, 2, 3], .got [1, 2], .got [3], .written, .write [], .got [], .written, .write [4, 5], .got [4],
    .writeThrew], none, .waiting 1 false) := rfl
/-- Only writers 1 and 2 occur in the demo, so the schedule is of the kind the theorems are about. -/
theorem demo_alone : Spec.Alone init Spec.demo := by
  have h0 : ∀ v : Nat, (fun _ => WPc.out) v = WPc.out := fun _ => rfl
  have h1 : ∀ (f : Nat → WPc) (w : Nat), (∀ v, f v = .out) → ∀ v, set f w .out v = .out := by
    intro f w hf v; unfold set; by_cases e : v = w
    · rw [if_pos e]
    · rw [if_neg e]; exact hf v
  have h2 : ∀ (f : Nat → WPc) (w : Nat) (x : WPc), (∀ v, f v = .out) → ∀ v, set (fun u => (set f w x u).wake) w .out v = .out := by
    intro f w x hf v; unfold set; by_cases e : v = w
    · simp [if_pos e]
    · simp [if_neg e, hf v, WPc.wake]
  unfold Spec.demo
  refine ⟨fun _ _ e => (nomatch e), fun s1 e => ?_⟩; injection e with e; subst e
  refine ⟨fun _ _ _ => h0, fun s2 e => ?_⟩; injection e with e; subst e
  refine ⟨fun _ _ e => (nomatch e), fun s3 e => ?_⟩; injection e with e; subst e
  refine ⟨fun _ _ e => (nomatch e), fun s4 e => ?_⟩; injection e with e; subst e
  refine ⟨fun _ _ e => (nomatch e), fun s5 e => ?_⟩; injection e with e; subst e
  refine ⟨fun _ _ _ => h2 _ _ _ h0, fun s6 e => ?_⟩; injection e with e; subst e
  refine ⟨fun _ _ e => (nomatch e), fun s7 e => ?_⟩; injection e with e; subst e
  refine ⟨fun _ _ e => (nomatch e), fun s8 e => ?_⟩; injection e with e; subst e
  refine ⟨fun _ _ _ => h2 _ _ _ (h2 _ _ _ h0), fun s9 e => ?_⟩; injection e with e; subst e
  refine ⟨fun _ _ e => (nomatch e), fun s10 e => ?_⟩; injection e with e; subst e
  refine ⟨fun _ _ e => (nomatch e), fun s11 e => ?_⟩; injection e with e; subst e
  exact ⟨fun _ _ e => (nomatch e), fun _ _ => trivial⟩

/-- A write waits until its bytes have been read: it does not go on by itself. -/
theorem write_waits {s s' : State} {w : Nat} {d : List UInt8} (h : step s (.write w d) = some s') : step s' (.writeResume w) = none := by
  simp only [step] at h
  split at h
  · injection h with h; subst h
    simp [step, tryWrite, set]
  · cases h

example : ∃ s', step init (.write 1 [7]) = some s' := ⟨_, rfl⟩

end Verif.Thread.Pipe
