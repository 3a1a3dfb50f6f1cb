import Verif.Thread.Operation

/-
Constraints on thread operations, property C125.
-/
namespace Verif.Thread.Operation

/-! ## Specification -/

/-- Operation (bit) `b` is among those of a live object of thread `t`. -/
def Covered (live : List Obj) (t b : Nat) : Prop := ∃ o ∈ live, o.thread = t ∧ o.ops.testBit b = true

/-- The object is destroyed by the thread that made it, and it is the newest live object of that thread: what scopes guarantee. -/
def Nested (s : St) : Act → Prop
  | .create _ _ => True
  | .destroy t i => ∃ pre o post, s.live = pre ++ o :: post ∧ pre.length = i ∧ o.thread = t ∧ ∀ p ∈ pre, p.thread ≠ t

/-- Every destruction in the history is of that kind. -/
def AllNested (production : Bool) (s : St) : List Act → Prop
  | [] => True
  | a :: as => Nested s a ∧ ∀ s', step production s a = .ok s' → AllNested production s' as

/-! ## Proofs -/

/-- The word of each thread is the union of the operations of its live objects, and each object knows that of the older ones. -/
inductive Good : (Nat → Nat) → List Obj → Prop
  | nil : Good (fun _ => 0) []
  | cons {w : Nat → Nat} {l : List Obj} (h : Good w l) (o : Obj) (ho : o.old = w o.thread) : Good (setWord w o.thread (w o.thread ||| o.ops)) (o :: l)

theorem good_covered {w : Nat → Nat} {l : List Obj} (h : Good w l) (t b : Nat) : (w t).testBit b = true ↔ Covered l t b := by
  induction h with
  | nil => simp [Covered]
  | @cons w l h o ho ih =>
    by_cases e : t = o.thread
    · subst e
      simp only [setWord, if_pos, Nat.testBit_or, Bool.or_eq_true, ih, Covered, List.mem_cons]
      constructor
      · rintro (⟨p, hp, hq⟩ | hb)
        · exact ⟨p, Or.inr hp, hq⟩
        · exact ⟨o, Or.inl rfl, rfl, hb⟩
      · rintro ⟨p, rfl | hp, hq⟩
        · exact Or.inr hq.2
        · exact Or.inl ⟨p, hp, hq⟩
    · simp only [setWord, if_neg e, ih, Covered, List.mem_cons]
      constructor
      · rintro ⟨p, hp, hq⟩; exact ⟨p, Or.inr hp, hq⟩
      · rintro ⟨p, rfl | hp, hq⟩
        · exact absurd hq.1.symm e
        · exact ⟨p, hp, hq⟩

theorem setWord_comm {w : Nat → Nat} {t u a b : Nat} (h : t ≠ u) : setWord (setWord w t a) u b = setWord (setWord w u b) t a := by
  funext x
  simp only [setWord]
  by_cases h1 : x = t <;> by_cases h2 : x = u <;> simp_all

theorem setWord_other {w : Nat → Nat} {t u a : Nat} (h : u ≠ t) : setWord w t a u = w u := if_neg h

/-- Taking the newest object of a thread away. -/
theorem good_remove {pre : List Obj} : ∀ {w : Nat → Nat} {o : Obj} {post : List Obj}, Good w (pre ++ o :: post) → (∀ p ∈ pre, p.thread ≠ o.thread) →
    Good (setWord w o.thread o.old) (pre ++ post) := by
  induction pre with
  | nil =>
    intro w o post h _
    cases h with
    | @cons w _ h _ ho =>
      have : setWord (setWord w o.thread (w o.thread ||| o.ops)) o.thread o.old = w := by
        funext x
        simp only [setWord]
        by_cases e : x = o.thread
        · rw [if_pos e, e, ho]
        · rw [if_neg e, if_neg e]
      rw [List.nil_append, this]
      exact h
  | cons q pre ih =>
    intro w o post h hp
    cases h with
    | @cons w _ h _ hq =>
      have hne : q.thread ≠ o.thread := hp q (List.mem_cons_self ..)
      have g := ih h (fun p m => hp p (List.mem_cons_of_mem _ m))
      rw [setWord_comm hne]
      have e : w q.thread = setWord w o.thread o.old q.thread := (setWord_other hne).symm
      rw [e]
      exact Good.cons g q (by rw [← e]; exact hq)

theorem eraseIdx_split (pre : List Obj) (o : Obj) (post : List Obj) : (pre ++ o :: post).eraseIdx pre.length = pre ++ post := by
  induction pre with
  | nil => rfl
  | cons a pre ih => simp only [List.cons_append, List.length_cons, List.eraseIdx_cons_succ, ih]

theorem getElem?_split (pre : List Obj) (o : Obj) (post : List Obj) : (pre ++ o :: post)[pre.length]? = some o := by
  induction pre with
  | nil => rfl
  | cons a pre ih => simpa using ih

theorem step_good {p : Bool} {s : St} (h : Good s.word s.live) (a : Act) (hn : Nested s a) : ∃ s', step p s a = .ok s' ∧ Good s'.word s'.live := by
  cases a with
  | create t ops => exact ⟨_, rfl, Good.cons h ⟨ops, t, s.word t⟩ rfl⟩
  | destroy t i =>
    obtain ⟨pre, o, post, e1, e2, e3, e4⟩ := hn
    subst e2 e3
    refine ⟨⟨setWord s.word o.thread o.old, pre ++ post⟩, ?_, ?_⟩
    · simp only [step, destroy, e1, getElem?_split, eraseIdx_split, if_pos]
    · rw [e1] at h; exact good_remove h e4

theorem run_good {p : Bool} : ∀ (acts : List Act) {s : St}, Good s.word s.live → AllNested p s acts → ∃ s', run p s acts = .ok s' ∧ Good s'.word s'.live := by
  intro acts
  induction acts with
  | nil => intro s h _; exact ⟨s, rfl, h⟩
  | cons a as ih =>
    intro s h hn
    obtain ⟨s1, e1, g1⟩ := step_good (p := p) h a hn.1
    obtain ⟨s2, e2, g2⟩ := ih g1 (hn.2 s1 e1)
    refine ⟨s2, ?_, g2⟩
    simp only [run, e1, e2]

theorem and_ne_zero (a b : Nat) : (a &&& b != 0) = true ↔ ∃ i, a.testBit i = true ∧ b.testBit i = true := by
  rw [bne_iff_ne]
  constructor
  · intro h
    by_cases hx : ∃ i, (a &&& b).testBit i = true
    · obtain ⟨i, hi⟩ := hx
      rw [Nat.testBit_and, Bool.and_eq_true] at hi
      exact ⟨i, hi⟩
    · refine absurd (Nat.eq_of_testBit_eq fun i => ?_) h
      rw [Nat.zero_testBit]
      cases e : (a &&& b).testBit i
      · rfl
      · exact absurd ⟨i, e⟩ hx
  · rintro ⟨i, h1, h2⟩ e
    have : (a &&& b).testBit i = true := by rw [Nat.testBit_and, h1, h2]; rfl
    rw [e, Nat.zero_testBit] at this
    cases this

/-- With scoped objects, on any number of threads: nothing fatal happens, and the reporter complains on a thread exactly if one of the operations is
among those of an object alive on that very thread. -/
theorem reporter_partial {p : Bool} (acts : List Act) (hn : AllNested p init acts) :
    ∃ s, run p init acts = .ok s ∧ ∀ t op, reports s t op = true ↔ ∃ b, op.testBit b = true ∧ Covered s.live t b := by
  obtain ⟨s, e, g⟩ := run_good acts Good.nil hn
  refine ⟨s, e, fun t op => ?_⟩
  rw [reports, and_ne_zero]
  constructor
  · rintro ⟨b, h1, h2⟩; exact ⟨b, h1, (good_covered g t b).mp h2⟩
  · rintro ⟨b, h1, h2⟩; exact ⟨b, h1, (good_covered g t b).mpr h2⟩

/-- With scoped objects the checker complains about a single operation exactly if no object alive on that thread has it. -/
theorem checker_partial {p : Bool} (acts : List Act) (hn : AllNested p init acts) :
    ∃ s, run p init acts = .ok s ∧ ∀ t b, forbidden s t (2 ^ b) = true ↔ ¬ Covered s.live t b := by
  obtain ⟨s, e, g⟩ := run_good acts Good.nil hn
  refine ⟨s, e, fun t b => ?_⟩
  have h : forbidden s t (2 ^ b) = !(2 ^ b &&& s.word t != 0) := by simp [forbidden, bne]
  rw [h, Bool.not_eq_true', Bool.eq_false_iff, ne_eq, and_ne_zero]
  refine not_congr ⟨?_, fun hc => ⟨b, Nat.testBit_two_pow_self, (good_covered g t b).mpr hc⟩⟩
  rintro ⟨i, h1, h2⟩
  have : b = i := by
    by_cases e : b = i
    · exact e
    · rw [Nat.testBit_two_pow_of_ne e] at h1; cases h1
  subst this
  exact (good_covered g t b).mp h2

/-- Destruction by another thread never goes unnoticed in a non-production build. -/
theorem foreign_fatal (s : St) (t i : Nat) (o : Obj) (h : s.live[i]? = some o) (ht : o.thread ≠ t) : step false s (.destroy t i) = .fatal := by
  simp only [step, destroy, h, if_neg ht]
  rfl

/-- Out of order (objects on the heap), a constraint is lifted though a constrainer is alive, -/
theorem order_violated_lifted : (match run false init [.create 0 1, .create 0 2, .destroy 0 1] with
    | .ok s => some (s.live.map Obj.ops, reports s 0 2) | _ => none) = some ([2], false) := by decide +kernel

/-- and a constraint stays for ever though no constrainer is alive. -/
theorem order_violated_stuck : (match run false init [.create 0 1, .create 0 2, .destroy 0 1, .destroy 0 0] with
    | .ok s => some (s.live.length, reports s 0 1) | _ => none) = some (0, true) := by decide +kernel

/-- The checker lets a combination of operations pass if only one of them is exclusive here. -/
theorem checker_violated : (match run false init [.create 0 1] with
    | .ok s => some (forbidden s 0 (1 ||| 4), forbidden s 0 4) | _ => none) = some (false, true) := by decide +kernel

/-- In a production build a constraint whose object another thread destroys stays for ever. -/
theorem foreign_violated : (match run true init [.create 0 1, .destroy 1 0] with
    | .ok s => some (s.live.length, reports s 0 1) | _ => none) = some (0, true) := by decide +kernel

/-- Not vacuous: two threads with nested scopes, interleaved. -/
example : AllNested false init [.create 0 1, .create 1 4, .create 0 2, .destroy 1 1, .destroy 0 0] := by
  refine ⟨trivial, fun s1 h1 => ⟨trivial, fun s2 h2 => ⟨trivial, fun s3 h3 => ⟨?_, fun s4 h4 => ⟨?_, fun _ _ => trivial⟩⟩⟩⟩⟩ <;>
    cases h1 <;> cases h2 <;> cases h3
  · exact ⟨[⟨2, 0, 1⟩], ⟨4, 1, 0⟩, [⟨1, 0, 0⟩], rfl, rfl, rfl, by simp⟩
  · cases h4
    exact ⟨[], ⟨2, 0, 1⟩, [⟨1, 0, 0⟩], rfl, rfl, rfl, by simp⟩

example : (match run false init [.create 0 1, .create 1 4, .create 0 2, .destroy 1 1] with
    | .ok s => some (reports s 0 2, reports s 0 4, reports s 1 4) | _ => none) = some (true, false, false) := by decide +kernel

end Verif.Thread.Operation
