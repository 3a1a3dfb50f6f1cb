import Verif.Single.Plain
import Verif.Single.Phoenix

/-
Properties of `Singleton`, of `AtomicInt::Store` and of `PhoenixSingleton`, property C123.
-/
namespace Verif.Single.Plain

/-! ## Singleton: specification

The first call of `Instance` decides; afterwards only the end of the program changes anything. -/

/-- What `Instance` gives after the history `h`. -/
def expected : List Op → Bool → Res
  | [], throws => if throws then .couldNotBeCreated else .ref 0
  | .instance true :: _, _ => .couldNotBeCreated
  | .instance false :: h, _ => if .exit ∈ h then .alreadyDestroyed else .ref 0
  | _ :: h, throws => expected h throws

theorem run_append (s : St) (h1 h2 : List Op) : (run s (h1 ++ h2)).1 = (run (run s h1).1 h2).1 := by
  induction h1 generalizing s with
  | nil => rfl
  | cons op h1 ih => exact ih _

/-- Before the first call. -/
structure Before (s : St) : Prop where
  once : s.once = false
  inst : s.inst = none
  made : s.made = 0
  deleted : s.deleted = []

theorem before_step {s : St} (h : Before s) {op : Op} (hop : ∀ t, op ≠ .instance t) : Before (step s op).1 := by
  obtain ⟨a, b, c, d⟩ := h
  cases op with
  | «instance» t => exact absurd rfl (hop t)
  | isAlive => exact ⟨a, b, c, d⟩
  | assertCreated => simp only [step]; rw [if_neg (by rw [a]; exact Bool.false_ne_true)]; exact ⟨a, b, c, d⟩
  | exit =>
    simp only [step]
    split
    · refine ⟨a, rfl, c, ?_⟩
      show s.deleted ++ s.inst.toList = []
      rw [b, d]; rfl
    · exact ⟨a, b, c, d⟩

/-- After a first call whose constructor has thrown. -/
structure Failed (s : St) : Prop where
  once : s.once = true
  inst : s.inst = none
  created : s.created = false
  made : s.made = 1
  deleted : s.deleted = []

theorem failed_step {s : St} (h : Failed s) (op : Op) : Failed (step s op).1 := by
  obtain ⟨a, b, c, d, e⟩ := h
  cases op with
  | «instance» t => simp only [step]; rw [if_pos a]; exact ⟨a, b, c, d, e⟩
  | isAlive => exact ⟨a, b, c, d, e⟩
  | assertCreated => simp only [step]; rw [if_pos a]; exact ⟨a, b, c, d, e⟩
  | exit =>
    simp only [step]
    split
    · refine ⟨a, rfl, c, d, ?_⟩
      show s.deleted ++ s.inst.toList = []
      rw [b, e]; rfl
    · exact ⟨a, b, c, d, e⟩

theorem failed_run {s : St} (h : Failed s) (ops : List Op) : Failed (run s ops).1 := by
  induction ops generalizing s with
  | nil => exact h
  | cons op ops ih => exact ih (failed_step h op)

theorem failed_of_first {s : St} (h : Before s) : Failed (step s (.instance true)).1 := by
  simp only [step]
  rw [if_neg (by rw [h.once]; exact Bool.false_ne_true)]
  exact ⟨rfl, rfl, rfl, by simp only [initInstance]; rw [h.made], h.deleted⟩

/-- After a first call that has made the object; has the holder been destroyed since? -/
structure Made (s : St) (exited : Bool) : Prop where
  once : s.once = true
  created : s.created = true
  made : s.made = 1
  inst : s.inst = if exited then none else some 0
  life : exited = true → s.life = .dead
  unborn : s.life ≠ .unborn
  deleted : s.deleted = if exited then [0] else []

theorem made_of_first {s : St} (h : Before s) : Made (step s (.instance false)).1 false := by
  simp only [step]
  rw [if_neg (by rw [h.once]; exact Bool.false_ne_true)]
  refine ⟨rfl, rfl, by simp only [initInstance]; rw [h.made], by simp only [initInstance]; rw [h.made, if_neg Bool.false_ne_true], (fun e => nomatch e), ?_, h.deleted⟩
  simp only [initInstance, touch]
  split
  · exact fun e => nomatch e
  · next hn => exact hn

theorem touch_eq {s : St} (h : s.life ≠ .unborn) : touch s = s := by
  simp only [touch]; rw [if_neg h]

theorem made_step {s : St} {b : Bool} (h : Made s b) (op : Op) (hv : (step s op).2 ≠ .impossible) :
    Made (step s op).1 (b || op == .exit) := by
  have hl := touch_eq h.unborn
  cases op with
  | «instance» t =>
    simp only [step]; rw [if_pos h.once, hl]
    have : (b || Op.instance t == .exit) = b := by cases b <;> rfl
    rw [this]; exact h
  | isAlive =>
    simp only [step]; rw [hl]
    have : (b || Op.isAlive == .exit) = b := by cases b <;> rfl
    rw [this]; exact h
  | assertCreated =>
    simp only [step]; rw [if_pos h.once]
    have : (b || Op.assertCreated == .exit) = b := by cases b <;> rfl
    rw [this]; exact h
  | exit =>
    by_cases hb : s.life = .born
    · have hbf : b = false := by
        cases b
        · rfl
        · have := h.life rfl; rw [hb] at this; cases this
      subst hbf
      simp only [step]; rw [if_pos hb]
      have hin := h.inst
      have hde := h.deleted
      rw [if_neg Bool.false_ne_true] at hin hde
      refine ⟨h.once, h.created, h.made, rfl, (fun _ => rfl), (fun e => nomatch e), ?_⟩
      show s.deleted ++ s.inst.toList = _
      rw [hin, hde]; rfl
    · simp only [step] at hv
      rw [if_neg hb] at hv
      exact absurd rfl hv

theorem made_run {s : St} {b : Bool} (h : Made s b) (ops : List Op) (hv : .impossible ∉ (run s ops).2) :
    Made (run s ops).1 (b || ops.contains .exit) := by
  induction ops generalizing s b with
  | nil => simpa [run] using h
  | cons op ops ih =>
    simp only [run, List.mem_cons, not_or] at hv
    have := ih (made_step h op (fun e => hv.1 e.symm)) hv.2
    rw [Bool.or_assoc] at this
    rw [List.contains_cons, show (Op.exit == op) = (op == .exit) by cases op <;> rfl]
    exact this

theorem instance_again {s : St} (ho : s.once = true) (t : Bool) : (step s (.instance t)).2 = check s := by
  simp only [step]; rw [if_pos ho]

/-- The history as a whole. -/
theorem run_cases (h : List Op) {s : St} (hb : Before s) (hv : .impossible ∉ (run s h).2) :
    (∃ s' : St, (run s h).1 = s' ∧ ∀ t, (step s' (.instance t)).2 = expected h t) ∧ (run s h).1.made ≤ 1 ∧
      (∀ o ∈ (run s h).1.deleted, o = 0) ∧ (run s h).1.deleted.length ≤ 1 := by
  induction h generalizing s with
  | nil =>
    refine ⟨⟨s, rfl, fun t => ?_⟩, ?_, ?_, ?_⟩
    · simp only [step, expected]
      rw [if_neg (by rw [hb.once]; exact Bool.false_ne_true)]
      cases t
      · simp only [check, initInstance, hb.made]; rfl
      · simp only [check, initInstance]; rfl
    · show s.made ≤ 1; rw [hb.made]; omega
    · show ∀ o ∈ s.deleted, o = 0; rw [hb.deleted]; simp
    · show s.deleted.length ≤ 1; rw [hb.deleted]; simp
  | cons op h ih =>
    simp only [run, List.mem_cons, not_or] at hv
    cases op with
    | «instance» t =>
      cases t with
      | true =>
        have hf := failed_run (failed_of_first hb) h
        refine ⟨⟨_, rfl, fun t => ?_⟩, ?_, ?_, ?_⟩
        · show (step (run (step s (.instance true)).1 h).1 (.instance t)).2 = _
          rw [instance_again hf.once]
          simp only [check, expected]
          rw [hf.inst, hf.created]; rfl
        · show (run (step s (.instance true)).1 h).1.made ≤ 1; rw [hf.made]; omega
        · show ∀ o ∈ (run (step s (.instance true)).1 h).1.deleted, o = 0; rw [hf.deleted]; simp
        · show (run (step s (.instance true)).1 h).1.deleted.length ≤ 1; rw [hf.deleted]; simp
      | false =>
        have hm := made_run (made_of_first hb) h hv.2
        rw [Bool.false_or] at hm
        refine ⟨⟨_, rfl, fun t => ?_⟩, ?_, ?_, ?_⟩
        · show (step (run (step s (.instance false)).1 h).1 (.instance t)).2 = _
          rw [instance_again hm.once]
          simp only [check, expected]
          rw [hm.inst, hm.created]
          by_cases he : Op.exit ∈ h
          · rw [if_pos (List.contains_iff_mem.mpr he), if_pos he]; rfl
          · rw [if_neg (fun e => he (List.contains_iff_mem.mp e)), if_neg he]
        · show (run (step s (.instance false)).1 h).1.made ≤ 1; rw [hm.made]; omega
        · show ∀ o ∈ (run (step s (.instance false)).1 h).1.deleted, o = 0; rw [hm.deleted]
          split <;> simp
        · show (run (step s (.instance false)).1 h).1.deleted.length ≤ 1; rw [hm.deleted]
          split <;> simp
    | isAlive => exact ih (before_step hb (fun t e => nomatch e)) hv.2
    | assertCreated => exact ih (before_step hb (fun t e => nomatch e)) hv.2
    | exit => exact ih (before_step hb (fun t e => nomatch e)) hv.2

theorem init_before : Before init := ⟨rfl, rfl, rfl, rfl⟩

/-- C123: after every history, `Instance` gives what the first call has decided: always the same object until the end of the program, "already
destroyed" after it, and "could not be created" for ever if the constructor threw in the first call (it is not tried again). -/
theorem singleton_instance (h : List Op) (hv : .impossible ∉ (run init h).2) (t : Bool) :
    (step (run init h).1 (.instance t)).2 = expected h t := by
  obtain ⟨⟨s', rfl, hs'⟩, _⟩ := run_cases h init_before hv
  exact hs' t

/-- C123: the constructor runs at most once and the object is deleted at most once. -/
theorem singleton_once (h : List Op) (hv : .impossible ∉ (run init h).2) :
    (run init h).1.made ≤ 1 ∧ (∀ o ∈ (run init h).1.deleted, o = 0) ∧ (run init h).1.deleted.length ≤ 1 :=
  (run_cases h init_before hv).2

/-- C123: an object that was made is deleted at the end of the program. -/
theorem singleton_deleted (h1 h2 : List Op) (hf : ∀ t, Op.instance t ∉ h1)
    (hv : .impossible ∉ (run init (h1 ++ .instance false :: h2)).2) (he : .exit ∈ h2) :
    (run init (h1 ++ .instance false :: h2)).1.deleted = [0] := by
  have aux : ∀ (h1 : List Op) (s : St), Before s → (∀ t, Op.instance t ∉ h1) → .impossible ∉ (run s (h1 ++ .instance false :: h2)).2 →
      (run s (h1 ++ .instance false :: h2)).1.deleted = [0] := by
    intro h1
    induction h1 with
    | nil =>
      intro s hb _ hv
      simp only [List.nil_append, run, List.mem_cons, not_or] at hv
      have hm := made_run (made_of_first hb) h2 hv.2
      rw [Bool.false_or] at hm
      have := hm.deleted
      rw [if_pos (List.contains_iff_mem.mpr he)] at this
      exact this
    | cons op h1 ih =>
      intro s hb hf hv
      simp only [List.cons_append, run, List.mem_cons, not_or] at hv
      exact ih (step s op).1 (before_step hb (fun t e => hf t (by rw [e]; simp))) (fun t e => hf t (List.mem_cons_of_mem _ e)) hv.2
  exact aux h1 init init_before hf hv

/-- C123: `IsAlive` says whether `Instance` would give the object (once it was made). -/
theorem singleton_isAlive (h : List Op) (hv : .impossible ∉ (run init h).2) (ho : (run init h).1.once = true) (t : Bool) :
    (step (run init h).1 .isAlive).2 = .bool (match (step (run init h).1 (.instance t)).2 with | .ref _ => true | _ => false) := by
  have _ := hv
  simp only [step]
  rw [if_pos ho]
  simp only [check]
  cases hin : (run init h).1.inst with
  | some o => rfl
  | none => by_cases hc : (run init h).1.created = true
            · rw [if_pos hc]; rfl
            · rw [if_neg hc]; rfl

/-- C123 does not hold in full: an object made after the end of the program, when the holder was made (by `IsAlive`) and destroyed before, is
never deleted, whatever happens. -/
theorem singleton_deleted_violated : ∃ h : List Op, .impossible ∉ (run init h).2 ∧ (run init h).1.inst = some 0 ∧
    ∀ more : List Op, (run (run init h).1 more).1.deleted = [] := by
  refine ⟨[.isAlive, .exit, .instance false], by decide +kernel, by decide +kernel, fun more => ?_⟩
  have aux : ∀ (more : List Op) (s : St), s.life = .dead → s.once = true → s.deleted = [] → (run s more).1.deleted = [] := by
    intro more
    induction more with
    | nil => intro s _ _ h; exact h
    | cons op more ih =>
      intro s hl ho hd
      have ht : touch s = s := touch_eq (by rw [hl]; exact fun e => nomatch e)
      have : (step s op).1 = s := by
        cases op with
        | «instance» t => simp only [step]; rw [if_pos ho, ht]
        | isAlive => simp only [step]; rw [ht]
        | assertCreated => simp only [step]; rw [if_pos ho]
        | exit => simp only [step]; rw [if_neg (by rw [hl]; exact fun e => nomatch e)]
      show (run (step s op).1 more).1.deleted = []
      rw [this]
      exact ih s hl ho hd
  exact aux more _ (by decide +kernel) (by decide +kernel) (by decide +kernel)

example : (run init [.instance false, .isAlive, .instance true, .exit, .instance false, .isAlive]).2 =
    [.ref 0, .bool true, .ref 0, .unit, .alreadyDestroyed, .bool false] := by decide +kernel
example : (run init [.instance true, .instance false, .exit, .instance false]).2 =
    [.couldNotBeCreated, .couldNotBeCreated, .unit, .couldNotBeCreated] := by decide +kernel
example : (run init [.assertCreated, .instance false, .assertCreated]).2 = [.fatal, .ref 0, .unit] := by decide +kernel

/-! ## AtomicInt::Store -/

/-- C123: whatever the other threads do in between, `Store` leaves its loop with the exchange that has put the value into the cell, and the
exchanges before it have changed nothing: it is one atomic write of `val`. -/
theorem store_atomic (val : Int) (seen : List Int) (log : List (Int × Int)) (old : Int) (h : store val old old seen = some log) :
    ∃ before last, log = before ++ [(last, val)] ∧ (∀ x ∈ before, x.1 = x.2) ∧ log.map (·.1) = seen.take log.length := by
  induction seen generalizing old log with
  | nil => cases h
  | cons cell seen ih =>
    have hcas : (cas cell old val).2 = cell := rfl
    simp only [store] at h
    by_cases hc : cell = old
    · rw [if_neg (by rw [hcas]; exact fun e => e hc)] at h
      cases h
      refine ⟨[], cell, ?_, by simp, by simp⟩
      simp only [cas, if_pos hc, List.nil_append]
    · rw [if_pos (by rw [hcas]; exact hc), hcas, show (cas cell old val).1 = cell from if_neg hc] at h
      obtain ⟨log', hl, rfl⟩ := Option.map_eq_some_iff.mp h
      obtain ⟨before, last, e1, e2, e3⟩ := ih log' cell hl
      refine ⟨(cell, cell) :: before, last, by rw [e1]; rfl, ?_, ?_⟩
      · intro x hx
        rcases List.mem_cons.mp hx with e | e
        · rw [e]
        · exact e2 x e
      · simp [e3]

/-- C123: `Store` ends as soon as the cell is the same at two exchanges running (undisturbed: with the second exchange at the latest). -/
theorem store_ends (val cell : Int) (seen : List Int) (old : Int) : (store val old old (cell :: cell :: seen)).isSome = true := by
  have hcas (x : Int) : (cas cell x val).2 = cell := rfl
  simp only [store]
  by_cases hc : cell = old
  · rw [if_neg (by rw [hcas]; exact fun e => e hc)]; rfl
  · rw [if_pos (by rw [hcas]; exact hc), hcas old, if_neg (by rw [hcas]; exact fun e => e rfl)]
    rfl

example : store 7 0 0 [0] = some [(0, 7)] := by decide +kernel
example : store 7 0 0 [5, 5] = some [(5, 5), (5, 7)] := by decide +kernel
example : store 7 0 0 [5, 6, 6] = some [(5, 5), (6, 6), (6, 7)] := by decide +kernel

end Verif.Single.Plain

namespace Verif.Single.Phoenix

/-! ## PhoenixSingleton -/

/-- The state is reached from the start of the program. -/
def Reachable (s : St) : Prop := ∃ acts, run init acts = some s

/-- What is so in every state: one pending handler exactly if there is an object, which is the last one made and the only living one. -/
structure Inv (s : St) : Prop where
  pending : s.pending = if s.inst.isSome then 1 else 0
  last (o : Nat) : s.inst = some o → o + 1 = s.live.length
  live (o : Nat) : s.live[o]? = some true ↔ s.inst = some o
  fine : s.aborted = false
  known (o : Nat) : Phase.returned o ∈ s.calls → o < s.live.length

theorem known_set {s : St} (h : Inv s) {c : Nat} {q : Phase} (hq : ∀ o, q = .returned o → o < s.live.length) (o : Nat)
    (ho : Phase.returned o ∈ s.calls.set c q) : o < s.live.length := by
  rcases List.mem_or_eq_of_mem_set ho with e | e
  · exact h.known o e
  · exact hq o e.symm

theorem Inv.bound {s : St} (h : Inv s) {o : Nat} (ho : s.inst = some o) : o < s.live.length := by
  have := h.last o ho; omega

theorem step_inv {s s' : St} {a : Act} (h : Inv s) (hs : step s a = some s') : Inv s' := by
  have setc (c : Nat) (q : Phase) (hq : ∀ o, q = .returned o → o < s.live.length) : Inv { s with calls := s.calls.set c q } :=
    ⟨h.pending, h.last, h.live, h.fine, known_set h hq⟩
  cases a with
  | call =>
    cases hs
    refine ⟨h.pending, h.last, h.live, h.fine, fun o ho => ?_⟩
    rcases List.mem_append.mp ho with e | e
    · exact h.known o e
    · simp at e
  | go c t =>
    simp only [step] at hs
    cases hc : s.calls[c]? with
    | none => rw [hc] at hs; cases hs
    | some p =>
      rw [hc] at hs
      cases p with
      | start =>
        simp only [go] at hs
        cases hin : s.inst with
        | some o => rw [hin] at hs; cases hs; rw [← hin]; exact setc c _ (fun o' e => by cases e; exact h.bound hin)
        | none => rw [hin] at hs; cases hs; rw [← hin]; exact setc c _ (fun o' e => nomatch e)
      | slow =>
        simp only [go] at hs
        cases hin : s.inst with
        | some o => rw [hin] at hs; cases hs; rw [← hin]; exact setc c _ (fun o' e => by cases e; exact h.bound hin)
        | none =>
          rw [hin] at hs
          cases t with
          | true => cases hs; rw [← hin]; exact setc c _ (fun o' e => nomatch e)
          | false =>
            cases hs
            have hp := h.pending
            rw [hin] at hp
            have nolive (o : Nat) : s.live[o]? ≠ some true := fun e => by
              have := (h.live o).mp e; rw [hin] at this; cases this
            refine ⟨?_, ?_, ?_, h.fine, ?_⟩
            · show s.pending + 1 = _
              rw [hp]; rfl
            · intro o e; cases e; simp
            · intro o
              constructor
              · intro e
                rcases Nat.lt_or_ge o s.live.length with hlt | hge
                · have e' : (s.live ++ [true])[o]? = some true := e
                  rw [List.getElem?_append_left hlt] at e'
                  exact absurd e' (nolive o)
                · have e' : (s.live ++ [true])[o]? = some true := e
                  have hlt : o < (s.live ++ [true]).length := by
                    rcases Nat.lt_or_ge o (s.live ++ [true]).length with q | q
                    · exact q
                    · rw [List.getElem?_eq_none q] at e'; cases e'
                  simp at hlt
                  have : o = s.live.length := by omega
                  rw [this]
              · intro e; cases e; simp
            · intro o ho
              rcases List.mem_or_eq_of_mem_set ho with e | e
              · have := h.known o e; simp; omega
              · cases e; simp
      | returned o => cases hs
      | failed => cases hs
  | atexit =>
    simp only [step] at hs
    by_cases hp : s.pending = 0
    · rw [if_pos hp] at hs; cases hs
    · rw [if_neg hp] at hs
      have hpd := h.pending
      cases hin : s.inst with
      | none => rw [hin] at hpd; exact absurd hpd hp
      | some o =>
        rw [hin] at hs hpd
        cases hs
        refine ⟨?_, fun o e => (nomatch e), ?_, h.fine, ?_⟩
        · show s.pending - 1 = _
          rw [hpd]; rfl
        · intro o'
          constructor
          · intro e
            exfalso
            have e' : (s.live.set o false)[o']? = some true := e
            by_cases ho : o = o'
            · subst ho
              rw [List.getElem?_set_self (h.bound hin)] at e'; cases e'
            · rw [List.getElem?_set_ne ho] at e'
              have := (h.live o').mp e'
              rw [hin] at this
              exact ho (Option.some.inj this)
          · exact fun e => nomatch e
        · intro o' ho'
          have := h.known o' ho'
          simpa using this

theorem run_inv {s s' : St} {acts : List Act} (h : Inv s) (hr : run s acts = some s') : Inv s' := by
  induction acts generalizing s with
  | nil => cases hr; exact h
  | cons a as ih =>
    simp only [run] at hr
    cases hs : step s a with
    | none => rw [hs] at hr; cases hr
    | some s1 => rw [hs] at hr; exact ih (step_inv h hs) hr

theorem init_inv : Inv init := ⟨rfl, fun o e => (nomatch e), fun o => by simp [init], rfl, fun o ho => by simp [init] at ho⟩

theorem Reachable.inv {s : St} (h : Reachable s) : Inv s := by
  obtain ⟨acts, hr⟩ := h
  exact run_inv init_inv hr

/-- C123: for every interleaving of calls of `PhoenixSingleton::Instance` and exit handlers at most one object is alive at a time. -/
theorem phoenix_one_alive {s : St} (h : Reachable s) {a b : Nat} (ha : s.live[a]? = some true) (hb : s.live[b]? = some true) : a = b := by
  have hi := h.inv
  have e1 := (hi.live a).mp ha
  have e2 := (hi.live b).mp hb
  rw [e1] at e2
  exact Option.some.inj e2

/-- C123: every object made is deleted by the exit handlers: while one is alive, exactly one handler is pending, and when none is pending none
is alive. -/
theorem phoenix_deleted_at_exit {s : St} (h : Reachable s) : s.pending = 0 ↔ ∀ o : Nat, s.live[o]? ≠ some true := by
  have hi := h.inv
  have hp := hi.pending
  cases hin : s.inst with
  | none =>
    rw [hin] at hp
    exact ⟨fun _ o e => (by have := (hi.live o).mp e; rw [hin] at this; cases this), fun _ => hp⟩
  | some o =>
    rw [hin] at hp
    refine ⟨fun e => (by rw [hp] at e; cases e), fun e => absurd ((hi.live o).mpr hin) (e o)⟩

/-- C123: the assertion in the exit handler never fails. -/
theorem phoenix_assert_holds {s : St} (h : Reachable s) : s.aborted = false := h.inv.fine

/-- C123: a call that returns in a step gives an object that is alive at that moment. -/
theorem phoenix_returns_alive {s s' : St} (h : Reachable s) {c : Nat} {t : Bool} {o : Nat} (hs : step s (.go c t) = some s')
    (hr : s'.calls[c]? = some (.returned o)) : s'.live[o]? = some true := by
  have hi' := step_inv h.inv hs
  refine (hi'.live o).mpr ?_
  simp only [step] at hs
  cases hc : s.calls[c]? with
  | none => rw [hc] at hs; cases hs
  | some p =>
    have hlt : c < s.calls.length := by
      rcases Nat.lt_or_ge c s.calls.length with q | q
      · exact q
      · rw [List.getElem?_eq_none q] at hc; cases hc
    rw [hc] at hs
    cases p with
    | start =>
      simp only [go] at hs
      cases hin : s.inst with
      | some o' =>
        rw [hin] at hs; cases hs
        rw [List.getElem?_set_self hlt] at hr
        cases hr; exact rfl
      | none => rw [hin] at hs; cases hs; rw [List.getElem?_set_self hlt] at hr; cases hr
    | slow =>
      simp only [go] at hs
      cases hin : s.inst with
      | some o' =>
        rw [hin] at hs; cases hs
        rw [List.getElem?_set_self hlt] at hr
        cases hr; exact rfl
      | none =>
        rw [hin] at hs
        cases t with
        | true => cases hs; rw [List.getElem?_set_self hlt] at hr; cases hr
        | false => cases hs; rw [List.getElem?_set_self hlt] at hr; cases hr; rfl
    | returned o => cases hs
    | failed => cases hs

/-- C123 does not hold in full: a reference that was returned is not kept alive: an exit handler deletes the object while a caller has it, and
a later call makes another one. -/
theorem phoenix_reference_violated : ∃ s : St, Reachable s ∧ Phase.returned 0 ∈ s.calls ∧ Phase.returned 1 ∈ s.calls ∧
    s.live = [false, true] :=
  ⟨⟨some 1, [.returned 0, .returned 1], [false, true], 1, false⟩,
    ⟨[.call, .go 0 false, .go 0 false, .atexit, .call, .go 1 false, .go 1 false], by decide +kernel⟩, by decide, by decide, rfl⟩

/-- a constructor that throws is tried again by the next call -/
example : (run init [.call, .go 0 true, .go 0 true, .call, .go 1 false, .go 1 false]).map (·.calls) = some [.failed, .returned 0] := by
  decide +kernel
/-- two calls that have both found nothing: one object -/
example : (run init [.call, .call, .go 0 false, .go 1 false, .go 1 false, .go 0 false]).map (fun s => (s.calls, s.live)) =
    some ([.returned 0, .returned 0], [true]) := by decide +kernel

end Verif.Single.Phoenix
