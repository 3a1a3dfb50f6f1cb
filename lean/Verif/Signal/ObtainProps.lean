import Verif.Signal.Obtain
/-
C159: what is pulled out of a signal is what its populator sends.
-/
namespace Verif.Signal.Obtain
variable {α M σ : Type}

/-! ### Specification -/

/-- everything the populator sends (a dummy connector sends nothing) -/
def Spec.sent : Option (Populator M) → List M
  | none => []
  | some p => p.messages

/-- whether the populator itself throws -/
def Spec.failed : Option (Populator M) → Nat
  | none => 0
  | some p => if p.throws then 1 else 0

/-- the values of reported additions -/
def Spec.additions (l : List (Op × α)) : List α := (l.filter fun m => decide (m.1 = .added)).map Prod.snd

/-- the values the signal is invoked with before the wrapper is destroyed -/
def Spec.invoked : List (Act α) → List α
  | [] => []
  | .invoke v :: as => v :: Spec.invoked as
  | .getFuture :: as => Spec.invoked as
  | .destroy :: _ => []

/-- whether the wrapper is destroyed -/
def Spec.destroyed : List (Act α) → Bool
  | [] => false
  | .destroy :: _ => true
  | _ :: as => Spec.destroyed as

/-! ### Collections -/

theorem sendAll_collect (add : List α → α → List α) : ∀ (ms : List α) (w : List α × Nat),
    sendAll (collect add) w ms = (ms.foldl add w.1, w.2)
  | [], _ => rfl
  | m :: ms, w => by
    rw [sendAll, sendAll_collect add ms]; rfl

theorem foldl_pushBack : ∀ (ms l : List α), ms.foldl pushBack l = l ++ ms
  | [], l => by simp
  | m :: ms, l => by rw [List.foldl_cons, foldl_pushBack ms]; simp [pushBack]

/-- **C159** A vector pulled out of a signal holds exactly what the populator sends, in order; the exception handler hears only of an exception of
the populator itself. -/
theorem vector_exact (impl : Option (Populator α)) : getVector impl = (Spec.sent impl, Spec.failed impl) := by
  cases impl with
  | none => rfl
  | some p =>
    unfold getVector sendCurrentState
    simp only [sendAll_collect, foldl_pushBack, Spec.sent, Spec.failed, List.nil_append, Nat.zero_add]

/-- **C159** If the populator reports operations, the vector holds exactly the added values, in order, and every other message is one call of the exception
handler: nothing is lost silently. -/
theorem vector_op_exact (impl : Option (Populator (Op × α))) :
    (getVectorOp impl).1 = Spec.additions (Spec.sent impl) ∧
      (getVectorOp impl).2 + (Spec.additions (Spec.sent impl)).length = (Spec.sent impl).length + Spec.failed impl := by
  have key : ∀ (ms : List (Op × α)) (w : List α × Nat), (sendAll (collectOp pushBack) w ms).1 = w.1 ++ Spec.additions ms ∧
      (sendAll (collectOp pushBack) w ms).2 + (Spec.additions ms).length = w.2 + ms.length := by
    intro ms
    induction ms with
    | nil => intro w; simp [sendAll, Spec.additions]
    | cons m ms ih =>
      intro w
      obtain ⟨i1, i2⟩ := ih (sendOne (collectOp pushBack) w m)
      rw [sendAll]
      by_cases hm : m.1 = .added
      · have e : sendOne (collectOp pushBack) w m = (w.1 ++ [m.2], w.2) := by simp [sendOne, collectOp, hm, pushBack]
        have ea : Spec.additions (m :: ms) = m.2 :: Spec.additions ms := by simp [Spec.additions, hm]
        rw [e] at i1 i2 ⊢
        rw [ea]
        refine ⟨by rw [i1]; simp, by simp only [List.length_cons] at i2 ⊢; omega⟩
      · have e : sendOne (collectOp pushBack) w m = (w.1, w.2 + 1) := by simp [sendOne, collectOp, hm]
        have ea : Spec.additions (m :: ms) = Spec.additions ms := by simp [Spec.additions, hm]
        rw [e] at i1 i2 ⊢
        rw [ea]
        refine ⟨i1, by simp only [List.length_cons] at i2 ⊢; omega⟩
  cases impl with
  | none => exact ⟨rfl, rfl⟩
  | some p =>
    obtain ⟨h1, h2⟩ := key p.messages ([], 0)
    unfold getVectorOp sendCurrentState
    simp only [Spec.sent, Spec.failed] at *
    refine ⟨by simpa using h1, by omega⟩

theorem insert_spec {lt : α → α → Bool} (htot : ∀ a b, lt a b = false → lt b a = false → a = b) (hirr : ∀ a, lt a a = false)
    (htr : ∀ a b c, lt a b = true → lt b c = true → lt a c = true) :
    ∀ (l : List α) (v : α), l.Pairwise (fun a b => lt a b = true) →
      (insert lt l v).Pairwise (fun a b => lt a b = true) ∧ ∀ x, x ∈ insert lt l v ↔ x = v ∨ x ∈ l
  | [], v, _ => by simp [insert]
  | y :: l, v, hp => by
    have hy := List.pairwise_cons.mp hp
    obtain ⟨i1, i2⟩ := insert_spec htot hirr htr l v hy.2
    unfold insert
    split
    · rename_i h1
      refine ⟨List.pairwise_cons.mpr ⟨?_, i1⟩, ?_⟩
      · intro x hx
        rcases (i2 x).mp hx with rfl | hx
        · exact h1
        · exact hy.1 x hx
      · intro x
        rw [List.mem_cons, i2 x, List.mem_cons]
        constructor
        · rintro (h | h | h)
          · exact .inr (.inl h)
          · exact .inl h
          · exact .inr (.inr h)
        · rintro (h | h | h)
          · exact .inr (.inl h)
          · exact .inl h
          · exact .inr (.inr h)
    · rename_i h1
      split
      · rename_i h2
        refine ⟨List.pairwise_cons.mpr ⟨?_, hp⟩, ?_⟩
        · intro x hx
          rcases List.mem_cons.mp hx with rfl | hx
          · exact h2
          · exact htr _ _ _ h2 (hy.1 x hx)
        · intro x; rw [List.mem_cons]
      · rename_i h2
        have : y = v := htot y v (by simpa using h1) (by simpa using h2)
        refine ⟨hp, fun x => ?_⟩
        subst this
        simp

/-- **C159** A set pulled out of a signal has exactly the elements the populator sends, once each and in order (for a total order). -/
theorem set_exact {lt : α → α → Bool} (htot : ∀ a b, lt a b = false → lt b a = false → a = b) (hirr : ∀ a, lt a a = false)
    (htr : ∀ a b c, lt a b = true → lt b c = true → lt a c = true) (impl : Option (Populator α)) :
    (getSet lt impl).1.Pairwise (fun a b => lt a b = true) ∧ (∀ x, x ∈ (getSet lt impl).1 ↔ x ∈ Spec.sent impl) ∧ (getSet lt impl).2 = Spec.failed impl := by
  have key : ∀ (ms l : List α), l.Pairwise (fun a b => lt a b = true) →
      (ms.foldl (insert lt) l).Pairwise (fun a b => lt a b = true) ∧ ∀ x, x ∈ ms.foldl (insert lt) l ↔ x ∈ l ∨ x ∈ ms := by
    intro ms
    induction ms with
    | nil => intro l hl; exact ⟨hl, fun x => by simp⟩
    | cons m ms ih =>
      intro l hl
      obtain ⟨a1, a2⟩ := insert_spec htot hirr htr l m hl
      obtain ⟨b1, b2⟩ := ih _ a1
      refine ⟨b1, fun x => ?_⟩
      rw [List.foldl_cons, b2 x, a2 x, List.mem_cons]
      constructor
      · rintro ((h | h) | h)
        · exact .inr (.inl h)
        · exact .inl h
        · exact .inr (.inr h)
      · rintro (h | h | h)
        · exact .inl (.inr h)
        · exact .inl (.inl h)
        · exact .inr h
  cases impl with
  | none => exact ⟨List.Pairwise.nil, fun x => by simp [getSet, sendCurrentState, Spec.sent], rfl⟩
  | some p =>
    obtain ⟨h1, h2⟩ := key p.messages [] List.Pairwise.nil
    unfold getSet sendCurrentState
    simp only [sendAll_collect, Spec.sent, Spec.failed, Nat.zero_add]
    exact ⟨h1, fun x => by rw [h2 x]; simp, trivial⟩

/-! ### Single values -/

theorem sendAll_full (slot : σ → M → Option σ) (s : σ) (h : ∀ m, slot s m = none) : ∀ (ms : List M) (n : Nat),
    sendAll slot (s, n) ms = (s, n + ms.length)
  | [], _ => rfl
  | m :: ms, n => by
    rw [sendAll, show sendOne slot (s, n) m = (s, n + 1) by simp [sendOne, h], sendAll_full slot s h ms]
    simp only [List.length_cons, Prod.mk.injEq, true_and]; omega

/-- **C159** A value (or tuple) pulled out of a signal is the first one the populator sends, none if it sends none; every further one is
one call of the exception handler; `HasValueInSignal` tells whether one is sent. -/
theorem value_exact (impl : Option (Populator α)) :
    getValue impl = ((Spec.sent impl).head?, ((Spec.sent impl).length - 1) + Spec.failed impl) ∧
      hasValue impl = !(Spec.sent impl).isEmpty := by
  have h : getValue impl = ((Spec.sent impl).head?, ((Spec.sent impl).length - 1) + Spec.failed impl) := by
    cases impl with
    | none => rfl
    | some p =>
      obtain ⟨ms, t⟩ := p
      unfold getValue sendCurrentState
      cases ms with
      | nil => simp only [sendAll, Spec.sent, Spec.failed]; rfl
      | cons m ms =>
        have e : sendAll obtain ((none : Option α), 0) (m :: ms) = (some m, ms.length) := by
          rw [sendAll, show sendOne obtain ((none : Option α), 0) m = (some m, 0) from rfl, sendAll_full obtain (some m) (fun _ => rfl), Nat.zero_add]
        simp only [e, Spec.sent, Spec.failed, List.head?_cons, List.length_cons, Nat.add_sub_cancel]
  refine ⟨h, ?_⟩
  unfold hasValue
  have : (sendCurrentState obtain none impl).1 = (Spec.sent impl).head? := congrArg Prod.fst h
  rw [this]
  cases Spec.sent impl <;> rfl

/-- **C159** ... the same for signals without values ... -/
theorem void_exact (impl : Option (Populator Unit)) : hasVoid impl = !(Spec.sent impl).isEmpty := by
  cases impl with
  | none => rfl
  | some p =>
    obtain ⟨ms, t⟩ := p
    unfold hasVoid sendCurrentState
    cases ms with
    | nil => rfl
    | cons m ms =>
      have e : sendAll obtainVoid (false, 0) (m :: ms) = (true, ms.length) := by
        rw [sendAll, show sendOne obtainVoid (false, 0) m = (true, 0) from rfl, sendAll_full obtainVoid true (fun _ => rfl), Nat.zero_add]
      simp only [e, Spec.sent]; rfl

/-- **C159** ... and of a nullable type: the first value sent, null if none is sent.  -/
theorem nullable_exact (null : α) (impl : Option (Populator α)) :
    (getNullable null impl).1 = (Spec.sent impl).headD null := by
  unfold getNullable
  rw [(value_exact impl).1]
  cases Spec.sent impl <;> rfl

/-- **C159** For a nullable type the result does not tell a null that was sent from nothing sent: `HasValueInSignal` does. -/
theorem nullable_violated : ∃ a b : Option (Populator (Option Nat)), hasValue a ≠ hasValue b ∧ (getNullable none a).1 = (getNullable none b).1 :=
  ⟨some ⟨[none], false⟩, some ⟨[], false⟩, by decide⟩

/-! ### Futures -/

theorem run_fixed (connected : Bool) : ∀ (as : List (Act α)) (w : Wrapper α) (e : Nat), w.alive = false → run connected w e as = some (w, e)
  | [], _, _, _ => rfl
  | a :: as, w, e, h => by
    have hs : step connected w a = some (w, 0) := by
      cases a <;> simp [step, h]
    simp only [run, hs]
    exact run_fixed connected as w _ h

/-- what is known of a wrapper with the values delivered so far -/
theorem run_spec (connected : Bool) : ∀ (as : List (Act α)) (w : Wrapper α) (e : Nat), w.alive = true → w.retrieved = w.valid →
    ∃ w', run connected w e as = some (w', e + ((if connected then (Spec.invoked as).length else 0) - if w.result = none then 1 else 0)) ∧
      w'.result = match w.result with
        | some r => some r
        | none => match (if connected then Spec.invoked as else []) with
          | v :: _ => some (.value v)
          | [] => if Spec.destroyed as then some .broken else none
  | [], w, e, _, _ => by
    refine ⟨w, ?_, ?_⟩
    · cases connected <;> simp [run, Spec.invoked]
    · cases w.result <;> cases connected <;> rfl
  | .invoke v :: as, w, e, ha, hv => by
    obtain ⟨r, rt, va, al⟩ := w
    simp only at ha hv
    subst ha
    cases connected with
    | false =>
      obtain ⟨w', h1, h2⟩ := run_spec false as ⟨r, rt, va, true⟩ e rfl hv
      refine ⟨w', ?_, ?_⟩
      · simp only [run, step, Bool.and_false, Bool.false_eq_true, if_false, Nat.add_zero] at h1 ⊢
        exact h1
      · rw [h2]; cases r <;> rfl
    | true =>
      cases r with
      | some x =>
        obtain ⟨w', h1, h2⟩ := run_spec true as ⟨some x, rt, va, true⟩ (e + 1) rfl hv
        refine ⟨w', ?_, h2⟩
        simp only [run, step, setValue, Bool.and_true, if_true]
        rw [h1]
        simp [Spec.invoked]; omega
      | none =>
        obtain ⟨w', h1, h2⟩ := run_spec true as ⟨some (.value v), rt, va, true⟩ e rfl hv
        refine ⟨w', ?_, by rw [h2]; simp [Spec.invoked]⟩
        simp only [run, step, setValue, Bool.and_true, if_true, Nat.add_zero]
        rw [h1]
        simp [Spec.invoked]
  | .getFuture :: as, w, e, ha, hv => by
    obtain ⟨r, rt, va, al⟩ := w
    simp only at ha hv
    subst ha hv
    cases rt with
    | true =>
      obtain ⟨w', h1, h2⟩ := run_spec connected as ⟨r, true, true, true⟩ e rfl rfl
      refine ⟨w', ?_, ?_⟩
      · simp only [run, step, if_true, Nat.add_zero]
        rw [h1]; simp [Spec.invoked]
      · rw [h2]; rfl
    | false =>
      obtain ⟨w', h1, h2⟩ := run_spec connected as ⟨r, true, true, true⟩ e rfl rfl
      refine ⟨w', ?_, ?_⟩
      · simp only [run, step, if_true, Nat.add_zero, Bool.false_eq_true, if_false]
        rw [h1]; simp [Spec.invoked]
      · rw [h2]; rfl
  | .destroy :: as, w, e, ha, hv => by
    obtain ⟨r, rt, va, al⟩ := w
    simp only at ha hv
    subst ha
    cases r with
    | some x =>
      refine ⟨⟨some x, rt, va, false⟩, ?_, rfl⟩
      simp only [run, step, if_true]
      rw [run_fixed _ _ _ _ rfl]; simp [Spec.invoked]
    | none =>
      refine ⟨⟨some .broken, rt, va, false⟩, ?_, by simp [Spec.invoked, Spec.destroyed]⟩
      simp only [run, step, if_true]
      rw [run_fixed _ _ _ _ rfl]; simp [Spec.invoked]

/-- **C159** The futures of a `SignalToFutureWrapper`, whatever happens: their result is the first value that the signal delivers to the wrapper, by its populator or
when it is invoked later, until the wrapper is destroyed; broken if it is destroyed before any; none otherwise.  Every further value is one call of the exception handler of the signal;
`GetFuture` never throws; to a dummy connector nothing happens. -/
theorem future_exact (impl : Option (Populator α)) (as : List (Act α)) :
    ∃ w, history impl as = some (w, ((Spec.sent impl ++ if impl.isSome then Spec.invoked as else []).length - 1) + Spec.failed impl) ∧
      w.result = match Spec.sent impl ++ if impl.isSome then Spec.invoked as else [] with
        | v :: _ => some (.value v)
        | [] => if Spec.destroyed as then some .broken else none := by
  cases impl with
  | none =>
    obtain ⟨w', h1, h2⟩ := run_spec false as (⟨none, false, false, true⟩ : Wrapper α) 0 rfl rfl
    exact ⟨w', h1, by rw [h2]; rfl⟩
  | some p =>
    obtain ⟨ms, t⟩ := p
    cases ms with
    | nil =>
      obtain ⟨w', h1, h2⟩ := run_spec true as (⟨none, false, false, true⟩ : Wrapper α) (if t then 1 else 0) rfl rfl
      refine ⟨w', ?_, by rw [h2]; rfl⟩
      unfold history make sendCurrentState
      simp only [sendAll, Nat.zero_add, Option.isSome_some]
      rw [h1]
      simp only [if_true, Spec.sent, Spec.failed, List.nil_append]
      rw [Nat.add_comm]
    | cons m ms =>
      have e : sendAll setValue ((⟨none, false, false, true⟩ : Wrapper α), 0) (m :: ms) = (⟨some (.value m), false, false, true⟩, ms.length) := by
        rw [sendAll, show sendOne setValue ((⟨none, false, false, true⟩ : Wrapper α), 0) m = (⟨some (.value m), false, false, true⟩, 0) from rfl,
          sendAll_full setValue _ (fun _ => rfl), Nat.zero_add]
      obtain ⟨w', h1, h2⟩ := run_spec true as (⟨some (.value m), false, false, true⟩ : Wrapper α) (ms.length + if t then 1 else 0) rfl rfl
      refine ⟨w', ?_, by rw [h2]; rfl⟩
      unfold history make sendCurrentState
      simp only [e, Option.isSome_some]
      rw [h1]
      simp only [if_true, Spec.sent, Spec.failed, List.cons_append, List.length_cons, List.length_append, reduceCtorEq, if_false]
      simp only [Nat.sub_zero, Nat.add_sub_cancel, Option.some.injEq, Prod.mk.injEq, true_and]
      omega

/-! ### Witnesses -/

example : getVectorOp (some ⟨[(.added, 1), (.removed, 5), (.added, 2)], true⟩) = ([1, 2], 2) := by decide
example : getSet (fun a b : Nat => decide (a < b)) (some ⟨[3, 1, 3, 2], false⟩) = ([1, 2, 3], 0) := by decide
example : getValue (some ⟨[7, 8, 9], false⟩) = (some 7, 2) := by decide
example : history (some ⟨[], false⟩) [.getFuture, .invoke 4, .invoke 5, .getFuture, .destroy, .invoke 6] = some (⟨some (.value 4), true, true, false⟩, 1) := by decide
example : history (some (⟨[], false⟩ : Populator Nat)) [.getFuture, .destroy] = some (⟨some .broken, true, true, false⟩, 0) := by decide

end Verif.Signal.Obtain
