import Verif.Pipeline.DataPipe
/-!
A pipe fed value by value gives what the stages give when each is run over everything the stage before it has given.
-/
namespace Verif.Pipeline.DataPipe

/-- One stage over a whole sequence of values: all it gives, and its state at the end. -/
inductive Runs {V S : Type} (take : S → V → List V × S) : S → List V → List V → S → Prop
  | nil {s} : Runs take s [] [] s
  | cons {s x xs ys s' zs s''} : take s x = (ys, s') → Runs take s' xs zs s'' → Runs take s (x :: xs) (ys ++ zs) s''

/-- The stages one after another, each over the whole sequence. -/
inductive Batch {V S : Type} : List (Stage V S) → List S → List V → List V → List S → Prop
  | none {xs} : Batch [] [] xs xs []
  | stage {st rest s ss xs ys s' zs ss'} : Runs st.take s xs ys s' → Batch rest ss ys zs ss' → Batch (st :: rest) (s :: ss) xs zs (s' :: ss')

theorem Runs.append {V S : Type} {take : S → V → List V × S} {s s' s'' : S} {xs ys zs ws : List V} (h1 : Runs take s xs ys s') (h2 : Runs take s' zs ws s'') :
    Runs take s (xs ++ zs) (ys ++ ws) s'' := by
  induction h1 with
  | nil => exact h2
  | cons e _ ih => rw [List.cons_append, List.append_assoc]; exact .cons e (ih h2)

theorem Batch.append {V S : Type} {stages : List (Stage V S)} {ss ss' : List S} {xs ys : List V} (h1 : Batch stages ss xs ys ss') :
    ∀ {ss'' : List S} {zs ws : List V}, Batch stages ss' zs ws ss'' → Batch stages ss (xs ++ zs) (ys ++ ws) ss'' := by
  induction h1 with
  | none => intro _ _ _ h2; cases h2; exact .none
  | stage r _ ih => intro _ _ _ h2; cases h2 with | stage r2 b2 => exact .stage (r.append r2) (ih b2)

theorem Batch.nil {V S : Type} : ∀ (stages : List (Stage V S)) (ss : List S), ss.length = stages.length → Batch stages ss [] [] ss
  | [], [], _ => .none
  | _ :: rest, _ :: ss, h => .stage .nil (Batch.nil rest ss (by simpa using h))
  | [], _ :: _, h => by simp at h
  | _ :: _, [], h => by simp at h

theorem Batch.length {V S : Type} {stages : List (Stage V S)} {ss ss' : List S} {xs ys : List V} (h : Batch stages ss xs ys ss') :
    ss.length = stages.length ∧ ss'.length = stages.length := by
  induction h with
  | none => exact ⟨rfl, rfl⟩
  | stage _ _ ih => simp [ih.1, ih.2]

theorem feed_batch {V S : Type} {stages : List (Stage V S)} (hp : ∀ ss x, ss.length = stages.length → Batch stages ss [x] (process stages ss x).1 (process stages ss x).2) :
    ∀ (xs : List V) (ss : List S), ss.length = stages.length → Batch stages ss xs (feed (process stages) ss xs).1 (feed (process stages) ss xs).2 := by
  intro xs
  induction xs with
  | nil => intro ss h; exact .nil _ _ h
  | cons x xs ih =>
    intro ss h
    have h1 := hp ss x h
    exact h1.append (ih _ h1.length.2)

theorem process_one {V S : Type} (stages : List (Stage V S)) : ∀ ss x, ss.length = stages.length → Batch stages ss [x] (process stages ss x).1 (process stages ss x).2 := by
  induction stages with
  | nil => intro ss x h; cases ss with
    | nil => exact .none
    | cons => simp at h
  | cons st rest ih =>
    intro ss x h
    cases ss with
    | nil => simp at h
    | cons s ss =>
      have h' : ss.length = rest.length := by simpa using h
      refine .stage (ys := (st.take s x).1) ?_ (feed_batch ih _ ss h')
      have := Runs.cons (take := st.take) (s := s) (x := x) (xs := []) (ys := (st.take s x).1) (s' := (st.take s x).2) rfl .nil
      rwa [List.append_nil] at this

/-- A program that calls `Process` for one value after another gets, all together, what the stages give one after another, each run over the whole sequence the
stage before it gave; the stages end in the same states. -/
theorem process_spec {V S : Type} (stages : List (Stage V S)) (ss : List S) (h : ss.length = stages.length) (xs : List V) :
    Batch stages ss xs (feed (process stages) ss xs).1 (feed (process stages) ss xs).2 :=
  feed_batch (process_one stages) xs ss h

/-- There is only one result of running the stages one after another. -/
theorem batch_unique {V S : Type} {stages : List (Stage V S)} {ss : List S} {xs : List V} : ∀ {ys zs : List V} {t u : List S},
    Batch stages ss xs ys t → Batch stages ss xs zs u → ys = zs ∧ t = u := by
  have runs : ∀ {take : S → V → List V × S} {s : S} {xs ys : List V} {t : S}, Runs take s xs ys t → ∀ {zs : List V} {u : S}, Runs take s xs zs u → ys = zs ∧ t = u := by
    intro take s xs ys t h
    induction h with
    | nil => intro _ _ h2; cases h2; exact ⟨rfl, rfl⟩
    | cons e _ ih =>
      intro _ _ h2
      cases h2 with
      | cons e2 r2 =>
        rw [e] at e2
        injection e2 with a b; subst a b
        obtain ⟨a, b⟩ := ih r2
        exact ⟨by rw [a], b⟩
  intro ys zs t u h
  induction h generalizing zs u with
  | none => intro h2; cases h2; exact ⟨rfl, rfl⟩
  | stage r _ ih =>
    intro h2
    cases h2 with
    | stage r2 b2 =>
      obtain ⟨a, b⟩ := runs r r2
      subst a b
      obtain ⟨a, b⟩ := ih b2
      exact ⟨a, by rw [b]⟩

/-- `Reset` resets every stage once. -/
theorem reset_all {V S : Type} (stages : List (Stage V S)) : ∀ (ss : List S), ss.length = stages.length →
    (reset stages ss).length = stages.length ∧ ∀ (i : Nat) (st : Stage V S) (s : S), stages[i]? = some st → ss[i]? = some s → (reset stages ss)[i]? = some (st.reset s) := by
  induction stages with
  | nil => intro ss h; cases ss <;> simp_all [reset]
  | cons st rest ih =>
    intro ss h
    cases ss with
    | nil => simp at h
    | cons s ss =>
      obtain ⟨h1, h2⟩ := ih ss (by simpa using h)
      refine ⟨by simp [reset, h1], fun i a b ha hb => ?_⟩
      cases i with
      | zero => simp at ha hb; simp [reset, ha, hb]
      | succ i =>
        rw [List.getElem?_cons_succ] at ha hb
        simp [reset, h2 i a b ha hb]

/-- `EndOfData` tells every stage once, in order, and then the caller. -/
theorem end_all_partial {V S : Type} (stages : List (Stage V S)) : ∀ (n : Nat) (ss : List S), ss.length = stages.length →
    (endOfData n stages ss).1 = List.range' n (stages.length + 1) ∧
    ∀ (i : Nat) (st : Stage V S) (s : S), stages[i]? = some st → ss[i]? = some s → (endOfData n stages ss).2[i]? = some (st.finish s) := by
  induction stages with
  | nil => intro n ss h; cases ss <;> simp_all [endOfData]
  | cons st rest ih =>
    intro n ss h
    cases ss with
    | nil => simp at h
    | cons s ss =>
      obtain ⟨h1, h2⟩ := ih (n + 1) ss (by simpa using h)
      refine ⟨?_, fun i a b ha hb => ?_⟩
      · simp only [endOfData]
        rw [h1, List.length_cons, ← List.range'_succ]
      · cases i with
        | zero => simp at ha hb; simp [endOfData, ha, hb]
        | succ i =>
          rw [List.getElem?_cons_succ] at ha hb
          simp [endOfData, h2 i a b ha hb]

/-- A stage that gives every value twice, and one that adds up pairs. -/
example : feed (process [⟨fun s x => ([x, x + 1], s + 1), id, id⟩, ⟨fun s x => if s = 0 then ([], x) else ([s + x], 0), fun _ => 0, id⟩]) [0, 0] [1, 10, 20] =
    (([3, 21, 41] : List Nat), ([3, 0] : List Nat)) := by decide

end Verif.Pipeline.DataPipe
