import Verif.Diag.Checkpoint
/-
C162: checkpoints and bandwidth reports.
-/
namespace Verif.Diag.Checkpoint

/-- what a profiler should report for checkpoints (name, clock), numbered from `i`, when the clock before them was at `t` -/
def Spec.result (i : Nat) (t : Int) : List (String × Int) → List (String × Int)
  | [] => []
  | (n, c) :: rest => (if n = "" then "#" ++ toString i else n, c - t) :: Spec.result (i + 1) c rest

/-- calls of `Checkpoint` -/
def Spec.checkpoints (cs : List (String × Int)) : List Call := cs.map fun c => .checkpoint c.1 c.2

theorem run_append (p : Prof) (a b : List Call) : run p (a ++ b) = ((run (run p a).1 b).1, (run p a).2 ++ (run (run p a).1 b).2) := by
  induction a generalizing p with
  | nil => simp [run]
  | cons c a ih =>
    rw [List.cons_append, run, run]
    cases h : (step p c).2 <;> simp [ih]

theorem run_checkpoints (s : Int) : ∀ (cs : List (String × Int)) (times : List (String × Int)),
    ∃ more, run ⟨some s, times⟩ (Spec.checkpoints cs) = (⟨some s, times ++ more⟩, []) ∧ ∀ prev, entries (prev - s) more = Spec.result times.length prev cs
  | [], times => ⟨[], by simp [run, Spec.checkpoints], fun _ => rfl⟩
  | (n, c) :: cs, times => by
    obtain ⟨more, h1, h2⟩ := run_checkpoints s cs (times ++ [(nameOf n times.length, c - s)])
    refine ⟨(nameOf n times.length, c - s) :: more, ?_, ?_⟩
    · simp only [Spec.checkpoints, List.map_cons, run, step]
      rw [show List.map (fun c : String × Int => Call.checkpoint c.1 c.2) cs = Spec.checkpoints cs from rfl, h1]
      simp
    · intro prev
      simp only [entries, Spec.result]
      rw [h2 c, List.length_append, List.length_singleton]
      congr 2
      omega

/-- **C162** Whatever has happened before: after `Start` and any checkpoints, `Stop` gives exactly these checkpoints, in order, each with its name (or its number) and the time since the checkpoint before it
(or since `Start`), and leaves a profiler as new. -/
theorem stop_exact (before : List Call) (t0 : Int) (cs : List (String × Int)) :
    run ⟨none, []⟩ (before ++ .start t0 :: (Spec.checkpoints cs ++ [.stop])) = (⟨none, []⟩, (run ⟨none, []⟩ before).2 ++ [Spec.result 0 t0 cs]) := by
  obtain ⟨more, h1, h2⟩ := run_checkpoints t0 cs []
  rw [run_append]
  simp only [run, step]
  rw [run_append, h1]
  simp only [run, step, List.nil_append]
  have := h2 t0
  rw [show t0 - t0 = (0 : Int) by omega, List.length_nil] at this
  rw [this]

/-- **C162** Checkpoints of a profiler that has not been started since its creation or the last `Stop` are ignored. -/
theorem not_started (before : List Call) (cs : List (String × Int)) :
    run ⟨none, []⟩ (before ++ .stop :: (Spec.checkpoints cs ++ [.stop])) = (⟨none, []⟩, (run ⟨none, []⟩ (before ++ [.stop])).2 ++ [[]]) ∧
    run ⟨none, []⟩ (Spec.checkpoints cs) = (⟨none, []⟩, []) := by
  have h : ∀ cs : List (String × Int), run ⟨none, []⟩ (Spec.checkpoints cs) = (⟨none, []⟩, []) := by
    intro cs
    induction cs with
    | nil => rfl
    | cons c cs ih => simp only [Spec.checkpoints, List.map_cons, run, step]; exact ih
  refine ⟨?_, h cs⟩
  rw [run_append, run_append]
  simp only [run, step]
  rw [run_append, h]
  simp [run, step, entries]

/-- the lines that should be written: for each checkpoint the time since the beginning, the time since the one before, the name -/
def Spec.lines (i : Nat) (t0 t : Int) : List (String × Int) → List (Int × Int × String)
  | [] => []
  | (n, c) :: rest => (c - t0, c - t, if n = "" then "#" ++ toString i else n) :: Spec.lines (i + 1) t0 c rest

/-- **C162** An AutoCheckpointProfiler that is enabled writes a line for every checkpoint and one for its end, with exact times; a disabled one writes nothing. -/
theorem auto_exact (enabled : Bool) (t0 t1 : Int) (cs : List (String × Int)) :
    auto enabled t0 cs t1 = if enabled then Spec.lines 0 t0 t0 (cs ++ [("stopping the profiler", t1)]) else [] := by
  have h := stop_exact [] t0 (cs ++ [("stopping the profiler", t1)])
  rw [show (run ⟨none, []⟩ []).2 = [] from rfl] at h
  simp only [List.nil_append, Spec.checkpoints, List.map_append, List.map_cons, List.map_nil, List.append_assoc, List.singleton_append] at h
  unfold auto
  rw [List.cons_append, h]
  simp only []
  have key : ∀ (l : List (String × Int)) (i : Nat) (t : Int), lines (t - t0) (Spec.result i t l) = Spec.lines i t0 t l := by
    intro l
    induction l with
    | nil => intro i t; rfl
    | cons c l ih =>
      intro i t
      obtain ⟨n, c⟩ := c
      simp only [Spec.result, lines, Spec.lines]
      rw [show t - t0 + (c - t) = c - t0 by omega, ih]
  have := key (cs ++ [("stopping the profiler", t1)]) 0 t0
  rw [show t0 - t0 = (0 : Int) by omega] at this
  rw [this]

/-- **C162** The times before the checkpoints add up: the sum is the time from `Start` to the last one. -/
theorem durations_sum : ∀ (cs : List (String × Int)) (i : Nat) (t0 : Int) (n : String) (last : Int),
    ((Spec.result i t0 (cs ++ [(n, last)])).map (·.2)).sum = last - t0
  | [], i, t0, n, last => by simp [Spec.result]
  | (m, c) :: cs, i, t0, n, last => by
    simp only [List.cons_append, Spec.result, List.map_cons, List.sum_cons]
    rw [durations_sum cs (i + 1) c n last]; omega

/-! ### Bandwidth -/

/-- the bytes processed in a history -/
def Spec.bytes : List Ev → Nat
  | [] => 0
  | .processed n :: es => n + Spec.bytes es
  | .report _ :: es => Spec.bytes es

theorem band_run : ∀ (es : List Ev) (b b' : Band) (rs : List Report), b.since ≤ b.total → b.total + Spec.bytes es < 2 ^ 64 → bandRun b es = some (b', rs) →
    b'.total = b.total + Spec.bytes es ∧ (rs.map (·.data)).sum + b'.since = b.since + Spec.bytes es ∧ b'.since ≤ b'.total ∧
    ∀ r ∈ rs, ∃ pre now post, es = pre ++ .report now :: post ∧ r.total = b.total + Spec.bytes pre
  | [], b, b', rs, hb, _, h => by
    simp only [bandRun, Option.some.injEq, Prod.mk.injEq] at h
    obtain ⟨rfl, rfl⟩ := h
    simp only [Spec.bytes]
    exact ⟨rfl, by simp, hb, fun r hr => nomatch hr⟩
  | .processed n :: es, b, b', rs, hb, hlt, h => by
    simp only [Spec.bytes] at hlt ⊢
    simp only [bandRun, bandStep] at h
    rw [Nat.mod_eq_of_lt (show b.since + n < 2 ^ 64 by omega), Nat.mod_eq_of_lt (show b.total + n < 2 ^ 64 by omega)] at h
    cases hr : bandRun { b with since := b.since + n, total := b.total + n } es with
    | none => rw [hr] at h; cases h
    | some x =>
      obtain ⟨b2, r2⟩ := x
      rw [hr] at h
      simp only [List.nil_append, Option.some.injEq, Prod.mk.injEq] at h
      obtain ⟨rfl, rfl⟩ := h
      obtain ⟨h1, h2, h3, h4⟩ := band_run es _ _ _ (by simp only []; omega) (by simp only []; omega) hr
      simp only [] at h1 h2
      refine ⟨by omega, by omega, h3, fun r hr => ?_⟩
      obtain ⟨pre, now, post, e, ht⟩ := h4 r hr
      exact ⟨.processed n :: pre, now, post, by rw [e]; rfl, by simp only [Spec.bytes] at ht ⊢; omega⟩
  | .report now :: es, b, b', rs, hb, hlt, h => by
    simp only [Spec.bytes] at hlt ⊢
    simp only [bandRun, bandStep] at h
    by_cases hz : Int.tdiv (now - b.start) 1000 % 2 ^ 64 = 0
    · rw [if_pos hz] at h; cases h
    · rw [if_neg hz] at h
      simp only [] at h
      cases hr : bandRun { b with since := 0, start := now } es with
      | none => rw [hr] at h; cases h
      | some x =>
        obtain ⟨b2, r2⟩ := x
        rw [hr] at h
        simp only [Option.some.injEq, Prod.mk.injEq] at h
        obtain ⟨rfl, rfl⟩ := h
        obtain ⟨h1, h2, h3, h4⟩ := band_run es _ _ _ (by simp only []; omega) (by simp only []; omega) hr
        simp only [] at h1 h2
        refine ⟨by omega, by simp only [List.singleton_append, List.map_cons, List.sum_cons]; omega, h3, fun r hr => ?_⟩
        rcases List.mem_cons.mp hr with rfl | hr
        · exact ⟨[], now, es, rfl, by simp [Spec.bytes]⟩
        · obtain ⟨pre, now', post, e, ht⟩ := h4 r hr
          exact ⟨.report now :: pre, now', post, by rw [e]; rfl, by simp only [Spec.bytes] at ht ⊢; omega⟩

/-- **C162** As long as no more than 2^64 bytes pass, the bytes of the reports and those not yet reported add up to all that were processed, and each report tells the right total. -/
theorem bandwidth_adds_up {es : List Ev} {t0 : Int} {b : Band} {rs : List Report} (hlt : Spec.bytes es < 2 ^ 64) (h : bandRun ⟨0, 0, t0⟩ es = some (b, rs)) :
    (rs.map (·.data)).sum + b.since = Spec.bytes es ∧ b.total = Spec.bytes es ∧ ∀ r ∈ rs, ∃ pre now post, es = pre ++ .report now :: post ∧ r.total = Spec.bytes pre := by
  obtain ⟨h1, h2, _, h4⟩ := band_run es ⟨0, 0, t0⟩ b rs (Nat.le_refl _) (by simpa using hlt) h
  simp only [Nat.zero_add] at h1 h2 h4
  exact ⟨h2, h1, h4⟩

/-- **C162** The speed of a report: the bytes since the last one by the whole milliseconds since then, in KB per second, rounded down (twice); no failure if at least a millisecond has passed. -/
theorem speed_exact (b : Band) (now : Int) (h1 : 1000 ≤ now - b.start) (h2 : now - b.start < 2 ^ 63) (h3 : b.since * 1000 < 2 ^ 64) :
    bandStep b (.report now) = some (⟨b.total, 0, now⟩, [⟨b.since, b.total, (b.since * 1000 : Nat) / ((now - b.start) / 1000) / 1024⟩]) := by
  have e : Int.tdiv (now - b.start) 1000 = (now - b.start) / 1000 := Int.tdiv_eq_ediv_of_nonneg (by omega)
  have e2 : (now - b.start) / 1000 % 2 ^ 64 = (now - b.start) / 1000 := Int.emod_eq_of_lt (by omega) (by omega)
  unfold bandStep
  simp only []
  rw [e, e2, Nat.mod_eq_of_lt h3, if_neg (by omega)]

/-- **C162** A report within a millisecond of the last one divides by zero. -/
theorem report_at_once_violated : ∃ (b : Band) (now : Int), b.start ≤ now ∧ bandStep b (.report now) = none := ⟨⟨10, 10, 5⟩, 700, by decide, by decide⟩

example : run ⟨none, []⟩ [.checkpoint "early" 1, .start 10, .checkpoint "a" 15, .checkpoint "" 18, .stop, .stop] = (⟨none, []⟩, [[("a", 5), ("#1", 3)], []]) := by decide +kernel
example : auto true 10 [("a", 15)] 19 = [(5, 5, "a"), (9, 4, "stopping the profiler")] := by decide +kernel
example : bandRun ⟨0, 0, 0⟩ [.processed 2048000, .report 1000000, .processed 5] = some (⟨2048005, 5, 1000000⟩, [⟨2048000, 2048000, 2000⟩]) := by decide

end Verif.Diag.Checkpoint
