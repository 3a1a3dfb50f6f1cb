import Verif.Math.Accum

/-
C153: Mean, Deviation and Average report the statistics of the values pushed since the last reset.
-/
namespace Verif.Accum

/-! ### Specification -/

/-- The values pushed since the last reset. -/
def since {α : Type} : List α → List (Op α) → List α
  | acc, [] => acc
  | acc, .process v :: os => since (acc ++ [v]) os
  | _, .reset :: os => since [] os

/-- All values pushed. -/
def pushed {α : Type} : List (Op α) → List α
  | [] => []
  | .process v :: os => v :: pushed os
  | .reset :: os => pushed os

/-- Sum of a list of rationals. -/
def total : List Rat → Rat
  | [] => 0
  | v :: vs => v + total vs

/-- Sum of the squared distances from `m`. -/
def sqTotal (m : Rat) : List Rat → Rat
  | [] => 0
  | v :: vs => (v - m) * (v - m) + sqTotal m vs

/-- Exact division. -/
def exact (a b : Rat) : Rat := a / b

/-! ### Lemmas -/

theorem total_append (a b : List Rat) : total (a ++ b) = total a + total b := by
  induction a with
  | nil => simp [total]; grind
  | cons x a ih => simp only [List.cons_append, total, ih]; grind

theorem sqTotal_append (m : Rat) (a b : List Rat) : sqTotal m (a ++ b) = sqTotal m a + sqTotal m b := by
  induction a with
  | nil => simp [sqTotal]; grind
  | cons x a ih => simp only [List.cons_append, sqTotal, ih]; grind

/-- moving the centre -/
theorem sqTotal_shift (m d : Rat) (a : List Rat) :
    sqTotal (m + d) a = sqTotal m a - 2 * d * (total a - a.length * m) + a.length * (d * d) := by
  induction a with
  | nil => simp [sqTotal, total]; grind
  | cons x a ih => simp only [sqTotal, total, List.length_cons, ih]; push_cast; grind

theorem cast_succ_ne (n : Nat) : ((n : Rat) + 1) ≠ 0 := by
  have : ((n + 1 : Nat) : Rat) ≠ 0 := by
    intro h
    have := Rat.natCast_inj.mp (h.trans (by rfl : (0 : Rat) = ((0 : Nat) : Rat)))
    omega
  intro h; apply this; push_cast; exact h

structure MeanInv (s : MeanSt Rat) (vs : List Rat) : Prop where
  count : s.count = vs.length
  mean : s.mean * vs.length = total vs
  zero : vs = [] → s.mean = 0

theorem meanInv_step {s : MeanSt Rat} {vs : List Rat} (h : MeanInv s vs) (v : Rat) :
    MeanInv (meanStep exact s v) (vs ++ [v]) := by
  have hn := cast_succ_ne vs.length
  refine ⟨?_, ?_, ?_⟩
  · simp [meanStep, h.count]
  · simp only [meanStep, exact, h.count, total_append, total, ← h.mean, List.length_append, List.length_cons, List.length_nil]
    push_cast
    have : (v - s.mean) / ((vs.length : Rat) + 1) * ((vs.length : Rat) + 1) = v - s.mean := by
      exact Rat.div_mul_cancel hn
    grind
  · simp

theorem meanInv_run {s : MeanSt Rat} {vs : List Rat} (h : MeanInv s vs) (os : List (Op Rat)) :
    MeanInv (meanRun exact s os).1 (since vs os) := by
  induction os generalizing s vs with
  | nil => exact h
  | cons o os ih =>
    cases o with
    | process v => exact ih (meanInv_step h v)
    | reset => exact ih (vs := []) ⟨by simp [meanOp, meanReset], by simp [meanOp, meanReset, total], by simp [meanOp, meanReset]⟩

theorem meanInv_init : MeanInv (meanInit Rat) [] := ⟨by simp [meanInit], by simp [meanInit, total], by simp [meanInit]⟩

/-- **C153** `Mean::Get` is the arithmetic mean of the values pushed since the last reset, and `0`
if there are none: for every history. -/
theorem mean_exact (os : List (Op Rat)) :
    meanGet (meanRun exact (meanInit Rat) os).1 =
      if since [] os = [] then 0 else total (since [] os) / (since [] os).length := by
  have h := meanInv_run meanInv_init os
  split
  · exact h.zero ‹_›
  · rename_i hne
    have hn : ((since [] os).length : Rat) ≠ 0 := by
      intro hz
      have := Rat.natCast_inj.mp (hz.trans (by rfl : (0 : Rat) = ((0 : Nat) : Rat)))
      exact hne (List.length_eq_zero_iff.mp this)
    rw [← h.mean, meanGet, Rat.mul_div_cancel hn]

example : meanGet (meanRun exact (meanInit Rat) [.process 7, .reset, .process 0, .process 1, .process 5]).1 = 2 := by
  rw [mean_exact]; decide +kernel

structure DevInv (s : DevSt Rat) (vs : List Rat) : Prop where
  count : s.count = vs.length
  mean : s.mean * vs.length = total vs
  dev : s.deviation = sqTotal s.mean vs

theorem devInv_step {s : DevSt Rat} {vs : List Rat} (h : DevInv s vs) (v : Rat) :
    DevInv (devStep exact s v) (vs ++ [v]) := by
  have hn := cast_succ_ne vs.length
  have hd : (v - s.mean) / ((vs.length : Rat) + 1) * ((vs.length : Rat) + 1) = v - s.mean :=
    Rat.div_mul_cancel hn
  refine ⟨?_, ?_, ?_⟩
  · simp [devStep, h.count]
  · simp only [devStep, exact, h.count, total_append, total, ← h.mean, List.length_append, List.length_cons, List.length_nil]
    push_cast
    grind
  · simp only [devStep, exact, h.count, sqTotal_append, sqTotal, sqTotal_shift, h.dev, ← h.mean]
    generalize (v - s.mean) / ((vs.length : Rat) + 1) = d at hd
    generalize (vs.length : Rat) = n at *
    have : v = s.mean + d * (n + 1) := by grind
    subst this
    grind

theorem devInv_run {s : DevSt Rat} {vs : List Rat} (h : DevInv s vs) (os : List (Op Rat)) :
    DevInv (devRun exact s os).1 (since vs os) := by
  induction os generalizing s vs with
  | nil => exact h
  | cons o os ih =>
    cases o with
    | process v => exact ih (devInv_step h v)
    | reset => exact ih (vs := []) ⟨by simp [devOp, devReset], by simp [devOp, devReset, total], by simp [devOp, devReset, sqTotal]⟩

theorem devInv_init : DevInv (devInit Rat) [] := ⟨by simp [devInit], by simp [devInit, total], by simp [devInit, sqTotal]⟩

/-- **C153** `Deviation::Get` is the mean squared distance from the mean (the population variance) of
the values pushed since the last reset, and `0` if there are none: for every history. -/
theorem deviation_exact (os : List (Op Rat)) :
    devGet exact (devRun exact (devInit Rat) os).1 =
      if since [] os = [] then 0
      else sqTotal (total (since [] os) / (since [] os).length) (since [] os) / (since [] os).length := by
  have h := devInv_run devInv_init os
  unfold devGet
  rw [h.count]
  split
  · rename_i hn
    rw [if_neg (by intro he; apply hn; rw [he]; rfl), h.dev, exact, ← h.mean, Rat.mul_div_cancel hn]
  · rename_i hn
    have hz : ((since [] os).length : Rat) = 0 := Classical.not_not.mp hn
    have := Rat.natCast_inj.mp (hz.trans (by rfl : (0 : Rat) = ((0 : Nat) : Rat)))
    rw [if_pos (List.length_eq_zero_iff.mp this)]

example : devGet exact (devRun exact (devInit Rat) [.process 7, .reset, .process 0, .process 1, .process 5]).1 = 14 / 3 := by
  rw [deviation_exact]; decide +kernel

/-- **C153** Both stages pass every value on, unchanged and in order. -/
theorem passes_through {α : Type} [Add α] [Sub α] [Mul α] [OfNat α 0] [OfNat α 1] (div : α → α → α)
    (s : MeanSt α) (d : DevSt α) (os : List (Op α)) :
    (meanRun div s os).2 = pushed os ∧ (devRun div d os).2 = pushed os := by
  induction os generalizing s d with
  | nil => exact ⟨rfl, rfl⟩
  | cons o os ih =>
    cases o with
    | process v => exact ⟨congrArg (v :: ·) (ih _ d).1, congrArg (v :: ·) (ih s _).2⟩
    | reset => exact ⟨(ih _ d).1, (ih s _).2⟩

/-! ### Integer element types -/

/-- **C153** With an integer type the reported mean is not the truncated mean of the values: the
error of each truncated step accumulates. -/
theorem mean_integer_violated :
    ∃ vs : List Int, meanGet (vs.foldl (meanStep Int.tdiv) (meanInit Int)) ≠ vs.sum.tdiv vs.length :=
  ⟨[0, 1, 5], by decide⟩

theorem tdiv_between (a c : Int) (hc : 1 ≤ c) : (0 ≤ a → 0 ≤ a.tdiv c ∧ a.tdiv c ≤ a) ∧ (a ≤ 0 → a ≤ a.tdiv c ∧ a.tdiv c ≤ 0) := by
  have pos : ∀ b : Int, 0 ≤ b → 0 ≤ b.tdiv c ∧ b.tdiv c ≤ b := by
    intro b hb
    rw [Int.tdiv_eq_ediv_of_nonneg hb]
    exact ⟨Int.ediv_nonneg hb (by omega), Int.ediv_le_self c hb⟩
  refine ⟨pos a, fun ha => ?_⟩
  have := pos (-a) (by omega)
  rw [Int.neg_tdiv] at this
  omega

theorem mean_step_between (m v c : Int) (hc : 0 ≤ c) (lo hi : Int) (hm : lo ≤ m ∧ m ≤ hi) (hv : lo ≤ v ∧ v ≤ hi) :
    lo ≤ m + (v - m).tdiv (c + 1) ∧ m + (v - m).tdiv (c + 1) ≤ hi := by
  have h := tdiv_between (v - m) (c + 1) (by omega)
  rcases Int.le_total 0 (v - m) with h1 | h1
  · have := h.1 h1; omega
  · have := h.2 h1; omega

/-- **C153** With an integer type the reported mean still lies between the smallest and the largest
value pushed. -/
theorem mean_integer_partial (lo hi : Int) (vs : List Int) (hne : vs ≠ []) (h : ∀ v ∈ vs, lo ≤ v ∧ v ≤ hi) :
    lo ≤ meanGet (vs.foldl (meanStep Int.tdiv) (meanInit Int)) ∧
      meanGet (vs.foldl (meanStep Int.tdiv) (meanInit Int)) ≤ hi := by
  have key : ∀ (ws : List Int) (s : MeanSt Int), (∀ v ∈ ws, lo ≤ v ∧ v ≤ hi) → 0 ≤ s.count → lo ≤ s.mean ∧ s.mean ≤ hi →
      lo ≤ (ws.foldl (meanStep Int.tdiv) s).mean ∧ (ws.foldl (meanStep Int.tdiv) s).mean ≤ hi := by
    intro ws
    induction ws with
    | nil => intro s _ _ h; exact h
    | cons w ws ih =>
      intro s hw hc hs
      refine ih _ (fun v hv => hw v (List.mem_cons_of_mem _ hv)) (by simp only [meanStep]; omega) ?_
      exact mean_step_between _ _ _ hc _ _ hs (hw w List.mem_cons_self)
  cases vs with
  | nil => exact absurd rfl hne
  | cons w ws =>
    refine key ws _ (fun v hv => h v (List.mem_cons_of_mem _ hv)) (by simp [meanStep, meanInit]) ?_
    have := h w List.mem_cons_self
    simpa [meanStep, meanInit] using this

example : meanGet ([0, 1, 5].foldl (meanStep Int.tdiv) (meanInit Int)) = 1 := by decide

/-- **C153** With an integer type the reported deviation is never negative. -/
theorem deviation_integer_nonneg (vs : List Int) :
    0 ≤ devGet Int.tdiv (vs.foldl (devStep Int.tdiv) (devInit Int)) := by
  have key : ∀ (ws : List Int) (s : DevSt Int), 0 ≤ s.count → 0 ≤ s.deviation →
      0 ≤ (ws.foldl (devStep Int.tdiv) s).count ∧ 0 ≤ (ws.foldl (devStep Int.tdiv) s).deviation := by
    intro ws
    induction ws with
    | nil => intro s h1 h2; exact ⟨h1, h2⟩
    | cons w ws ih =>
      intro s h1 h2
      refine ih _ (by simp only [devStep]; omega) ?_
      have h := tdiv_between (w - s.mean) (s.count + 1) (by omega)
      have hp : 0 ≤ (w - s.mean) * (w - (s.mean + (w - s.mean).tdiv (s.count + 1))) := by
        rcases Int.le_total 0 (w - s.mean) with hh | hh
        · exact Int.mul_nonneg hh (by have := h.1 hh; omega)
        · exact Int.mul_nonneg_of_nonpos_of_nonpos hh (by have := h.2 hh; omega)
      simp only [devStep]; omega
  have ⟨h1, h2⟩ := key vs (devInit Int) (by simp [devInit]) (by simp [devInit])
  unfold devGet
  split
  · exact Int.tdiv_nonneg h2 h1
  · exact Int.le_refl 0

/-! ### Average -/

theorem avg_run (vs : List Int) (s : AvgSt) :
    vs.foldl avgAccumulate s = { accum := s.accum + vs.sum, count := s.count + vs.length } := by
  induction vs generalizing s with
  | nil => simp
  | cons v vs ih =>
    rw [List.foldl_cons, ih]
    simp only [avgAccumulate, List.sum_cons, List.length_cons, AvgSt.mk.injEq]
    omega

/-- **C153** `Average::Get` is the sum of the accumulated values divided by their number, truncated
once, and `0` before the first value. -/
theorem average_exact (vs : List Int) :
    avgGet (vs.foldl avgAccumulate avgInit) = if vs = [] then 0 else vs.sum.tdiv vs.length := by
  rw [avg_run]
  cases vs with
  | nil => rfl
  | cons v vs =>
    simp only [avgGet, avgInit, List.length_cons, reduceCtorEq, if_false, Int.zero_add]
    rw [if_pos (by omega)]

example : avgGet ([0, 1, 5].foldl avgAccumulate avgInit) = 2 := by decide

end Verif.Accum
