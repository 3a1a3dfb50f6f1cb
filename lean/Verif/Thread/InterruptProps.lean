import Verif.Thread.Interrupt

/-
C193.  Scopes of enabled and disabled interruption points.
-/
namespace Verif.Thread.Interrupt

/-- Specification.  What code sees when interruption points are on iff `on`, and scopes count iff `heed`: a scope turns them on or off for its body alone; scopes in handlers of signals do
not count. -/
inductive Sees : (heed on : Bool) → Code → Seen → Prop
  | nop {heed on} : Sees heed on .nop ⟨[], false, false⟩
  | passed {heed on p} (h : ¬(on = true ∧ p = true)) : Sees heed on (.point p) ⟨[on], false, false⟩
  | interrupted {heed} : Sees heed true (.point true) ⟨[true], false, true⟩
  | throw {heed on} : Sees heed on .throw ⟨[], true, false⟩
  | left {heed on a b s} (h : Sees heed on a s) (he : s.threw = true ∨ s.interrupted = true) : Sees heed on (.seq a b) s
  | seq {heed on a b ps s} (ha : Sees heed on a ⟨ps, false, false⟩) (hb : Sees heed on b s) : Sees heed on (.seq a b) ⟨ps ++ s.points, s.threw, s.interrupted⟩
  | scope {on v b s} (h : Sees true v b s) : Sees true on (.scope v b) s
  | unheeded {on v b s} (h : Sees false on b s) : Sees false on (.scope v b) s
  | signal {heed on b s} (h : Sees false on b s) : Sees heed on (.signal b) s

theorem enter_yes {t : Thread} (v : Bool) (h : changeable t = true) : enter t v = ({ t with cancel := v }, ⟨true, t.cancel⟩) := by
  rw [enter, if_pos h]
  rfl

theorem enter_no {t : Thread} (v : Bool) (h : changeable t = false) : enter t v = (t, ⟨false, false⟩) := by
  rw [enter, if_neg (by rw [h]; exact Bool.false_ne_true)]

theorem count_back (t : Thread) : count (count t 1) (-1) = t := by
  cases t with
  | mk c n => simp only [count]; congr 1; omega

/-- C193.  However code is left (by its end, an exception, an interruption), and whatever signals arrive meanwhile, interruption points are as before it. -/
theorem restored : ∀ (c : Code) (t : Thread), (run t c).1 = t
  | .nop, _ => rfl
  | .point _, _ => rfl
  | .throw, _ => rfl
  | .seq a b, t => by
    simp only [run]
    split
    · exact restored a t
    · show (run (run t a).1 b).1 = t
      rw [restored a t]
      exact restored b t
  | .scope v b, t => by
    simp only [run]
    rw [restored b]
    cases h : changeable t with
    | true => rw [enter_yes v h]; rfl
    | false => rw [enter_no v h]; rfl
  | .signal b, t => by
    simp only [run]
    rw [restored b]
    exact count_back t

/-- Inside of a handler. -/
theorem deep {t : Thread} (h : 0 ≤ t.disabled) : changeable (count t 1) = false ∧ 0 ≤ (count t 1).disabled ∧ (count t 1).cancel = t.cancel := by
  refine ⟨?_, ?_, rfl⟩
  · exact decide_eq_false (by show ¬ (t.disabled + 1 ≤ 0); omega)
  · show 0 ≤ t.disabled + 1; omega

/-- C193.  Exactly what code sees in any thread: scopes count outside of handlers of signals. -/
theorem sees : ∀ (c : Code) (t : Thread), 0 ≤ t.disabled → Sees (changeable t) t.cancel c (run t c).2
  | .nop, _, _ => .nop
  | .point p, t, _ => by
    simp only [run]
    cases h1 : t.cancel <;> cases p
    · exact .passed (by simp)
    · exact .passed (by simp)
    · exact .passed (by simp)
    · exact .interrupted
  | .throw, _, _ => .throw
  | .seq a b, t, h => by
    have ha := sees a t h
    have hb := sees b t h
    have hr := restored a t
    simp only [run]
    split
    · next he => exact .left ha (by simpa using he)
    · next he =>
      rw [hr]
      simp only [Bool.or_eq_true, not_or, Bool.not_eq_true] at he
      have e : (run t a).2 = ⟨(run t a).2.points, false, false⟩ := by
        cases hx : (run t a).2
        rw [hx] at he
        obtain ⟨h1, h2⟩ := he
        simp only at h1 h2
        rw [h1, h2]
      rw [e] at ha
      exact .seq ha hb
  | .scope v b, t, h => by
    simp only [run]
    cases hc : changeable t with
    | true =>
      rw [enter_yes v hc]
      have := sees b { t with cancel := v } h
      have e : changeable { t with cancel := v } = true := hc
      rw [e] at this
      exact .scope this
    | false =>
      rw [enter_no v hc]
      have := sees b t h
      rw [hc] at this
      exact .unheeded this
  | .signal b, t, h => by
    simp only [run]
    obtain ⟨h1, h2, h3⟩ := deep h
    have := sees b (count t 1) h2
    rw [h1, h3] at this
    exact .signal this

/-- Specification.  Whether all points of the code passed are masked by scopes: no scope turns them on again. -/
def NoneOn : Code → Prop
  | .seq a b => NoneOn a ∧ NoneOn b
  | .scope v b => v = false ∧ NoneOn b
  | .signal b => NoneOn b
  | _ => True

theorem masked_aux {heed on : Bool} {c : Code} {s : Seen} (h : Sees heed on c s) : on = false → NoneOn c → s.interrupted = false ∧ ∀ x ∈ s.points, x = false := by
  induction h with
  | nop => intro _ _; simp
  | passed _ => intro ho _; simp [ho]
  | interrupted => intro ho; simp at ho
  | throw => intro _ _; simp
  | left _ _ ih => intro ho hn; exact ih ho hn.1
  | seq _ _ ih1 ih2 =>
    intro ho hn
    have h1 := ih1 ho hn.1
    have h2 := ih2 ho hn.2
    refine ⟨h2.1, fun x hx => ?_⟩
    rcases List.mem_append.mp hx with hx | hx
    · exact h1.2 x hx
    · exact h2.2 x hx
  | scope _ ih => intro _ hn; exact ih hn.1 hn.2
  | unheeded _ ih => intro ho hn; exact ih ho hn.2
  | signal _ ih => intro ho hn; exact ih ho hn

/-- C193.  A function wrapped with DisableInterruptionPoints is never interrupted (outside of handlers of signals), even if signals arrive meanwhile, unless it turns
the points on itself. -/
theorem masked_partial {c : Code} (hn : NoneOn c) {t : Thread} (h0 : t.disabled = 0) : (run t (.scope false c)).2.interrupted = false ∧
    ∀ x ∈ (run t (.scope false c)).2.points, x = false := by
  have hs := sees (.scope false c) t (by omega)
  have hc : changeable t = true := by simp [changeable, h0]
  rw [hc] at hs
  generalize t.cancel = on at hs
  generalize (run t (.scope false c)).2 = s at hs ⊢
  cases hs with
  | scope h => exact masked_aux h rfl hn

/-- C193.  Turning points on in a scope lets a request interrupt there, though they were off. -/
theorem unmasked_partial {t : Thread} (h0 : t.disabled = 0) : (run t (.scope true (.point true))).2.interrupted = true := by
  have hc : changeable t = true := by simp [changeable, h0]
  simp only [run]
  rw [enter_yes true hc]
  rfl

/-- C193 does not hold in the handler of a signal: its scopes do nothing, it may be interrupted where it turned points off. -/
theorem signal_violated : (run ⟨true, 0⟩ (.signal (.scope false (.point true)))).2 = ⟨[true], false, true⟩ := rfl

/-- Points off, on again, off after that; an exception; the state is as before. -/
example : run ⟨true, 0⟩ (.scope false (.seq (.point true) (.seq (.scope true (.point false)) (.seq (.point true) .throw)))) = (⟨true, 0⟩, ⟨[false, true, false], true, false⟩) := rfl

example : NoneOn (.seq (.point true) (.signal (.scope false (.point true)))) := ⟨trivial, rfl, trivial⟩

end Verif.Thread.Interrupt
