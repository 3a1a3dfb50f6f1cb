import Verif.Thread.Joined

/-
Unregistration of joined cancellation tokens, property C60 (second part).
-/
namespace Verif.Thread.Joined

/-! ## Specification -/

/-- The state is reached by some run. -/
def Reachable (s : St) : Prop := ∃ acts, run init acts = some s

/-- The handler, which is on the stack of `Wait`, exists. -/
def Pc.inWait : Pc → Bool
  | .out => false
  | .returned _ => false
  | _ => true

/-! ## Invariant -/

structure TokInv (t : Tok) : Prop where
  idle : t.c = .idle ↔ t.cancelled = false
  fin : t.c = .finished ↔ t.done = true
  hand : t.handler = true → t.reg = true
  call : t.c = .calling → t.reg = true

theorem TokInv.register {t : Tok} (h : TokInv t) (hr : t.reg = false) : TokInv t.register := by
  obtain ⟨c, d, hd, r, pc⟩ := t
  obtain ⟨a, b, e, f⟩ := h
  cases c <;> cases d <;> cases hd <;> cases r <;> cases pc <;> constructor <;> simp_all [Tok.register]

theorem TokInv.tryUnregister {t : Tok} (h : TokInv t) : TokInv t.tryUnregister := by
  obtain ⟨c, d, hd, r, pc⟩ := t
  obtain ⟨a, b, e, f⟩ := h
  cases c <;> cases d <;> cases hd <;> cases r <;> cases pc <;> constructor <;> simp_all [Tok.tryUnregister]

theorem TokInv.cancel {t : Tok} (h : TokInv t) (hc : t.cancelled = false) :
    TokInv { t with cancelled := true, c := if t.handler then .calling else .called } := by
  obtain ⟨c, d, hd, r, pc⟩ := t
  obtain ⟨a, b, e, f⟩ := h
  cases c <;> cases d <;> cases hd <;> cases r <;> cases pc <;> constructor <;> simp_all

theorem TokInv.called {t : Tok} (h : TokInv t) (hc : t.c = .calling) : TokInv { t with c := .called } := by
  obtain ⟨c, d, hd, r, pc⟩ := t
  obtain ⟨a, b, e, f⟩ := h
  cases c <;> cases d <;> cases hd <;> cases r <;> cases pc <;> constructor <;> simp_all

theorem TokInv.finish {t : Tok} (h : TokInv t) (hc : t.c = .called) : TokInv { t with c := .finished, done := true } := by
  obtain ⟨c, d, hd, r, pc⟩ := t
  obtain ⟨a, b, e, f⟩ := h
  cases c <;> cases d <;> cases hd <;> cases r <;> cases pc <;> constructor <;> simp_all

theorem TokInv.drop {t : Tok} (h : TokInv t) (hc : (!t.cancelled || t.done) = true) : TokInv { t with handler := false, reg := false } := by
  obtain ⟨c, d, hd, r, pc⟩ := t
  obtain ⟨a, b, e, f⟩ := h
  cases c <;> cases d <;> cases hd <;> cases r <;> cases pc <;> constructor <;> simp_all

theorem TokInv.unhandle {t : Tok} (h : TokInv t) : TokInv { t with handler := false } := by
  obtain ⟨c, d, hd, r, pc⟩ := t
  obtain ⟨a, b, e, f⟩ := h
  cases c <;> cases d <;> cases hd <;> cases r <;> cases pc <;> constructor <;> simp_all

theorem TokInv.dropDone {t : Tok} (h : TokInv t) (hc : t.done = true) (hh : t.handler = false) : TokInv { t with reg := false } := by
  obtain ⟨c, d, hd, r, pc⟩ := t
  obtain ⟨a, b, e, f⟩ := h
  cases c <;> cases d <;> cases hd <;> cases r <;> cases pc <;> constructor <;> simp_all

/-- May the proxy of token `k` be registered here? -/
def allowed : Pc → Bool → Bool
  | .out, _ => false
  | .register k, k' => k && !k'
  | .ready, _ => true
  | .waiting _, _ => true
  | .release _, _ => true
  | .dtor _ _, _ => true
  | .unregister k _, k' => !k || k'
  | .sleep k _ _, k' => !k || k'
  | .relock _, _ => false
  | .returned _, _ => false

structure Inv (s : St) : Prop where
  tok (k : Bool) : TokInv (s.tok k)
  reg (k : Bool) : (s.tok k).reg = true → allowed s.w k = true
  sleep (k : Bool) (r : Res) (b : Bool) : s.w = .sleep k r b →
    (s.tok k).cancelled = true ∧ (s.tok k).handler = false ∧ (s.tok k).reg = true ∧ (b = false → (s.tok k).done = false)
  clash : s.clash = false
  waits : s.w = .ready ∨ (∃ b, s.w = .waiting b) → s.t1.reg = true ∨ s.t2.reg = true

theorem tok_upd_same (s : St) (k : Bool) (t : Tok) : (s.upd k t).tok k = t := by cases k <;> rfl
theorem tok_upd_other (s : St) (k : Bool) (t : Tok) : (s.upd k t).tok (!k) = s.tok (!k) := by cases k <;> rfl
theorem tok_with (s : St) (w : Pc) (k : Bool) : ({ s with w := w } : St).tok k = s.tok k := by cases k <;> rfl
theorem upd_w (s : St) (k : Bool) (t : Tok) : (s.upd k t).w = s.w := by cases k <;> rfl
theorem upd_clash (s : St) (k : Bool) (t : Tok) : (s.upd k t).clash = s.clash := by cases k <;> rfl

/-- A statement about both tokens after one of them has changed. -/
theorem both {s : St} {k : Bool} {t : Tok} {P : Bool → Tok → Prop} (h1 : P k t) (h2 : P (!k) (s.tok (!k))) (k' : Bool) : P k' ((s.upd k t).tok k') := by
  cases k <;> cases k' <;> first | exact h1 | exact h2

theorem init_inv : Inv init := by
  refine ⟨fun k => ?_, fun k h => ?_, (fun k r b h => nomatch h), rfl, ?_⟩
  · cases k <;> constructor <;> simp [init, St.tok, Tok.new]
  · cases k <;> simp [init, St.tok, Tok.new] at h
  · rintro (h | ⟨b, h⟩) <;> cases h

theorem allowed_next (k : Bool) (r : Res) (k' : Bool) (hne : k' = !k) (h : allowed (.unregister k r) k' = true) : allowed (next k r) k' = true := by
  cases k <;> cases k' <;> simp_all [allowed, next]

theorem go_inv {s s' : St} (h : Inv s) (hs : go s = some s') : Inv s' := by
  obtain ⟨t1, t2, w, cl⟩ := s
  have i1 : TokInv t1 := h.tok false
  have i2 : TokInv t2 := h.tok true
  have r1 : t1.reg = true → allowed w false = true := h.reg false
  have r2 : t2.reg = true → allowed w true = true := h.reg true
  have hc : cl = false := h.clash
  subst hc
  have mk (t1' t2' : Tok) (w' : Pc) (a1 : TokInv t1') (a2 : TokInv t2') (b1 : t1'.reg = true → allowed w' false = true)
      (b2 : t2'.reg = true → allowed w' true = true) (hsl : ∀ k r b, w' ≠ .sleep k r b)
      (hw : w' = .ready ∨ (∃ b, w' = .waiting b) → t1'.reg = true ∨ t2'.reg = true) : Inv ⟨t1', t2', w', false⟩ := by
    refine ⟨fun k => ?_, fun k hk => ?_, fun k r b e => absurd e (hsl k r b), rfl, hw⟩
    · cases k
      · exact a1
      · exact a2
    · cases k
      · exact b1 hk
      · exact b2 hk
  cases w with
  | out => cases hs
  | register k =>
    cases k with
    | false =>
      have n1 : t1.reg = false := by cases e : t1.reg <;> simp_all [allowed]
      have n2 : t2.reg = false := by cases e : t2.reg <;> simp_all [allowed]
      have nh : t1.handler = false := by
        cases e : t1.handler
        · rfl
        · have := i1.hand e; rw [n1] at this; cases this
      have hcl : (false || (!t1.cancelled && t1.handler)) = false := by rw [nh]; simp
      simp only [go, hcl, Option.some.injEq] at hs
      subst hs
      exact mk _ _ _ (i1.register n1) i2 (fun _ => rfl) (fun e => by rw [n2] at e; cases e) (fun _ _ _ e => nomatch e)
        (by rintro (e | ⟨b, e⟩) <;> cases e)
    | true =>
      have n2 : t2.reg = false := by cases e : t2.reg <;> simp_all [allowed]
      have nh : t2.handler = false := by
        cases e : t2.handler
        · rfl
        · have := i2.hand e; rw [n2] at this; cases this
      have hcl : (false || (!t2.cancelled && t2.handler)) = false := by rw [nh]; simp
      simp only [go, hcl, Option.some.injEq] at hs
      subst hs
      by_cases hany : (t1.reg || t2.register.reg) = true
      · rw [if_pos hany]
        exact mk _ _ _ i1 (i2.register n2) (fun _ => rfl) (fun _ => rfl) (fun _ _ _ e => nomatch e)
          (fun _ => by rwa [Bool.or_eq_true] at hany)
      · rw [if_neg hany]
        rw [Bool.or_eq_true, not_or] at hany
        exact mk _ _ _ i1 (i2.register n2) (fun e => absurd e hany.1) (fun e => absurd e hany.2) (fun _ _ _ e => nomatch e)
          (by rintro (e | ⟨b, e⟩) <;> cases e)
  | ready =>
    cases hs
    exact mk _ _ _ i1 i2 (fun _ => rfl) (fun _ => rfl) (fun _ _ _ e => nomatch e) (fun _ => h.waits (Or.inl rfl))
  | waiting b =>
    cases b with
    | false => cases hs
    | true =>
      cases hs
      exact mk _ _ _ i1 i2 (fun _ => rfl) (fun _ => rfl) (fun _ _ _ e => nomatch e) (by rintro (e | ⟨b, e⟩) <;> cases e)
  | release k =>
    cases k with
    | false =>
      cases hs
      exact mk _ _ _ i1.tryUnregister i2 (fun _ => rfl) (fun _ => rfl) (fun _ _ _ e => nomatch e) (by rintro (e | ⟨b, e⟩) <;> cases e)
    | true =>
      simp only [go, Option.some.injEq] at hs
      subst hs
      by_cases hany : (t1.reg || t2.tryUnregister.reg) = true
      · rw [if_pos hany]
        exact mk _ _ _ i1 i2.tryUnregister (fun _ => rfl) (fun _ => rfl) (fun _ _ _ e => nomatch e) (by rintro (e | ⟨b, e⟩) <;> cases e)
      · rw [if_neg hany]
        rw [Bool.or_eq_true, not_or] at hany
        exact mk _ _ _ i1 i2.tryUnregister (fun e => absurd e hany.1) (fun e => absurd e hany.2) (fun _ _ _ e => nomatch e)
          (by rintro (e | ⟨b, e⟩) <;> cases e)
  | dtor k r =>
    cases k with
    | false =>
      cases hs
      exact mk _ _ _ i1.tryUnregister i2 (fun _ => rfl) (fun _ => rfl) (fun _ _ _ e => nomatch e) (by rintro (e | ⟨b, e⟩) <;> cases e)
    | true =>
      simp only [go, Option.some.injEq] at hs
      subst hs
      by_cases hany : (t1.reg || t2.tryUnregister.reg) = true
      · rw [if_pos hany]
        exact mk _ _ _ i1 i2.tryUnregister (fun _ => rfl) (fun _ => rfl) (fun _ _ _ e => nomatch e) (by rintro (e | ⟨b, e⟩) <;> cases e)
      · rw [if_neg hany]
        rw [Bool.or_eq_true, not_or] at hany
        exact mk _ _ _ i1 i2.tryUnregister (fun e => absurd e hany.1) (fun e => absurd e hany.2) (fun _ _ _ e => nomatch e)
          (by rintro (e | ⟨b, e⟩) <;> cases e)
  | unregister k r =>
    have nosl (k' : Bool) (r' : Res) (b : Bool) : next k r ≠ .sleep k' r' b := by cases k <;> exact fun e => nomatch e
    have nowt : next k r = .ready ∨ (∃ b, next k r = .waiting b) → False := by
      rintro (e | ⟨b, e⟩) <;> cases k <;> cases e
    simp only [go] at hs
    cases k with
    | false =>
      simp only [St.tok, St.upd, if_neg Bool.false_ne_true] at hs
      cases hr : t1.reg with
      | false =>
        rw [hr, if_neg Bool.false_ne_true] at hs
        cases hs
        exact mk _ _ _ i1 i2 (fun e => by rw [hr] at e; cases e) (fun _ => rfl) (nosl) (fun e => (nowt e).elim)
      | true =>
        rw [hr, if_pos rfl] at hs
        by_cases hd : (!t1.cancelled || t1.done) = true
        · rw [if_pos hd] at hs
          cases hs
          exact mk _ _ _ (i1.drop hd) i2 (fun e => nomatch e) (fun _ => rfl) nosl (fun e => (nowt e).elim)
        · rw [if_neg hd] at hs
          cases hs
          rw [Bool.or_eq_true, not_or] at hd
          refine ⟨fun k => ?_, fun k hk => ?_, fun k r b e => ?_, rfl, by rintro (e | ⟨b, e⟩) <;> cases e⟩
          · cases k
            · have := i1.unhandle; rw [hr] at this; exact this
            · exact i2
          · cases k <;> rfl
          · cases e
            have c1 : t1.cancelled = true := by simpa using hd.1
            have c2 : t1.done = false := by simpa using hd.2
            exact ⟨c1, rfl, rfl, fun _ => c2⟩
    | true =>
      simp only [St.tok, St.upd, if_pos] at hs
      have n1 : t1.reg = false := by
        cases e : t1.reg
        · rfl
        · have := r1 e; cases this
      cases hr : t2.reg with
      | false =>
        rw [hr, if_neg Bool.false_ne_true] at hs
        cases hs
        exact mk _ _ _ i1 i2 (fun e => by rw [n1] at e; cases e) (fun e => by rw [hr] at e; cases e) nosl (fun e => (nowt e).elim)
      | true =>
        rw [hr, if_pos rfl] at hs
        by_cases hd : (!t2.cancelled || t2.done) = true
        · rw [if_pos hd] at hs
          cases hs
          exact mk _ _ _ i1 (i2.drop hd) (fun e => by rw [n1] at e; cases e) (fun e => nomatch e) nosl (fun e => (nowt e).elim)
        · rw [if_neg hd] at hs
          cases hs
          rw [Bool.or_eq_true, not_or] at hd
          refine ⟨fun k => ?_, fun k hk => ?_, fun k r b e => ?_, rfl, by rintro (e | ⟨b, e⟩) <;> cases e⟩
          · cases k
            · exact i1
            · have := i2.unhandle; rw [hr] at this; exact this
          · cases k
            · have hk' : t1.reg = true := hk
              rw [n1] at hk'; cases hk'
            · rfl
          · cases e
            have c1 : t2.cancelled = true := by simpa using hd.1
            have c2 : t2.done = false := by simpa using hd.2
            exact ⟨c1, rfl, rfl, fun _ => c2⟩
  | sleep k r b =>
    cases b with
    | false => cases hs
    | true =>
      obtain ⟨s1, s2, s3, s4⟩ := h.sleep k r true rfl
      have nosl (k' : Bool) (r' : Res) (b : Bool) : next k r ≠ .sleep k' r' b := by cases k <;> exact fun e => nomatch e
      have nowt : next k r = .ready ∨ (∃ b, next k r = .waiting b) → False := by
        rintro (e | ⟨b, e⟩) <;> cases k <;> cases e
      simp only [go] at hs
      cases k with
      | false =>
        simp only [St.tok, St.upd, if_neg Bool.false_ne_true] at hs s1 s2 s3 s4
        cases hd : t1.done with
        | true =>
          rw [hd, if_pos rfl] at hs
          cases hs
          have := i1.dropDone hd s2
          rw [hd] at this
          exact mk _ _ _ this i2 (fun e => nomatch e) (fun _ => rfl) nosl (fun e => (nowt e).elim)
        | false =>
          rw [hd, if_neg Bool.false_ne_true] at hs
          cases hs
          refine ⟨h.tok, fun k hk => ?_, fun k r b e => ?_, rfl, by rintro (e | ⟨b, e⟩) <;> cases e⟩
          · cases k <;> rfl
          · cases e; exact ⟨s1, s2, s3, fun _ => hd⟩
      | true =>
        simp only [St.tok, St.upd, if_pos] at hs s1 s2 s3 s4
        have n1 : t1.reg = false := by
          cases e : t1.reg
          · rfl
          · have := r1 e; cases this
        cases hd : t2.done with
        | true =>
          rw [hd, if_pos rfl] at hs
          cases hs
          have := i2.dropDone hd s2
          rw [hd] at this
          exact mk _ _ _ i1 this (fun e => by rw [n1] at e; cases e) (fun e => nomatch e) nosl (fun e => (nowt e).elim)
        | false =>
          rw [hd, if_neg Bool.false_ne_true] at hs
          cases hs
          refine ⟨h.tok, fun k hk => ?_, fun k r b e => ?_, rfl, by rintro (e | ⟨b, e⟩) <;> cases e⟩
          · cases k
            · have hk' : t1.reg = true := hk
              rw [n1] at hk'; cases hk'
            · rfl
          · cases e; exact ⟨s1, s2, s3, fun _ => hd⟩
  | relock r =>
    cases hs
    exact mk _ _ _ i1 i2 r1 r2 (fun _ _ _ e => nomatch e) (by rintro (e | ⟨b, e⟩) <;> cases e)
  | returned r => cases hs

/-- Only the place of the waiter changes. -/
theorem moved {s : St} (h : Inv s) (w : Pc) (hr : ∀ k, (s.tok k).reg = true → allowed w k = true) (hs : ∀ k r b, w ≠ .sleep k r b)
    (hw : w = .ready ∨ (∃ b, w = .waiting b) → s.t1.reg = true ∨ s.t2.reg = true) : Inv { s with w := w } := by
  refine ⟨fun k => ?_, fun k e => ?_, fun k r b e => absurd e (hs k r b), h.clash, hw⟩
  · rw [tok_with]; exact h.tok k
  · rw [tok_with] at e; exact hr k e

/-- A token changes, but not its registration. -/
theorem changed {s : St} (h : Inv s) (k : Bool) (t : Tok) (ht : TokInv t) (hreg : t.reg = (s.tok k).reg) (w : Pc)
    (hal : ∀ k, allowed s.w k = true → allowed w k = true)
    (hsl : ∀ k' r b, w = .sleep k' r b → ∃ b', s.w = .sleep k' r b' ∧ (b = false → b' = false) ∧
      (k' = k → t.cancelled = true ∧ t.handler = (s.tok k).handler ∧ (b = false → t.done = false)))
    (hw : w = .ready ∨ (∃ b, w = .waiting b) → s.w = .ready ∨ (∃ b, s.w = .waiting b)) : Inv { s.upd k t with w := w } := by
  have hr1 (k' : Bool) : ((s.upd k t).tok k').reg = (s.tok k').reg := both (P := fun k' t' => t'.reg = (s.tok k').reg) hreg rfl k'
  refine ⟨fun k' => ?_, fun k' e => ?_, fun k' r b e => ?_, by rw [← h.clash]; exact upd_clash s k t, fun e => ?_⟩
  · rw [tok_with]; exact both (P := fun _ t' => TokInv t') ht (h.tok _) k'
  · rw [tok_with, hr1] at e; exact hal k' (h.reg k' e)
  · obtain ⟨b', e1, e2, e3⟩ := hsl k' r b e
    obtain ⟨s1, s2, s3, s4⟩ := h.sleep k' r b' e1
    rw [tok_with]
    by_cases hk : k' = k
    · subst hk
      obtain ⟨f1, f2, f3⟩ := e3 rfl
      rw [tok_upd_same]
      exact ⟨f1, f2.trans s2, hreg.trans s3, f3⟩
    · have : k' = !k := by cases k <;> cases k' <;> simp_all
      subst this
      rw [tok_upd_other]
      exact ⟨s1, s2, s3, fun hb => s4 (e2 hb)⟩
  · have := h.waits (hw e)
    have a1 : (s.upd k t).t1.reg = s.t1.reg := hr1 false
    have a2 : (s.upd k t).t2.reg = s.t2.reg := hr1 true
    show (s.upd k t).t1.reg = true ∨ (s.upd k t).t2.reg = true
    rw [a1, a2]; exact this

theorem none_reg {s : St} (h : Inv s) (hw : ∀ k, allowed s.w k = false) (k : Bool) : (s.tok k).reg = false := by
  cases e : (s.tok k).reg
  · rfl
  · have := h.reg k e; rw [hw k] at this; cases this

theorem step_inv {s s' : St} (h : Inv s) (a : Act) (hs : step s a = some s') : Inv s' := by
  have plain (w : Pc) (hr : ∀ k, (s.tok k).reg = true → allowed w k = true) (hsl : ∀ k r b, w ≠ .sleep k r b)
      (hw : ¬ (w = .ready ∨ ∃ b, w = .waiting b)) : Inv { s with w := w } := moved h w hr hsl (fun e => absurd e hw)
  cases a with
  | go => exact go_inv h hs
  | enter =>
    simp only [step] at hs
    split at hs
    · rename_i hw
      cases hs
      exact plain _ (fun k e => by rw [none_reg h (by rw [hw]; intro k; rfl) k] at e; cases e) (fun _ _ _ e => nomatch e)
        (by rintro (e | ⟨b, e⟩) <;> cases e)
    · rename_i hw
      cases hs
      exact plain _ (fun k e => by rw [none_reg h (by rw [hw]; intro k; rfl) k] at e; cases e) (fun _ _ _ e => nomatch e)
        (by rintro (e | ⟨b, e⟩) <;> cases e)
    · cases hs
  | wake =>
    simp only [step] at hs
    split at hs
    · rename_i b hw
      cases hs
      exact moved h _ (fun k _ => rfl) (fun _ _ _ e => nomatch e) (fun _ => h.waits (Or.inr ⟨b, hw⟩))
    · cases hs
  | timeout =>
    simp only [step] at hs
    split at hs
    · cases hs
      exact plain _ (fun k _ => rfl) (fun _ _ _ e => nomatch e) (by rintro (e | ⟨b, e⟩) <;> cases e)
    · cases hs
  | leave =>
    simp only [step] at hs
    split at hs
    · rename_i hw
      cases hs
      exact plain _ (fun k e => by rw [none_reg h (by rw [hw]; intro k; rfl) k] at e; cases e) (fun _ _ _ e => nomatch e)
        (by rintro (e | ⟨b, e⟩) <;> cases e)
    · cases hs
  | wakeSleep =>
    simp only [step] at hs
    split at hs
    · rename_i k r b hw
      cases hs
      obtain ⟨s1, s2, s3, s4⟩ := h.sleep k r b hw
      refine ⟨fun k => ?_, fun k' e => ?_, fun k' r' b' e => ?_, h.clash, by rintro (e | ⟨b, e⟩) <;> cases e⟩
      · rw [tok_with]; exact h.tok k
      · rw [tok_with] at e
        have := h.reg k' e
        rw [hw] at this
        exact this
      · cases e
        rw [tok_with]
        exact ⟨s1, s2, s3, (fun e => nomatch e)⟩
    · cases hs
  | cancel k =>
    simp only [step] at hs
    split at hs
    · cases hs
    · rename_i hc
      cases hs
      have hc' : (s.tok k).cancelled = false := by simpa using hc
      have := changed h k { s.tok k with cancelled := true, c := if (s.tok k).handler then .calling else .called } ((h.tok k).cancel hc') rfl s.w
        (fun _ e => e) (fun k' r b e => ⟨b, e, id, fun e' => by
          subst e'
          exact ⟨rfl, rfl, (h.sleep k' r b e).2.2.2⟩⟩) id
      have e : ∀ t : Tok, ({ s.upd k t with w := s.w } : St) = s.upd k t := by intro t; cases k <;> rfl
      rw [e] at this
      exact this
  | call k =>
    simp only [step] at hs
    split at hs
    · rename_i hc
      cases hs
      refine changed h k { s.tok k with c := .called } ((h.tok k).called hc.1) rfl _ ?_ ?_ ?_
      · intro k' e
        cases hw : s.w <;> rw [hw] at e <;> exact e
      · intro k' r b e
        have e : s.w = .sleep k' r b := by
          cases hw : s.w <;> rw [hw] at e <;> first | exact e | cases e
        refine ⟨b, e, id, fun e' => ?_⟩
        subst e'
        obtain ⟨s1, s2, s3, s4⟩ := h.sleep k' r b e
        exact ⟨s1, rfl, s4⟩
      · intro e
        cases hw : s.w <;> rw [hw] at e <;> first | exact e | exact Or.inr ⟨_, rfl⟩
    · cases hs
  | finish k =>
    simp only [step] at hs
    split at hs
    · rename_i hc
      cases hs
      refine changed h k { s.tok k with c := .finished, done := true } ((h.tok k).finish hc) rfl _ ?_ ?_ ?_
      · intro k' e
        cases hw : s.w <;> rw [hw] at e <;> exact e
      · intro k' r b e
        cases hw : s.w <;> rw [hw] at e <;> first | (cases e; done) | skip
        rename_i k2 r2 b2
        cases e
        refine ⟨b2, rfl, ?_, fun e' => ?_⟩
        · intro e; cases b2
          · rfl
          · cases e
        · subst e'
          obtain ⟨s1, s2, s3, s4⟩ := h.sleep k' r b2 hw
          refine ⟨s1, rfl, fun e => ?_⟩
          cases b2 <;> simp at e
      · intro e
        cases hw : s.w <;> rw [hw] at e <;> first | exact e | (rcases e with e | ⟨b, e⟩ <;> cases e)
    · cases hs

theorem run_inv (acts : List Act) : ∀ {s s' : St}, Inv s → run s acts = some s' → Inv s' := by
  induction acts with
  | nil => intro s s' h hr; cases hr; exact h
  | cons a as ih =>
    intro s s' h hr
    simp only [run] at hr
    cases e : step s a with
    | none => rw [e] at hr; cases hr
    | some s1 => rw [e] at hr; exact ih (step_inv h a e) hr

theorem reachable_inv {s : St} (h : Reachable s) : Inv s := by
  obtain ⟨acts, e⟩ := h
  exact run_inv acts init_inv e

/-- The handler is registered with token `k` if it could be, and the waiter has not been woken up. -/
def fresh : Pc → Bool → Bool
  | .register k, k' => k && !k'
  | .ready, _ => true
  | .waiting b, _ => !b
  | _, _ => false

/-- As `fresh`, woken up or not. -/
def engaged : Pc → Bool → Bool
  | .waiting _, _ => true
  | w, k => fresh w k

structure Pend (w : Pc) (k : Bool) (t : Tok) : Prop where
  call : fresh w k = true → t.reg = true → t.cancelled = true → t.c = .calling
  hand : engaged w k = true → t.cancelled = false → t.handler = true ∧ t.reg = true

theorem Pend.off {w : Pc} {k : Bool} {t : Tok} (h : engaged w k = false) : Pend w k t := by
  refine ⟨fun e => ?_, fun e => by rw [h] at e; cases e⟩
  cases w <;> simp_all [engaged, fresh]

theorem Pend.new (w : Pc) (k : Bool) (t : Tok) : Pend w k t.register := by
  obtain ⟨c, d, hd, r, pc⟩ := t
  cases c <;> constructor <;> simp_all [Tok.register]

theorem Pend.to {w w' : Pc} {k : Bool} {t : Tok} (h : Pend w k t) (h1 : fresh w' k = true → fresh w k = true)
    (h2 : engaged w' k = true → engaged w k = true) : Pend w' k t := ⟨fun e => h.call (h1 e), fun e => h.hand (h2 e)⟩

theorem Pend.step {s s' : St} (h : ∀ k, Pend s.w k (s.tok k)) (a : Act) (hs : step s a = some s') (k : Bool) : Pend s'.w k (s'.tok k) := by
  obtain ⟨t1, t2, w, cl⟩ := s
  have h1 : Pend w false t1 := h false
  have h2 : Pend w true t2 := h true
  have mk {t1' t2' : Tok} {w' : Pc} {cl' : Bool} (a1 : Pend w' false t1') (a2 : Pend w' true t2') :
      Pend (⟨t1', t2', w', cl'⟩ : St).w k ((⟨t1', t2', w', cl'⟩ : St).tok k) := by
    cases k
    · exact a1
    · exact a2
  have off {w' : Pc} {t1' t2' : Tok} {cl' : Bool} (e : ∀ k, engaged w' k = false) :
      Pend (⟨t1', t2', w', cl'⟩ : St).w k ((⟨t1', t2', w', cl'⟩ : St).tok k) := mk (.off (e _)) (.off (e _))
  cases a with
  | enter =>
    cases w <;> simp only [Joined.step] at hs <;> cases hs <;> exact off (by intro k; cases k <;> rfl)
  | wake =>
    cases w <;> simp only [Joined.step] at hs <;> cases hs
    exact mk (h1.to (fun e => nomatch e) (fun _ => rfl)) (h2.to (fun e => nomatch e) (fun _ => rfl))
  | timeout =>
    cases w <;> simp only [Joined.step] at hs <;> cases hs
    exact off (by intro k; cases k <;> rfl)
  | leave =>
    cases w <;> simp only [Joined.step] at hs <;> cases hs
    exact off (by intro k; cases k <;> rfl)
  | wakeSleep =>
    cases w <;> simp only [Joined.step] at hs <;> cases hs
    exact off (by intro k; cases k <;> rfl)
  | cancel k' =>
    simp only [Joined.step] at hs
    split at hs
    · cases hs
    · rename_i hc
      cases hs
      have gen {w : Pc} {j : Bool} {t : Tok} (hp : Pend w j t) (hc : t.cancelled = false) :
          Pend w j { t with cancelled := true, c := if t.handler then .calling else .called } := by
        refine ⟨fun e _ _ => ?_, fun _ e => nomatch e⟩
        have : engaged w j = true := by cases w <;> simp_all [engaged, fresh]
        exact if_pos (hp.hand this hc).1
      cases k' with
      | false => exact mk (gen h1 (by simpa [St.tok] using hc)) h2
      | true => exact mk h1 (gen h2 (by simpa [St.tok] using hc))
  | call k' =>
    simp only [Joined.step] at hs
    split at hs
    · rename_i hc
      cases hs
      have oth {j : Bool} {t : Tok} (hp : Pend w j t) (hw : w.holds = false) :
          Pend w.notified j t := by
        cases w <;> simp only [Pc.holds] at hw <;> first | (cases hw; done) | exact hp | skip
        exact hp.to (fun e => nomatch e) (fun _ => rfl)
      have gen {j : Bool} {t : Tok} (hp : Pend w j t) (hw : w.holds = false) :
          Pend w.notified j { t with c := .called } := by
        have := oth hp hw
        refine ⟨fun e => ?_, this.hand⟩
        cases w <;> simp only [Pc.holds] at hw <;> first | (cases hw; done) | (cases e; done) | skip
      cases k' with
      | false => exact mk (gen h1 hc.2) (oth h2 hc.2)
      | true => exact mk (oth h1 hc.2) (gen h2 hc.2)
    · cases hs
  | finish k' =>
    simp only [Joined.step] at hs
    split at hs
    · rename_i hc
      cases hs
      have oth {j : Bool} {t : Tok} (hp : Pend w j t) :
          Pend (w.ended k') j t := by
        cases w <;> first | exact hp | exact .off rfl
      have gen {j : Bool} {t : Tok} (hp : Pend w j t) (hc : t.c = .called) :
          Pend (w.ended k') j { t with c := .finished, done := true } := by
        have := oth hp
        refine ⟨fun e1 e2 e3 => ?_, this.hand⟩
        have := this.call e1 e2 e3
        rw [hc] at this; cases this
      cases k' with
      | false => exact mk (gen h1 hc) (oth h2)
      | true => exact mk (oth h1) (gen h2 hc)
    · cases hs
  | go =>
    have hs : go ⟨t1, t2, w, cl⟩ = some s' := hs
    cases w with
    | out => cases hs
    | returned r => cases hs
    | register j =>
      cases j with
      | false => cases hs; exact mk (.new _ _ _) (.off rfl)
      | true =>
        simp only [go, Option.some.injEq] at hs
        subst hs
        by_cases hany : (t1.reg || t2.register.reg) = true
        · rw [if_pos hany]
          exact mk (h1.to (fun _ => rfl) (fun _ => rfl)) (.new _ _ _)
        · rw [if_neg hany]
          exact off (by intro k; cases k <;> rfl)
    | ready => cases hs; exact mk (h1.to (fun _ => rfl) (fun _ => rfl)) (h2.to (fun _ => rfl) (fun _ => rfl))
    | waiting b =>
      cases b <;> cases hs
      exact off (by intro k; cases k <;> rfl)
    | release j =>
      cases j with
      | false => cases hs; exact off (by intro k; cases k <;> rfl)
      | true =>
        simp only [go, Option.some.injEq] at hs
        subst hs
        split <;> exact off (by intro k; cases k <;> rfl)
    | dtor j r =>
      cases j with
      | false => cases hs; exact off (by intro k; cases k <;> rfl)
      | true =>
        simp only [go, Option.some.injEq] at hs
        subst hs
        split <;> exact off (by intro k; cases k <;> rfl)
    | unregister j r =>
      simp only [go] at hs
      split at hs
      · split at hs <;> cases hs
        · exact .off (by cases j <;> rfl)
        · exact .off (by cases j <;> rfl)
      · cases hs
        exact .off (by cases j <;> rfl)
    | sleep j r b =>
      cases b
      · cases hs
      · simp only [go] at hs
        split at hs <;> cases hs
        · exact .off (by cases j <;> rfl)
        · exact .off (by cases j <;> rfl)
    | relock r => cases hs; exact off (by intro k; cases k <;> rfl)

theorem Pend.run (acts : List Act) : ∀ {s s' : St}, (∀ k, Pend s.w k (s.tok k)) → Joined.run s acts = some s' → ∀ k, Pend s'.w k (s'.tok k) := by
  induction acts with
  | nil => intro s s' h hr; cases hr; exact h
  | cons a as ih =>
    intro s s' h hr
    simp only [Joined.run] at hr
    cases e : Joined.step s a with
    | none => rw [e] at hr; cases hr
    | some s1 => rw [e] at hr; exact ih (fun k => Pend.step h a e k) hr

theorem reachable_pend {s : St} (h : Reachable s) (k : Bool) : Pend s.w k (s.tok k) := by
  obtain ⟨acts, e⟩ := h
  exact Pend.run acts (fun k => .off (by cases k <;> rfl)) e k

/-! ## The theorems -/

/-- Once `Wait` has returned (and before the next one), no thread that cancels a token is in the waiter's handler or about to call it, and neither
token refers to it any more; the handler lives on the stack of `Wait`. -/
theorem handler_unused {s : St} (h : Reachable s) (hw : s.w.inWait = false) (k : Bool) :
    (s.tok k).c ≠ .calling ∧ (s.tok k).handler = false ∧ (s.tok k).reg = false := by
  have i := reachable_inv h
  have hr : (s.tok k).reg = false := by
    refine none_reg i (fun k => ?_) k
    cases e : s.w <;> rw [e] at hw <;> first | rfl | cases hw
  refine ⟨fun e => ?_, ?_, hr⟩
  · have := (i.tok k).call e; rw [hr] at this; cases this
  · cases e : (s.tok k).handler
    · rfl
    · have := (i.tok k).hand e; rw [hr] at this; cases this

/-- A handler is never registered on top of another one: the check "already registered" does not fail. -/
theorem no_clash {s : St} (h : Reachable s) : s.clash = false := (reachable_inv h).clash

/-- Within `Wait`, apart from the wait on the condition variable itself, there is always somebody who can go on: the waiter, or the thread whose
`Cancel` it waits for.  In particular no deadlock on the user's mutex. -/
theorem no_deadlock {s : St} (h : Reachable s) (hw : s.w.inWait = true) (hn : s.w ≠ .waiting false) :
    (step s .go).isSome = true ∨ ∃ k, (step s (.call k)).isSome = true ∨ (step s (.finish k)).isSome = true := by
  have i := reachable_inv h
  cases e : s.w with
  | out => rw [e] at hw; cases hw
  | returned r => rw [e] at hw; cases hw
  | register k => left; simp only [step, go, e]; cases k <;> rfl
  | ready => left; simp only [step, go, e]; rfl
  | waiting b =>
    cases b
    · exact absurd e hn
    · left; simp only [step, go, e]; rfl
  | release k => left; simp only [step, go, e]; cases k <;> rfl
  | dtor k r => left; simp only [step, go, e]; cases k <;> rfl
  | unregister k r =>
    left; simp only [step, go, e]
    split
    · split <;> rfl
    · rfl
  | relock r => left; simp only [step, go, e]; rfl
  | sleep k r b =>
    cases b with
    | true =>
      left; simp only [step, go, e]
      split <;> rfl
    | false =>
      right
      refine ⟨k, ?_⟩
      obtain ⟨s1, s2, s3, s4⟩ := i.sleep k r false e
      cases ec : (s.tok k).c with
      | idle => rw [(i.tok k).idle.mp ec] at s1; cases s1
      | calling => left; simp only [step, ec, e]; rfl
      | called => right; simp only [step, ec]; rfl
      | finished => rw [(i.tok k).fin.mp ec] at s4; cases s4 rfl

/-- A thread that cancels a token is never stuck: when it cannot go on it waits for the user's mutex, and either the waiter who has it can go on,
or the waiter has returned and its caller has the mutex. -/
theorem cancel_goes_on {s : St} (h : Reachable s) (k : Bool) (hc : (s.tok k).c = .calling ∨ (s.tok k).c = .called) :
    (step s (.call k)).isSome = true ∨ (step s (.finish k)).isSome = true ∨ (step s .go).isSome = true := by
  rcases hc with hc | hc
  · cases hh : s.w.holds with
    | false => left; simp only [step, hc, hh]; rfl
    | true =>
      right; right
      have i := reachable_inv h
      have hr := i.reg k ((i.tok k).call hc)
      cases e : s.w <;> rw [e] at hh hr <;> first | (cases hh; done) | (cases hr; done) | skip
      all_goals simp only [step, go, e]
      · rename_i k'; cases k' <;> rfl
      · rfl
      · rename_i k'; cases k' <;> rfl
      · rename_i k' r; cases k' <;> rfl
  · right; left; simp only [step, hc]; rfl

/-- No lost wake-up: while the waiter waits and nothing has woken it up, a token that is not cancelled has its handler, and of a token that has
been cancelled the thread that cancels it has yet to call the handler, which it can do now and which wakes the waiter up; unless the token had been
cancelled before the waiter came and does not count (`Verif.Thread.Joining.joining_violated`), but then the other token does. -/
theorem cancel_wakes_partial {s : St} (h : Reachable s) (hw : s.w = .waiting false) (k : Bool) :
    ((s.tok k).cancelled = false ∧ (s.tok k).handler = true) ∨
    (∃ s', step s (.call k) = some s' ∧ s'.w = .waiting true) ∨
    ((s.tok k).cancelled = true ∧ (s.tok k).reg = false ∧ (s.tok (!k)).reg = true) := by
  have p := reachable_pend h k
  have i := reachable_inv h
  cases hc : (s.tok k).cancelled with
  | false => exact Or.inl ⟨rfl, (p.hand (by rw [hw]; rfl) hc).1⟩
  | true =>
    right
    cases hr : (s.tok k).reg with
    | true =>
      left
      have hcl := p.call (by rw [hw]; rfl) hr hc
      refine ⟨{ s.upd k { s.tok k with c := .called } with w := .waiting true }, ?_, rfl⟩
      simp only [step, hcl, hw]
      rfl
    | false =>
      right
      refine ⟨rfl, rfl, ?_⟩
      have := i.waits (Or.inr ⟨false, hw⟩)
      cases k with
      | false => exact this.resolve_left (by rw [show s.t1.reg = false from hr]; exact Bool.false_ne_true)
      | true => exact this.resolve_right (by rw [show s.t2.reg = false from hr]; exact Bool.false_ne_true)

/-- A token that is not cancelled when the waiter registers with it counts: it is registered with, -/
theorem registers {s s' : St} (k : Bool) (hw : s.w = .register k) (hc : (s.tok k).cancelled = false) (hg : step s .go = some s') :
    (s'.tok k).reg = true := by
  cases k <;> simp only [step, go, hw, Option.some.injEq] at hg <;> subst hg <;> simp_all [St.tok, Tok.register]

/-- and stays so until the waiter has been woken up, whatever happens. -/
theorem stays_registered {s s' : St} (k : Bool) (a : Act) (hs : step s a = some s') (hr : (s.tok k).reg = true)
    (hw : (s.w = .register true ∧ k = false) ∨ s.w = .ready ∨ s.w = .waiting false) : (s'.tok k).reg = true := by
  have upd (j : Bool) (t : Tok) (w : Pc) (h : t.reg = (s.tok j).reg) : (({ s.upd j t with w := w } : St).tok k).reg = true := by
    rw [tok_with]
    by_cases e : k = j
    · subst e; rw [tok_upd_same, h]; exact hr
    · have : k = !j := by cases k <;> cases j <;> simp_all
      subst this; rw [tok_upd_other]; exact hr
  cases a with
  | cancel j =>
    simp only [step] at hs
    split at hs
    · cases hs
    · cases hs
      have := upd j { s.tok j with cancelled := true, c := if (s.tok j).handler then .calling else .called } s.w rfl
      rwa [tok_with] at this
  | call j =>
    simp only [step] at hs
    split at hs
    · cases hs; exact upd j _ _ rfl
    · cases hs
  | finish j =>
    simp only [step] at hs
    split at hs
    · cases hs; exact upd j _ _ rfl
    · cases hs
  | go =>
    rcases hw with ⟨hw, rfl⟩ | hw | hw <;> simp only [step, go, hw] at hs <;> cases hs
    · exact hr
    · cases k <;> exact hr
  | _ => rcases hw with ⟨hw, rfl⟩ | hw | hw <;> simp only [step, hw] at hs <;> cases hs <;> (cases k <;> exact hr)

/-- What the waiter who has been woken up returns: `broadcasted` if no token it is registered with has been cancelled when it takes its handlers
back, and then both handlers are gone and it has not waited for anything; `cancelled` otherwise. -/
theorem woken_result {s : St} (h : Reachable s) (hw : s.w = .waiting true) :
    ((∀ k, (s.tok k).reg = true → (s.tok k).cancelled = false) →
      ∃ s', run s [.go, .go, .go] = some s' ∧ s'.w = .returned .broadcasted ∧ ∀ k, (s'.tok k).handler = false ∧ (s'.tok k).reg = false) ∧
    (∀ k, (s.tok k).reg = true → (s.tok k).cancelled = true →
      ∃ s', run s [.go, .go, .go] = some s' ∧ s'.w = .dtor false .cancelled ∧ (s'.tok k).handler = false) := by
  have i := reachable_inv h
  have hh1 := (i.tok false).hand
  have hh2 := (i.tok true).hand
  obtain ⟨⟨c1, d1, e1, r1, p1⟩, ⟨c2, d2, e2, r2, p2⟩, w, cl⟩ := s
  simp only [St.tok] at hh1 hh2
  dsimp only at hw
  subst hw
  refine ⟨fun hn => ?_, fun k hr hc => ?_⟩
  · have n1 := hn false
    have n2 := hn true
    cases r1 <;> cases r2 <;> simp_all [run, step, go, St.tok, Tok.tryUnregister] <;> (intro k; cases k <;> simp_all)
  · cases k <;> cases r1 <;> cases r2 <;> cases c1 <;> cases c2 <;> simp_all [run, step, go, St.tok, Tok.tryUnregister]

/-- A waiter who has timed out returns without waiting for anything if neither token has been cancelled. -/
theorem timedOut_result {s : St} (h : Reachable s) (b : Bool) (hw : s.w = .waiting b)
    (hn : ∀ k, (s.tok k).reg = true → (s.tok k).cancelled = false) :
    ∃ s', run s [.timeout, .go, .go] = some s' ∧ s'.w = .returned .timedOut ∧ ∀ k, (s'.tok k).handler = false ∧ (s'.tok k).reg = false := by
  have i := reachable_inv h
  have hh1 := (i.tok false).hand
  have hh2 := (i.tok true).hand
  obtain ⟨⟨c1, d1, e1, r1, p1⟩, ⟨c2, d2, e2, r2, p2⟩, w, cl⟩ := s
  simp only [St.tok] at hh1 hh2
  dsimp only at hw
  subst hw
  have n1 := hn false
  have n2 := hn true
  cases r1 <;> cases r2 <;> simp_all [run, step, go, St.tok, Tok.tryUnregister] <;> (intro k; cases k <;> simp_all)

/-- The result a waiter that is leaving is going to return, or has returned. -/
def result : Pc → Option Res
  | .dtor _ r => some r
  | .unregister _ r => some r
  | .sleep _ r _ => some r
  | .relock r => some r
  | .returned r => some r
  | _ => none

/-- It does not change any more: nothing but the caller's next move ends it. -/
theorem result_stays {s s' : St} (a : Act) (hs : step s a = some s') (r : Res) (hr : result s.w = some r) (ha : a ≠ .enter ∧ a ≠ .leave) :
    result s'.w = some r := by
  obtain ⟨t1, t2, w, cl⟩ := s
  cases a with
  | enter => exact absurd rfl ha.1
  | leave => exact absurd rfl ha.2
  | go =>
    simp only [step, go] at hs
    cases w <;> dsimp only at hs hr <;> try (cases hr; done)
    all_goals simp only [result, Option.some.injEq] at hr
    all_goals subst hr
    · rename_i k r; cases k <;> cases hs
      · rfl
      · dsimp only; split <;> rfl
    · rename_i k r
      split at hs
      · split at hs <;> cases hs
        · cases k <;> rfl
        · rfl
      · cases hs; cases k <;> rfl
    · rename_i k r b
      cases b <;> dsimp only at hs
      · cases hs
      · split at hs <;> cases hs
        · cases k <;> rfl
        · rfl
    · cases hs; rfl
    · cases hs
  | cancel k =>
    simp only [step] at hs
    split at hs <;> cases hs
    rw [upd_w]; exact hr
  | call k =>
    simp only [step] at hs
    split at hs <;> cases hs
    cases w <;> first | exact hr | cases hr
  | finish k =>
    simp only [step] at hs
    split at hs <;> cases hs
    cases w <;> first | exact hr | cases hr
  | _ => simp only [step] at hs; cases w <;> dsimp only at hs hr <;> first | (cases hs; done) | (cases hr; done) | (cases hs; exact hr)

/-- Not vacuous: both tokens are cancelled while the waiter waits, the second one only when it is being unregistered. -/
def sampleActs : List Act := [.enter, .go, .go, .go, .cancel false, .call false, .go, .go, .cancel true, .go, .go, .go, .go, .finish false]

example : (run init sampleActs).map (fun s => (s.w, s.t1.c, s.t2.c)) = some (.sleep false .cancelled true, .finished, .calling) := by decide +kernel
example : (run init (sampleActs ++ [.go, .go, .call true, .finish true, .go, .go])).map (fun s => (s.w, s.t1.reg, s.t2.reg)) =
    some (.returned .cancelled, false, false) := by decide +kernel
example : (run init [.enter, .go, .go, .go, .cancel true]).map (fun s => (s.w, s.t2.c)) = some (.waiting false, .calling) := by decide +kernel
example : (run init [.enter, .go, .go, .go, .wake]).map (fun s => (s.w, s.t1.reg, s.t2.reg, s.t1.cancelled)) = some (.waiting true, true, true, false) := by decide +kernel
example : (run init [.enter, .go, .go, .go, .cancel true, .call true]).map (fun s => (s.w, s.t2.reg, s.t2.cancelled)) = some (.waiting true, true, true) := by decide +kernel
/-- The full claim fails: the first token is cancelled before the wait, and the waiter waits. -/
example : (run init [.cancel false, .finish false, .enter, .go, .go, .go]).map (fun s => (s.w, s.t1.done)) = some (.waiting false, true) := by decide +kernel

end Verif.Thread.Joined
