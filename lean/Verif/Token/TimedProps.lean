import Verif.Token.Timed

/-
C154: a timed cancellation token obeys every timeout in the chain of tokens it wraps.
-/
namespace Verif.Timed

/-! ### Specification -/

/-- `t` is a chain of timed tokens around `r`, the last one made at the moment `last`; `req` lists for
each of them the moment it was made and the timeout that was asked for. -/
inductive Built (r : Root) : Tok → List (Int × Int) → Int → Prop where
  | root (now : Int) : Built r (.root r) [] now
  | wrap {t req last} (timeout now : Int) : Built r t req last → last ≤ now →
      Built r (t.wrap timeout now) ((now, timeout) :: req) now

/-- Some timeout that was asked for is over. -/
def SomeOver (req : List (Int × Int)) (now : Int) : Prop := ∃ p ∈ req, p.1 + p.2 ≤ now

/-- The innermost token was cancelled by the moment `now`. -/
def Cancelled (r : Root) (now : Int) : Prop := ∃ c, r = .cancellable (some c) ∧ c ≤ now

/-! ### RemainingTime -/

/-- **C154** `RemainingTime`: never negative; zero exactly when expired; otherwise the moment the
timer was started, plus the timeout, minus now.  Restarting makes it as new. -/
theorem remaining_exact (r : Remaining) (now : Int) :
    0 ≤ r.remaining now ∧
    (r.expired now = true ↔ r.remaining now = 0) ∧
    (r.expired now = true ↔ r.start + r.timeout ≤ now) ∧
    (r.expired now = false → now + r.remaining now = r.start + r.timeout) ∧
    r.restart now = Remaining.mk' r.timeout now := by
  obtain ⟨timeout, start⟩ := r
  by_cases h : timeout > now - start
  · have he : (Remaining.mk timeout start).expired now = false := decide_eq_false (by simp only [Remaining.elapsed]; omega)
    have hr : (Remaining.mk timeout start).remaining now = timeout - (now - start) := if_pos h
    rw [he, hr]
    exact ⟨by omega, ⟨fun h => by simp at h, fun h => by omega⟩, ⟨fun h => by simp at h, fun h => by simp only [] at h; omega⟩, fun _ => by simp only []; omega, rfl⟩
  · have he : (Remaining.mk timeout start).expired now = true := decide_eq_true (by simp only [Remaining.elapsed]; omega)
    have hr : (Remaining.mk timeout start).remaining now = 0 := if_neg h
    rw [he, hr]
    exact ⟨by omega, ⟨fun _ => rfl, fun _ => rfl⟩, ⟨fun _ => by simp only []; omega, fun _ => rfl⟩, fun h => by simp at h, rfl⟩

example : (Remaining.mk' 10 100).remaining 103 = 7 ∧ (Remaining.mk' 10 100).expired 110 = true := by decide

/-! ### The chain -/

/-- What is known of a token of the chain. -/
theorem built_facts {r : Root} {t : Tok} {req : List (Int × Int)} {last : Int} (h : Built r t req last)
    (now : Int) (hn : last ≤ now) :
    (t.isTimedOut now = true ↔ SomeOver req now) ∧
    (t.getTimeout now = none ↔ req = []) ∧
    (∀ v, t.getTimeout now = some v → 0 ≤ v ∧ (v = 0 ↔ SomeOver req now) ∧
      (v ≠ 0 → (∀ p ∈ req, now + v ≤ p.1 + p.2) ∧ ∃ p ∈ req, now + v = p.1 + p.2)) := by
  induction h generalizing now with
  | root =>
    refine ⟨?_, ?_, ?_⟩
    · simp [Tok.isTimedOut, SomeOver]
    · simp [Tok.getTimeout]
    · intro v hv; simp [Tok.getTimeout] at hv
  | @wrap t req last timeout made hb hl ih =>
    have ih1 := ih made hl
    have ih2 := ih now (by omega)
    -- the effective timeout
    have key : ∀ e : Int, (if timeout < (t.getTimeout made).getD timeout then timeout else (t.getTimeout made).getD timeout) = e →
        (made + e ≤ now ↔ SomeOver ((made, timeout) :: req) now) ∧
        (now < made + e → (∀ p ∈ (made, timeout) :: req, made + e ≤ p.1 + p.2) ∧ ∃ p ∈ (made, timeout) :: req, made + e = p.1 + p.2) := by
      intro e he
      cases hg : t.getTimeout made with
      | none =>
        have hr := ih1.2.1.mp hg
        subst hr
        rw [hg] at he
        simp at he
        subst he
        refine ⟨by simp [SomeOver], fun _ => ⟨by simp, by simp⟩⟩
      | some v =>
        rw [hg] at he
        simp only [Option.getD_some] at he
        obtain ⟨hv0, hvz, hvn⟩ := ih1.2.2 v hg
        by_cases hz : v = 0
        · obtain ⟨p, hp, hpo⟩ := hvz.mp hz
          have he0 : e ≤ 0 := by split at he <;> omega
          refine ⟨⟨fun _ => ⟨p, List.mem_cons_of_mem _ hp, by omega⟩, fun _ => by omega⟩, fun h => by omega⟩
        · obtain ⟨hall, q, hq, hqe⟩ := hvn hz
          refine ⟨⟨fun h => ?_, fun h => ?_⟩, fun h => ⟨fun p hp => ?_, ?_⟩⟩
          · split at he
            · exact ⟨_, List.mem_cons_self, by simp only []; omega⟩
            · exact ⟨q, List.mem_cons_of_mem _ hq, by omega⟩
          · obtain ⟨p, hp, hpo⟩ := h
            rcases List.mem_cons.mp hp with rfl | hp
            · simp only [] at hpo; split at he <;> omega
            · have := hall p hp; split at he <;> omega
          · rcases List.mem_cons.mp hp with rfl | hp
            · simp only []; split at he <;> omega
            · have := hall p hp; split at he <;> omega
          · split at he
            · exact ⟨_, List.mem_cons_self, by simp only []; omega⟩
            · exact ⟨q, List.mem_cons_of_mem _ hq, by omega⟩
    obtain ⟨k1, k2⟩ := key _ rfl
    refine ⟨?_, ?_, ?_⟩
    · rw [← k1]
      simp only [Tok.wrap, Tok.isTimedOut, (remaining_exact _ now).2.2.1, Remaining.mk']
    · simp [Tok.wrap, Tok.getTimeout]
    · intro v hv
      have hv : (Remaining.mk' (if timeout < (t.getTimeout made).getD timeout then timeout else (t.getTimeout made).getD timeout) made).remaining now = v :=
        Option.some.inj hv
      have hx := remaining_exact (Remaining.mk' (if timeout < (t.getTimeout made).getD timeout then timeout else (t.getTimeout made).getD timeout) made) now
      rw [hv] at hx
      generalize (if timeout < (t.getTimeout made).getD timeout then timeout else (t.getTimeout made).getD timeout) = e at *
      simp only [Remaining.mk'] at hx
      refine ⟨hx.1, ?_, ?_⟩
      · rw [← hx.2.1, hx.2.2.1, k1]
      · intro hz
        have hne : ¬ (made + e ≤ now) := fun h => hz (hx.2.1.mp (hx.2.2.1.mpr h))
        have hf : (Remaining.mk e made).expired now = false := by
          cases hh : (Remaining.mk e made).expired now with
          | false => rfl
          | true => exact absurd (hx.2.2.1.mp hh) hne
        have := hx.2.2.2.1 hf
        rw [this]
        exact k2 (by omega)

/-- **C154** A timed token is timed out exactly when some timeout asked for in the chain is over: the
wrapped tokens' timeouts count, whatever timeout the outer one was given. -/
theorem timed_out_iff {r : Root} {t : Tok} {req : List (Int × Int)} {last : Int} (h : Built r t req last)
    (now : Int) (hn : last ≤ now) : t.isTimedOut now = true ↔ SomeOver req now :=
  (built_facts h now hn).1

/-- **C154** `GetTimeout` is the time left until the earliest end of a timeout in the chain (zero
if one is over), and null only if there is none. -/
theorem get_timeout_exact {r : Root} {t : Tok} {req : List (Int × Int)} {last : Int} (h : Built r t req last)
    (now : Int) (hn : last ≤ now) :
    (t.getTimeout now = none ↔ req = []) ∧
    (∀ v, t.getTimeout now = some v → 0 ≤ v ∧ (v = 0 ↔ SomeOver req now) ∧
      (v ≠ 0 → (∀ p ∈ req, now + v ≤ p.1 + p.2) ∧ ∃ p ∈ req, now + v = p.1 + p.2)) :=
  (built_facts h now hn).2

theorem root_cancelled (r : Root) (now : Int) : r.isCancelled now = true ↔ Cancelled r now := by
  cases r with
  | dummy => simp [Root.isCancelled, Cancelled]
  | cancellable c => cases c <;> simp [Root.isCancelled, Cancelled]

/-- **C154** Cancelling the innermost token cancels every token around it, and nothing else does. -/
theorem cancelled_iff {r : Root} {t : Tok} {req : List (Int × Int)} {last : Int} (h : Built r t req last)
    (now : Int) : t.isCancelled now = true ↔ Cancelled r now := by
  induction h with
  | root => exact root_cancelled r now
  | wrap timeout made hb hl ih => exact ih

/-- **C154** A handler can be registered exactly when the token is neither cancelled nor timed out. -/
theorem register_iff {r : Root} {t : Tok} {req : List (Int × Int)} {last : Int} (h : Built r t req last)
    (now : Int) (hn : last ≤ now) :
    t.tryRegister now = true ↔ ¬ Cancelled r now ∧ ¬ SomeOver req now := by
  induction h generalizing now with
  | root =>
    simp only [Tok.tryRegister, Bool.not_eq_true', ← root_cancelled]
    simp [SomeOver]
  | @wrap t req last timeout made hb hl ih =>
    have h1 := timed_out_iff (Built.wrap timeout made hb hl) now hn
    have h2 := ih now (by omega)
    simp only [Tok.wrap, Tok.isTimedOut] at h1
    simp only [Tok.wrap, Tok.tryRegister, Bool.and_eq_true, Bool.not_eq_true', h2, ← Bool.not_eq_true, h1]
    constructor
    · exact fun ⟨a, b, _⟩ => ⟨b, a⟩
    · exact fun ⟨a, b⟩ => ⟨b, a, fun ⟨p, hp, hh⟩ => b ⟨p, List.mem_cons_of_mem _ hp, hh⟩⟩

theorem sleep_some {r : Root} {t : Tok} {req : List (Int × Int)} {last : Int} (h : Built r t req last)
    (late : Nat) (now : Int) (hn : last ≤ now) (d : Int) :
    ∃ b wake, t.sleep late now (some d) = .returns b wake ∧ now ≤ wake ∧ wake ≤ now + max d 0 + late ∧
      (∀ p ∈ req, wake ≤ max now (p.1 + p.2) + late) ∧
      (b = true → wake = now + max d 0 + late ∧ ¬ Cancelled r now ∧ (∀ c, r = .cancellable (some c) → now + max d 0 ≤ c)) ∧
      (b = false → Cancelled r wake ∨ SomeOver req wake) := by
  induction h generalizing d with
  | root =>
    cases r with
    | dummy => exact ⟨true, _, rfl, by omega, by omega, by simp, by simp [Cancelled], by simp⟩
    | cancellable c =>
      cases c with
      | none => exact ⟨true, _, rfl, by omega, by omega, by simp, by simp [Cancelled], by simp⟩
      | some c =>
        simp only [Tok.sleep, Root.sleep]
        split
        · exact ⟨false, _, rfl, by omega, by omega, by simp, by simp, fun _ => .inl ⟨c, rfl, ‹_›⟩⟩
        · split
          · exact ⟨false, _, rfl, by omega, by omega, by simp, by simp, fun _ => .inl ⟨c, rfl, by omega⟩⟩
          · refine ⟨true, _, rfl, by omega, by omega, by simp, fun _ => ⟨rfl, ?_, ?_⟩, by simp⟩
            · rintro ⟨c', hc, hle⟩; cases hc; omega
            · intro c' hc; cases hc; omega
  | @wrap t req last timeout made hb hl ih =>
    have hw := Built.wrap timeout made hb hl
    have hf := (built_facts hw now hn).2.2
    rw [Tok.wrap] at hf hw ⊢
    generalize Remaining.mk' _ made = rem at *
    obtain ⟨hv0, hvz, hvn⟩ := hf (rem.remaining now) (by simp [Tok.getTimeout])
    simp only [Tok.sleep]
    split
    · rename_i hlt
      obtain ⟨b, wake, hs, h1, h2, h3, h4, h5⟩ := ih (by omega) (rem.remaining now)
      rw [hs]
      refine ⟨false, wake, rfl, h1, by omega, ?_, by simp, fun _ => ?_⟩
      · intro p hp
        by_cases hz : rem.remaining now = 0
        · omega
        · have := (hvn hz).1 p hp; omega
      · cases b with
        | false =>
          rcases h5 rfl with h5 | ⟨p, hp, hpo⟩
          · exact .inl h5
          · exact .inr ⟨p, List.mem_cons_of_mem _ hp, hpo⟩
        | true =>
          have := (h4 rfl).1
          by_cases hz : rem.remaining now = 0
          · obtain ⟨p, hp, hpo⟩ := hvz.mp hz
            exact .inr ⟨p, hp, by omega⟩
          · obtain ⟨p, hp, hpo⟩ := (hvn hz).2
            exact .inr ⟨p, hp, by omega⟩
    · rename_i hlt
      obtain ⟨b, wake, hs, h1, h2, h3, h4, h5⟩ := ih (by omega) d
      refine ⟨b, wake, hs, h1, h2, ?_, h4, ?_⟩
      · intro p hp
        by_cases hz : rem.remaining now = 0
        · omega
        · have := (hvn hz).1 p hp; omega
      · intro hb'
        rcases h5 hb' with h5 | ⟨p, hp, hpo⟩
        · exact .inl h5
        · exact .inr ⟨p, List.mem_cons_of_mem _ hp, hpo⟩

/-- **C154** `Sleep` with a duration always returns.  It sleeps neither longer than asked nor beyond any
timeout of the chain (except for the lateness of the wake-up).  It returns `true` only after the whole
duration and if the token was not cancelled meanwhile; it returns `false` only with the token cancelled or timed out. -/
theorem sleep_exact {r : Root} {t : Tok} {req : List (Int × Int)} {last : Int} (h : Built r t req last)
    (late : Nat) (now : Int) (hn : last ≤ now) (d : Int) :
    ∃ b wake, t.sleep late now (some d) = .returns b wake ∧ now ≤ wake ∧ wake ≤ now + max d 0 + late ∧
      (∀ p ∈ req, wake ≤ max now (p.1 + p.2) + late) ∧
      (b = true → wake = now + max d 0 + late ∧ ¬ Cancelled r now ∧ (∀ c, r = .cancellable (some c) → now + max d 0 ≤ c)) ∧
      (b = false → Cancelled r wake ∨ SomeOver req wake) :=
  sleep_some h late now hn d

/-- **C154** `Sleep` without a duration on a timed token returns `false`, at the latest at the end of
the earliest timeout, with the token cancelled or timed out: it neither blocks forever nor throws, even
around the dummy token. -/
theorem sleep_forever_bounded {r : Root} {t : Tok} {req : List (Int × Int)} {last : Int} (h : Built r t req last)
    (hreq : req ≠ []) (late : Nat) (now : Int) (hn : last ≤ now) :
    ∃ wake, t.sleep late now none = .returns false wake ∧ now ≤ wake ∧
      (∀ p ∈ req, wake ≤ max now (p.1 + p.2) + late) ∧ (Cancelled r wake ∨ SomeOver req wake) := by
  cases h with
  | root => exact absurd rfl hreq
  | @wrap t req l0 timeout _ hb hl =>
    have hw := Built.wrap timeout last hb hl
    have hf := (built_facts hw now hn).2.2
    rw [Tok.wrap] at hf hw ⊢
    generalize Remaining.mk' _ last = rem at *
    obtain ⟨hv0, hvz, hvn⟩ := hf (rem.remaining now) (by simp [Tok.getTimeout])
    obtain ⟨b, wake, hs, h1, h2, h3, h4, h5⟩ := sleep_some hb late now (by omega) (rem.remaining now)
    simp only [Tok.sleep]
    rw [hs]
    refine ⟨wake, rfl, h1, ?_, ?_⟩
    · intro p hp
      by_cases hz : rem.remaining now = 0
      · omega
      · have := (hvn hz).1 p hp; omega
    · cases b with
      | false =>
        rcases h5 rfl with h5 | ⟨p, hp, hpo⟩
        · exact .inl h5
        · exact .inr ⟨p, List.mem_cons_of_mem _ hp, hpo⟩
      | true =>
        have := (h4 rfl).1
        by_cases hz : rem.remaining now = 0
        · obtain ⟨p, hp, hpo⟩ := hvz.mp hz
          exact .inr ⟨p, hp, by omega⟩
        · obtain ⟨p, hp, hpo⟩ := (hvn hz).2
          exact .inr ⟨p, hp, by omega⟩

/-- **C154** A positive duration that ends after some timeout makes `Sleep` return `false`. -/
theorem sleep_beyond {r : Root} {t : Tok} {req : List (Int × Int)} {last : Int} (h : Built r t req last)
    (late : Nat) (now : Int) (hn : last ≤ now) (d : Int) (hd : 0 < d) (p : Int × Int) (hp : p ∈ req)
    (hover : p.1 + p.2 < now + d) : ∃ wake, t.sleep late now (some d) = .returns false wake := by
  cases h with
  | root => simp at hp
  | @wrap t req l0 timeout _ hb hl =>
    have hw := Built.wrap timeout last hb hl
    have hf := (built_facts hw now hn).2.2
    rw [Tok.wrap] at hf hw ⊢
    generalize Remaining.mk' _ last = rem at *
    obtain ⟨hv0, hvz, hvn⟩ := hf (rem.remaining now) (by simp [Tok.getTimeout])
    have hlt : rem.remaining now < d := by
      by_cases hz : rem.remaining now = 0
      · omega
      · have := (hvn hz).1 p hp; omega
    obtain ⟨b, wake, hs, _⟩ := sleep_some hb late now (by omega) (rem.remaining now)
    simp only [Tok.sleep, if_pos hlt, hs]
    exact ⟨wake, rfl⟩

/-- The chain used as the witness below: a token cancelled at 500, a timeout of 100 asked for at 0
and, at 10, one of 1000 around it. -/
def demo : Tok := ((Tok.root (.cancellable (some 500))).wrap 100 0).wrap 1000 10

theorem demo_built : Built (.cancellable (some 500)) demo [(10, 1000), (0, 100)] 10 :=
  .wrap 1000 10 (.wrap 100 0 (.root 0) (by decide)) (by decide)

example : demo.sleep 0 40 (some 1000) = .returns false 100 ∧ demo.sleep 0 40 (some 20) = .returns true 60 ∧
    demo.sleep 3 40 none = .returns false 103 ∧ demo.getTimeout 40 = some 60 ∧ demo.tryRegister 40 = true := by decide

/-- **C154** `Sleep` does not return `false` whenever the token is timed out: a duration of zero
gives `true` on a token that timed out long ago, so a loop around it never ends by the timeout. -/
theorem sleep_zero_violated : demo.isTimedOut 400 = true ∧ demo.sleep 0 400 (some 0) = .returns true 400 := by decide

/-- **C154** A token tests as true exactly while nobody has cancelled it and no timeout of the chain is over. -/
theorem valid_iff {r : Root} {t : Tok} {req : List (Int × Int)} {last : Int} (h : Built r t req last)
    {now : Int} (hn : last ≤ now) : t.valid now = true ↔ ¬ Cancelled r now ∧ ¬ SomeOver req now := by
  rw [← cancelled_iff h now, ← timed_out_iff h now hn]
  simp [Tok.valid]

example : demo.valid 50 = true ∧ demo.valid 400 = false := by decide

end Verif.Timed
