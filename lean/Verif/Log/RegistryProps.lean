import Verif.Log.Registry

/-! C146: settings of named loggers; messages reach the sinks. -/

namespace Verif.Log

/-! ### Specification -/

namespace Spec

/-- The settings made for a name, in the order of the calls. -/
def made (name : Text) : Settings → List RegAct → Settings
  | s, [] => s
  | s, .setLevel n l :: as => made name (if n = name then ⟨l, s.backtrace, s.highlight⟩ else s) as
  | s, .backtrace n b :: as => made name (if n = name then ⟨s.level, b, s.highlight⟩ else s) as
  | s, .highlight n b :: as => made name (if n = name then ⟨s.level, s.backtrace, b⟩ else s) as
  | s, _ :: as => made name s as

/-- The settings of the logger number `i`, with this name, after the calls that follow. -/
def follows (i : Nat) (name : Text) : Settings → List RegAct → Settings
  | s, [] => s
  | s, .setLevel n l :: as => follows i name (if n = name then ⟨l, s.backtrace, s.highlight⟩ else s) as
  | s, .backtrace n b :: as => follows i name (if n = name then ⟨s.level, b, s.highlight⟩ else s) as
  | s, .highlight n b :: as => follows i name (if n = name then ⟨s.level, s.backtrace, b⟩ else s) as
  | s, .ownLevel j l :: as => follows i name (if j = i then ⟨l, s.backtrace, s.highlight⟩ else s) as
  | s, .ownBacktrace j b :: as => follows i name (if j = i then ⟨s.level, b, s.highlight⟩ else s) as
  | s, .ownHighlight j b :: as => follows i name (if j = i then ⟨s.level, s.backtrace, b⟩ else s) as
  | s, _ :: as => follows i name s as

/-- The number of loggers made. -/
def created (as : List RegAct) : Nat := as.countP fun | .create _ _ => true | _ => false

/-- The last global level set. -/
def lastGlobal : Nat → List RegAct → Nat
  | g, [] => g
  | _, .setGlobal l :: as => lastGlobal l as
  | g, _ :: as => lastGlobal g as

/-- The settings of a name that were never changed, or changed back. -/
def nothing : Settings := ⟨none, false, false⟩

end Spec

theorem isEmpty_iff (s : Settings) : s.isEmpty = true ↔ s = Spec.nothing := by
  obtain ⟨l, b, h⟩ := s
  cases l <;> cases b <;> cases h <;> simp [Settings.isEmpty, Spec.nothing]

/-- The registry has an entry for a name exactly if there is something to keep. -/
def Keeps (r : Reg) (name : Text) (s : Settings) : Prop := r.settings name = if s = Spec.nothing then none else some s

theorem keeps_getD {r : Reg} {name : Text} {s : Settings} (h : Keeps r name s) : (r.settings name).getD Settings.none = s := by
  rw [h]
  split
  · rename_i e; rw [e]; rfl
  · rfl

theorem change_keeps {r : Reg} {name n : Text} {s : Settings} (h : Keeps r name s) (f : Settings → Settings) :
    Keeps (r.change n f) name (if n = name then f s else s) := by
  unfold Keeps Reg.change
  simp only []
  by_cases e : n = name
  · subst e
    rw [if_pos rfl, if_pos rfl, keeps_getD h]
    by_cases e2 : f s = Spec.nothing
    · rw [if_pos e2, if_pos ((isEmpty_iff _).mpr e2)]
    · rw [if_neg e2, if_neg (fun h => e2 ((isEmpty_iff _).mp h))]
  · rw [if_neg (Ne.symm e), if_neg e]
    exact h

theorem run_keeps (name : Text) (as : List RegAct) : ∀ (r : Reg) (s : Settings), Keeps r name s → Keeps (r.run as) name (Spec.made name s as) := by
  induction as with
  | nil => intro r s h; exact h
  | cons a as ih =>
    intro r s h
    rw [Reg.run]
    cases a with
    | create n l => exact ih _ _ h
    | destroy i => exact ih _ _ h
    | setGlobal l => exact ih _ _ h
    | ownLevel i l => exact ih _ _ h
    | ownBacktrace i l => exact ih _ _ h
    | ownHighlight i l => exact ih _ _ h
    | setLevel n l => rw [Spec.made]; exact ih _ _ (change_keeps h (fun s => { s with level := l }))
    | backtrace n l => rw [Spec.made]; exact ih _ _ (change_keeps h (fun s => { s with backtrace := l }))
    | highlight n l => rw [Spec.made]; exact ih _ _ (change_keeps h (fun s => { s with highlight := l }))

theorem run_global (as : List RegAct) : ∀ r : Reg, (r.run as).global = Spec.lastGlobal r.global as := by
  induction as with
  | nil => intro r; rfl
  | cons a as ih =>
    intro r
    rw [Reg.run, ih]
    cases a <;> rfl

/-- C146.  The level of a name is the last one set for it, whatever loggers there are; the global level is the last one set. -/
theorem level_of_name (g : Nat) (as : List RegAct) (name : Text) :
    (Reg.run (Reg.init g) as).levelOf name = (Spec.made name Spec.nothing as).level ∧ (Reg.run (Reg.init g) as).global = Spec.lastGlobal g as := by
  have h := run_keeps name as (Reg.init g) Spec.nothing (by unfold Keeps; rw [if_pos rfl]; rfl)
  refine ⟨?_, run_global as _⟩
  unfold Reg.levelOf
  rw [h]
  split
  · rename_i e; rw [e]; rfl
  · rfl

theorem step_len (r : Reg) (a : RegAct) : (r.step a).loggers.length = r.loggers.length + Spec.created [a] := by
  cases a <;> simp [Reg.step, Reg.change, Reg.changeOne, Spec.created]

theorem run_len (as : List RegAct) : ∀ r : Reg, (r.run as).loggers.length = r.loggers.length + Spec.created as := by
  induction as with
  | nil => intro r; rfl
  | cons a as ih =>
    intro r
    rw [Reg.run, ih, step_len]
    have : Spec.created (a :: as) = Spec.created [a] + Spec.created as := by
      simp only [Spec.created, List.countP_cons, List.countP_nil]; omega
    omega

theorem follow_step {i : Nat} {name : Text} (as : List RegAct) : ∀ (r : Reg) (s : Settings), r.loggers[i]? = some (some ⟨name, s⟩) → .destroy i ∉ as →
    (r.run as).loggers[i]? = some (some ⟨name, Spec.follows i name s as⟩) := by
  have hchange : ∀ (r : Reg) (n : Text) (f : Settings → Settings) (s : Settings), r.loggers[i]? = some (some ⟨name, s⟩) →
      (r.change n f).loggers[i]? = some (some ⟨name, if n = name then f s else s⟩) := by
    intro r n f s h
    simp only [Reg.change, List.getElem?_map, h, Option.map_some]
    by_cases e : name = n
    · rw [if_pos e, if_pos e.symm]
    · rw [if_neg e, if_neg (Ne.symm e)]
  have hone : ∀ (r : Reg) (j : Nat) (f : Settings → Settings) (s : Settings), r.loggers[i]? = some (some ⟨name, s⟩) →
      (r.changeOne j f).loggers[i]? = some (some ⟨name, if j = i then f s else s⟩) := by
    intro r j f s h
    simp only [Reg.changeOne, List.getElem?_modify]
    rw [h]
    by_cases e : j = i
    · subst e; simp
    · simp [e]
  induction as with
  | nil => intro r s h _; exact h
  | cons a as ih =>
    intro r s h hd
    have hd' : .destroy i ∉ as := fun h => hd (List.mem_cons_of_mem _ h)
    rw [Reg.run]
    cases a with
    | create n l =>
      refine ih _ _ ?_ hd'
      have := (List.getElem?_eq_some_iff.mp h).1
      simp only [Reg.step]
      rw [List.getElem?_append_left this, h]
    | destroy j =>
      refine ih _ _ ?_ hd'
      have : j ≠ i := by rintro rfl; exact hd List.mem_cons_self
      simp only [Reg.step]
      rw [List.getElem?_set_ne this, h]
    | setGlobal l => exact ih _ _ h hd'
    | setLevel n l => rw [Spec.follows]; exact ih _ _ (hchange r n (fun s => { s with level := l }) s h) hd'
    | backtrace n l => rw [Spec.follows]; exact ih _ _ (hchange r n (fun s => { s with backtrace := l }) s h) hd'
    | highlight n l => rw [Spec.follows]; exact ih _ _ (hchange r n (fun s => { s with highlight := l }) s h) hd'
    | ownLevel j l => rw [Spec.follows]; exact ih _ _ (hone r j (fun s => { s with level := l }) s h) hd'
    | ownBacktrace j l => rw [Spec.follows]; exact ih _ _ (hone r j (fun s => { s with backtrace := l }) s h) hd'
    | ownHighlight j l => rw [Spec.follows]; exact ih _ _ (hone r j (fun s => { s with highlight := l }) s h) hd'

theorem run_append (as bs : List RegAct) : ∀ r : Reg, r.run (as ++ bs) = (r.run as).run bs := by
  induction as with
  | nil => intro r; rfl
  | cons a as ih => intro r; rw [List.cons_append, Reg.run, ih]; rfl

/-- C146.  A logger begins with the settings made for its name, or with the level given to its constructor if there are none, and follows
every later change for its name and for itself; its level is its own one or else the global one. -/
theorem logger_follows (g : Nat) (before after : List RegAct) (name : Text) (level : Option Nat) (hd : .destroy (Spec.created before) ∉ after) :
    ∃ l, (Reg.run (Reg.init g) (before ++ .create name level :: after)).loggers[Spec.created before]? = some (some l) ∧ l.name = name ∧
      l.own = Spec.follows (Spec.created before) name
        (if Spec.made name Spec.nothing before = Spec.nothing then ⟨level, false, false⟩ else Spec.made name Spec.nothing before) after ∧
      (Reg.run (Reg.init g) (before ++ .create name level :: after)).level l = l.own.level.getD (Spec.lastGlobal g (before ++ .create name level :: after)) := by
  have hk := run_keeps name before (Reg.init g) Spec.nothing (by unfold Keeps; rw [if_pos rfl]; rfl)
  have hl := run_len before (Reg.init g)
  have hl' : (Reg.run (Reg.init g) before).loggers.length = Spec.created before := by rw [hl]; simp [Reg.init]
  refine ⟨⟨name, Spec.follows (Spec.created before) name
    (if Spec.made name Spec.nothing before = Spec.nothing then ⟨level, false, false⟩ else Spec.made name Spec.nothing before) after⟩, ?_, rfl, rfl, ?_⟩
  · rw [run_append, Reg.run]
    refine follow_step after _ _ ?_ hd
    simp only [Reg.step]
    rw [List.getElem?_append_right (by omega), hl', Nat.sub_self, hk]
    split <;> rfl
  · unfold Reg.level
    rw [run_global]
    rfl

example : ((Reg.run (Reg.init 2) [.setLevel ['a'] (some 4), .create ['a'] none, .create ['b'] (some 1), .setLevel ['a'] none, .ownBacktrace 1 true]).loggers,
    (Reg.run (Reg.init 2) [.setLevel ['a'] (some 4)]).levelOf ['a']) =
    ([some ⟨['a'], ⟨none, false, false⟩⟩, some ⟨['b'], ⟨some 1, true, false⟩⟩], some 4) := by decide

/-- No logger is given a level of its own. -/
def Plain : RegAct → Prop
  | .create _ l => l = none
  | .ownLevel _ _ => False
  | .ownBacktrace _ _ => False
  | .ownHighlight _ _ => False
  | _ => True

/-- C146, as far as it holds.  If no logger is given settings of its own, every logger has exactly the settings made for its name, no
matter whether it was made before or after them. -/
theorem same_name_same_settings_partial (g : Nat) (as : List RegAct) (hp : ∀ a ∈ as, Plain a) (i : Nat) (l : Named)
    (hl : (Reg.run (Reg.init g) as).loggers[i]? = some (some l)) : l.own = Spec.made l.name Spec.nothing as := by
  have key : ∀ (as : List RegAct) (r : Reg) (m : Text → Settings), (∀ a ∈ as, Plain a) → (∀ n, Keeps r n (m n)) →
      (∀ (i : Nat) l, r.loggers[i]? = some (some l) → l.own = m l.name) →
      ∀ (i : Nat) l, (r.run as).loggers[i]? = some (some l) → l.own = Spec.made l.name (m l.name) as := by
    intro as
    induction as with
    | nil => intro r m _ _ h; exact h
    | cons a as ih =>
      intro r m hp hk h
      have hp' : ∀ a ∈ as, Plain a := fun a ha => hp a (List.mem_cons_of_mem _ ha)
      have ha := hp a List.mem_cons_self
      rw [Reg.run]
      have hchange : ∀ (n : Text) (f : Settings → Settings) (i : Nat) l, (r.change n f).loggers[i]? = some (some l) →
          l.own = if n = l.name then f (m l.name) else m l.name := by
        intro n f i l hi
        simp only [Reg.change, List.getElem?_map] at hi
        cases hx : r.loggers[i]? with
        | none => rw [hx] at hi; cases hi
        | some y =>
          rw [hx] at hi
          cases y with
          | none => cases hi
          | some y =>
            simp only [Option.map_some, Option.some.injEq] at hi
            have := h i y hx
            by_cases e : y.name = n
            · rw [if_pos e] at hi; subst hi; simp [e, this]
            · rw [if_neg e] at hi; subst hi; rw [if_neg (Ne.symm e)]; exact this
      cases a with
      | create n l =>
        refine ih _ m hp' (fun x => hk x) ?_
        intro i x hi
        simp only [Reg.step] at hi
        by_cases hlt : i < r.loggers.length
        · rw [List.getElem?_append_left hlt] at hi
          exact h i x hi
        · rw [List.getElem?_append_right (by omega)] at hi
          have : i - r.loggers.length = 0 := by
            have := (List.getElem?_eq_some_iff.mp hi).1
            simp at this; omega
          rw [this] at hi
          simp only [List.getElem?_cons_zero, Option.some.injEq] at hi
          subst hi
          have e : l = none := ha
          subst e
          exact keeps_getD (hk n)
      | destroy j =>
        refine ih _ m hp' (fun x => hk x) ?_
        intro i x hi
        simp only [Reg.step, List.getElem?_set] at hi
        split at hi
        · split at hi <;> cases hi
        · exact h i x hi
      | setGlobal l => exact ih _ m hp' (fun x => hk x) h
      | setLevel n l =>
        intro i x hx
        rw [Spec.made]
        exact ih (r.change n (fun s => { s with level := l })) (fun y => if n = y then ⟨l, (m y).backtrace, (m y).highlight⟩ else m y) hp' (fun y => change_keeps (hk y) (fun s => { s with level := l })) (fun i x hi => hchange n (fun s => { s with level := l }) i x hi) i x hx
      | backtrace n l =>
        intro i x hx
        rw [Spec.made]
        exact ih (r.change n (fun s => { s with backtrace := l })) (fun y => if n = y then ⟨(m y).level, l, (m y).highlight⟩ else m y) hp' (fun y => change_keeps (hk y) (fun s => { s with backtrace := l })) (fun i x hi => hchange n (fun s => { s with backtrace := l }) i x hi) i x hx
      | highlight n l =>
        intro i x hx
        rw [Spec.made]
        exact ih (r.change n (fun s => { s with highlight := l })) (fun y => if n = y then ⟨(m y).level, (m y).backtrace, l⟩ else m y) hp' (fun y => change_keeps (hk y) (fun s => { s with highlight := l })) (fun i x hi => hchange n (fun s => { s with highlight := l }) i x hi) i x hx
      | ownLevel j l => exact absurd ha id
      | ownBacktrace j l => exact absurd ha id
      | ownHighlight j l => exact absurd ha id
  exact key as (Reg.init g) (fun _ => Spec.nothing) hp (fun n => by unfold Keeps; rw [if_pos rfl]; rfl) (fun i l h => by simp [Reg.init] at h) i l hl

/-- C146 is violated: enabling backtraces for a name takes away the level a logger made later is given by its constructor … -/
theorem constructor_level_violated : (Reg.run (Reg.init 2) [.create ['a'] (some 1)]).loggers = [some ⟨['a'], ⟨some 1, false, false⟩⟩] ∧
    (Reg.run (Reg.init 2) [.backtrace ['a'] true, .create ['a'] (some 1)]).loggers = [some ⟨['a'], ⟨none, true, false⟩⟩] := by decide

/-- … and removing a level set for a name does not restore the level of the constructor: two loggers made in the same way have different
levels. -/
theorem constructor_level_not_restored_violated : (Reg.run (Reg.init 2) [.create ['a'] (some 1), .setLevel ['a'] (some 4), .setLevel ['a'] none, .create ['a'] (some 1)]).loggers =
    [some ⟨['a'], ⟨none, false, false⟩⟩, some ⟨['a'], ⟨some 1, false, false⟩⟩] := by decide

/-- C146.  A name is listed exactly if a logger with it exists. -/
theorem names_listed (r : Reg) (name : Text) : r.hasName name = true ↔ ∃ (i : Nat) (l : Named), r.loggers[i]? = some (some l) ∧ l.name = name := by
  unfold Reg.hasName
  rw [List.any_eq_true]
  constructor
  · rintro ⟨x, hx, h⟩
    obtain ⟨i, hi⟩ := List.getElem?_of_mem hx
    cases x with
    | none => cases h
    | some l => exact ⟨i, l, hi, by simpa using h⟩
  · rintro ⟨i, l, hi, h⟩
    exact ⟨some l, List.mem_of_getElem? hi, by simpa using h⟩

/-- C146.  What is streamed is written exactly if its level is not below that of the logger; a silent logger (level 5) writes no level
below 5. -/
theorem written_spec (g s : Nat) : (written g s = true ↔ g ≤ s) ∧ (s < 5 → written 5 s = false) := by
  unfold written
  constructor
  · simp
  · intro h; simp [h]

/-! ### Sinks -/

theorem run_sinks (as : List SinkAct) : ∀ (s s' : Sinks), s.run as = some s' → ∀ k,
    (∀ pre post, as = pre ++ .remove k :: post → pre.count (.remove k) < pre.count (.add k) + s.sinks.count k) →
    s'.sinks.count k + as.count (.remove k) = s.sinks.count k + as.count (.add k) := by
  induction as with
  | nil => intro s s' h k _; injection h with h; subst h; simp
  | cons a as ih =>
    intro s s' h k hr
    rw [Sinks.run] at h
    cases hs : s.step a with
    | none => rw [hs] at h; cases h
    | some t =>
      rw [hs] at h
      have hcount : t.sinks.count k + [a].count (.remove k) = s.sinks.count k + [a].count (.add k) := by
        cases a with
        | add j =>
          simp only [Sinks.step, Option.some.injEq] at hs
          subst hs
          by_cases e : j = k
          · subst e; simp
          · have : ¬ (SinkAct.add j = SinkAct.add k) := fun h => e (by injection h)
            simp [e, this, List.count_cons]
        | remove j =>
          simp only [Sinks.step, Option.some.injEq] at hs
          subst hs
          by_cases e : j = k
          · subst e
            have := hr [] as rfl
            simp only [List.count_nil, Nat.zero_add] at this
            rw [List.count_erase]
            simp
            omega
          · have : ¬ (SinkAct.remove j = SinkAct.remove k) := fun h => e (by injection h)
            rw [List.count_erase]
            simp [e, this, List.count_cons]
        | log u m =>
          have : t.sinks = s.sinks := by
            simp only [Sinks.step] at hs
            split at hs
            · cases hs
            · split at hs <;> (injection hs with hs; subst hs; rfl)
          rw [this]; simp [List.count_cons]
        | deliver u b =>
          have : t.sinks = s.sinks := by
            simp only [Sinks.step] at hs
            split at hs
            · injection hs with hs; subst hs; rfl
            · cases hs
          rw [this]; simp [List.count_cons]
        | done u =>
          have : t.sinks = s.sinks := by
            simp only [Sinks.step] at hs
            split at hs
            · injection hs with hs; subst hs; rfl
            · cases hs
          rw [this]; simp [List.count_cons]
      have hi := ih t s' h k (by
        intro pre post e
        have := hr (a :: pre) post (by rw [e]; rfl)
        have c1 : (a :: pre).count (.remove k) = pre.count (.remove k) + [a].count (.remove k) := by simp [List.count_cons]
        have c2 : (a :: pre).count (.add k) = pre.count (.add k) + [a].count (.add k) := by simp [List.count_cons]
        omega)
      have c1 : (a :: as).count (.remove k) = as.count (.remove k) + [a].count (.remove k) := by simp [List.count_cons]
      have c2 : (a :: as).count (.add k) = as.count (.add k) + [a].count (.add k) := by simp [List.count_cons]
      omega

/-- C146.  A sink is registered as often as it was added and its token not released (a token is released once, after the sink was added). -/
theorem registered (as : List SinkAct) (s : Sinks) (h : Sinks.run Sinks.init as = some s) (k : Nat)
    (hr : ∀ pre post, as = pre ++ .remove k :: post → pre.count (.remove k) < pre.count (.add k)) :
    s.sinks.count k + as.count (.remove k) = as.count (.add k) := by
  have := run_sinks as Sinks.init s h k (by simpa [Sinks.init] using hr)
  simpa [Sinks.init] using this

/-- C146.  A call of `Log` begun while the sinks are `ks` calls exactly these, each once per registration and in order, whatever the
other threads and the sinks do (a sink that throws does not keep the message from the others); without sinks the message goes to the
system logger. -/
theorem message_reaches_sinks (s s1 s2 : Sinks) (t m : Nat) (as : List SinkAct) (h1 : s.step (.log t m) = some s1)
    (h2 : s1.run as = some s2) (hd : .done t ∉ as) (hl : ∀ m', .log t m' ∉ as) :
    (s.sinks = [] → s1.system = s.system ++ [m] ∧ s1.threads t = none ∧ s1.calls = s.calls) ∧
    (s.sinks ≠ [] → ∃ (done todo : List Nat) (mine : List Bool) (new : List (Nat × Nat)), s2.threads t = some ⟨m, todo⟩ ∧ done ++ todo = s.sinks ∧
      s2.calls = s.calls ++ new ∧ mine.length = new.length ∧ done.map (·, m) = ((mine.zip new).filter (·.1)).map (·.2) ∧
      (todo = [] → ∃ s3, s2.step (.done t) = some s3) ∧ (todo ≠ [] → ∀ b, ∃ s3, s2.step (.deliver t b) = some s3)) := by
  simp only [Sinks.step] at h1
  split at h1
  · cases h1
  · rename_i hn
    by_cases he : s.sinks = []
    · rw [if_pos he] at h1
      injection h1 with h1; subst h1
      exact ⟨fun _ => ⟨rfl, hn, rfl⟩, fun h => absurd he h⟩
    · rw [if_neg he] at h1
      injection h1 with h1
      refine ⟨fun h => absurd h he, fun _ => ?_⟩
      have key : ∀ (as : List SinkAct) (s1 s2 : Sinks), s1.run as = some s2 → .done t ∉ as → (∀ m', .log t m' ∉ as) → ∀ todo0, s1.threads t = some ⟨m, todo0⟩ →
          ∃ (done todo : List Nat) (mine : List Bool) (new : List (Nat × Nat)), s2.threads t = some ⟨m, todo⟩ ∧ done ++ todo = todo0 ∧
            s2.calls = s1.calls ++ new ∧ mine.length = new.length ∧ done.map (·, m) = ((mine.zip new).filter (·.1)).map (·.2) := by
        intro as
        induction as with
        | nil =>
          intro s1 s2 h _ _ todo0 ht
          injection h with h; subst h
          exact ⟨[], todo0, [], [], ht, rfl, by simp, rfl, rfl⟩
        | cons a as ih =>
          intro s1 s2 h hd hl todo0 ht
          have hd' : .done t ∉ as := fun h => hd (List.mem_cons_of_mem _ h)
          have hl' : ∀ m', .log t m' ∉ as := fun m' h => hl m' (List.mem_cons_of_mem _ h)
          rw [Sinks.run] at h
          cases hs : s1.step a with
          | none => rw [hs] at h; cases h
          | some s' =>
            rw [hs] at h
            have other : s'.threads t = s1.threads t → (s'.calls = s1.calls ∨ ∃ c, s'.calls = s1.calls ++ [c]) →
                ∃ (done todo : List Nat) (mine : List Bool) (new : List (Nat × Nat)), s2.threads t = some ⟨m, todo⟩ ∧ done ++ todo = todo0 ∧
                s2.calls = s1.calls ++ new ∧ mine.length = new.length ∧ done.map (·, m) = ((mine.zip new).filter (·.1)).map (·.2) := by
              intro e1 e2
              obtain ⟨done, todo, mine, new, i1, i2, i3, i4, i5⟩ := ih s' s2 h hd' hl' todo0 (by rw [e1, ht])
              rcases e2 with e2 | ⟨c, e2⟩
              · exact ⟨done, todo, mine, new, i1, i2, by rw [i3, e2], i4, i5⟩
              · exact ⟨done, todo, false :: mine, c :: new, i1, i2, by rw [i3, e2]; simp, by simp [i4], by simp [i5]⟩
            cases a with
            | add j => simp only [Sinks.step, Option.some.injEq] at hs; subst hs; exact other rfl (.inl rfl)
            | remove j => simp only [Sinks.step, Option.some.injEq] at hs; subst hs; exact other rfl (.inl rfl)
            | log u m' =>
              have hu : t ≠ u := by rintro rfl; exact hl m' List.mem_cons_self
              simp only [Sinks.step] at hs
              split at hs
              · cases hs
              · split at hs
                · injection hs with hs; subst hs; exact other rfl (.inl rfl)
                · injection hs with hs; subst hs; exact other (by simp [hu]) (.inl rfl)
            | done u =>
              have hu : t ≠ u := by rintro rfl; exact hd List.mem_cons_self
              simp only [Sinks.step] at hs
              split at hs
              · injection hs with hs; subst hs; exact other (by simp [hu]) (.inl rfl)
              · cases hs
            | deliver u b =>
              simp only [Sinks.step] at hs
              split at hs
              · rename_i m' k todo hu
                injection hs with hs; subst hs
                by_cases e : t = u
                · subst e
                  rw [ht] at hu
                  injection hu with hu
                  injection hu with hm hu
                  subst hm hu
                  obtain ⟨done, todo', mine, new, i1, i2, i3, i4, i5⟩ := ih _ s2 h hd' hl' todo (by simp)
                  exact ⟨k :: done, todo', true :: mine, (k, m) :: new, i1, by rw [List.cons_append, i2], by rw [i3]; simp, by simp [i4], by simp [i5]⟩
                · exact other (by simp [e]) (.inr ⟨_, rfl⟩)
              · cases hs
      have ht : s1.threads t = some ⟨m, s.sinks⟩ := by subst h1; simp
      have hc : s1.calls = s.calls := by subst h1; rfl
      obtain ⟨done, todo, mine, new, i1, i2, i3, i4, i5⟩ := key as s1 s2 h2 hd hl s.sinks ht
      refine ⟨done, todo, mine, new, i1, i2, by rw [i3, hc], i4, i5, ?_, ?_⟩
      · rintro rfl
        simp [Sinks.step, i1]
      · intro h b
        cases todo with
        | nil => exact absurd rfl h
        | cons k todo => simp [Sinks.step, i1]

example : (Sinks.run Sinks.init [.add 1, .add 2, .log 7 50, .deliver 7 true, .remove 1, .log 8 60, .deliver 8 false, .deliver 7 false, .done 7]).map (fun s => (s.sinks, s.calls)) =
    some ([2], [(1, 50), (2, 60), (2, 50)]) := by decide

/-- C146 is violated for tokens: a sink may be called after its token was released, by a thread that was in `Log` at that time. -/
theorem call_after_release_violated : ∃ s1 s2 s3, Sinks.run Sinks.init [.add 1, .log 7 50] = some s1 ∧ s1.step (.remove 1) = some s2 ∧ s2.sinks = [] ∧
    s2.step (.deliver 7 false) = some s3 ∧ s3.calls = s2.calls ++ [(1, 50)] := ⟨_, _, _, rfl, rfl, rfl, rfl, rfl⟩

end Verif.Log
