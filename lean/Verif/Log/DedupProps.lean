import Verif.Log.Dedup

/-! C145: hidden duplicates of log messages are announced. -/

namespace Verif.Log

/-! ### Specification -/

namespace Spec

/-- How often `m` is told by a line: once by itself, `n` times by "m (n times)". -/
def told (m : Text) : Line → Nat
  | .message m' => if m' = m then 1 else 0
  | .times m' n => if m' = m then n else 0

/-- By several lines. -/
def toldAll (m : Text) (ls : List Line) : Nat := (ls.map (told m)).sum

/-- How many lines tell a number. -/
def summaries (ls : List Line) : Nat := ls.countP fun | .times _ _ => true | _ => false

/-- The messages sent from one place. -/
def place (k : Key) (ms : List Msg) : List Msg := ms.filter (·.key = k)

/-- The lines the messages of one place led to. -/
def linesAt (k : Key) : List Msg → List (List Line) → List Line
  | m :: ms, l :: ls => (if m.key = k then l else []) ++ linesAt k ms ls
  | _, _ => []

/-- How often a text was sent. -/
def sent (t : Text) (ms : List Msg) : Nat := ms.countP (·.text = t)

end Spec

open Spec

theorem told_append (m : Text) (a b : List Line) : toldAll m (a ++ b) = toldAll m a + toldAll m b := by
  simp [toldAll]
theorem told_nil (m : Text) : toldAll m [] = 0 := rfl
theorem told_message (m t : Text) : toldAll m [.message t] = if t = m then 1 else 0 := by simp [toldAll, told]
theorem told_times (m t : Text) (n : Nat) : toldAll m [.times t n] = if t = m then n else 0 := by simp [toldAll, told]

/-- One message at one place. -/
def one (c : Counter) (m : Msg) : Counter × List Line :=
  match m.hide with
  | none => (c, [.message m.text])
  | some h => logHidden c h m.now m.text

/-- The messages of one place. -/
def seq (c : Counter) : List Msg → Counter × List Line
  | [] => (c, [])
  | m :: ms => ((seq (one c m).1 ms).1, (one c m).2 ++ (seq (one c m).1 ms).2)

theorem logAll_place (k : Key) (ms : List Msg) : ∀ f : Filter,
    (logAll f ms).1 k = (seq (f k) (place k ms)).1 ∧ linesAt k ms (logAll f ms).2 = (seq (f k) (place k ms)).2 := by
  induction ms with
  | nil => intro f; exact ⟨rfl, rfl⟩
  | cons m ms ih =>
    intro f
    obtain ⟨h1, h2⟩ := ih (logOne f m).1
    by_cases hk : m.key = k
    · have hp : place k (m :: ms) = m :: place k ms := by simp [place, hk]
      have e1 : (logOne f m).1 k = (one (f k) m).1 := by
        unfold logOne one
        cases m.hide with
        | none => rfl
        | some h => simp [hk]
      have e2 : (logOne f m).2 = (one (f k) m).2 := by
        unfold logOne one
        cases m.hide with
        | none => rfl
        | some h => simp [hk]
      rw [hp, logAll, seq, linesAt, if_pos hk]
      rw [e1] at h1 h2
      exact ⟨h1, by rw [h2, e2]⟩
    · have hp : place k (m :: ms) = place k ms := by simp [place, hk]
      have e1 : (logOne f m).1 k = f k := by
        unfold logOne
        cases m.hide with
        | none => rfl
        | some h => simp [Ne.symm hk]
      rw [hp, logAll, linesAt, if_neg hk, List.nil_append]
      rw [e1] at h1 h2
      exact ⟨h1, h2⟩

/-- The messages hidden and not yet told. -/
def pending (m : Text) (c : Counter) : Nat := if c.str = m then c.count.getD 0 else 0

theorem pending_reset (m t : Text) (h : Hide) (now : Int) : pending m (Counter.reset t h now) = 0 := by
  unfold pending; split <;> rfl
theorem pending_none {m : Text} {c : Counter} (h : c.count = none) : pending m c = 0 := by
  unfold pending; rw [h]; split <;> rfl
theorem pending_some {m : Text} {c : Counter} {n : Nat} (h : c.count = some n) : pending m c = if c.str = m then n else 0 := by
  unfold pending; rw [h]; rfl
theorem reset_since {h : Hide} (hi : h.interval = none) (t : Text) (now : Int) : (Counter.reset t h now).since = none := by
  simp [Counter.reset, hi]

/-- What one message changes. -/
theorem logHidden_told (c : Counter) (h : Hide) (now : Int) (t m : Text) :
    toldAll m (logHidden c h now t).2 + pending m (logHidden c h now t).1 ≤ pending m c + (if t = m then 1 else 0) ∧
    (h.interval = none → h.count > 0 → c.since = none →
      pending m c + (if t = m then 1 else 0) ≤ toldAll m (logHidden c h now t).2 + pending m (logHidden c h now t).1 + summaries (logHidden c h now t).2 ∧
      (logHidden c h now t).1.since = none) := by
  unfold logHidden
  cases hn : c.count with
  | none =>
    simp only [told_message, pending_reset, pending_none hn]
    refine ⟨by (repeat' split) <;> omega, fun hi _ _ => ⟨by (repeat' split) <;> omega, reset_since hi _ _⟩⟩
  | some n =>
    simp only []
    by_cases hcond : c.str ≠ t ∨ n ≥ h.count ∨ due c h now = true
    · rw [if_pos hcond]
      simp only [told_append, pending_reset, pending_some hn]
      have s0 : summaries ([] : List Line) = 0 := rfl
      have s1 : ∀ x k (l : List Line), summaries (.times x k :: l) = summaries l + 1 := fun x k l => by simp [summaries]
      by_cases e1 : c.str = t
      · subst e1
        by_cases e0 : n > 0
        · simp only [if_pos e0, ne_eq, not_true_eq_false, if_false, told_times, told_nil, List.append_nil, s1, s0]
          refine ⟨by (repeat' split) <;> omega, fun hi hp hs => ⟨?_, reset_since hi _ _⟩⟩
          split <;> omega
        · simp only [if_neg e0, ne_eq, not_true_eq_false, if_false, told_nil, List.append_nil, s0]
          refine ⟨by (repeat' split) <;> omega, fun hi hp hs => ?_⟩
          exfalso
          rcases hcond with h1 | h1 | h1
          · exact h1 rfl
          · omega
          · simp [due, hs] at h1
      · by_cases e0 : n > 0
        · simp only [if_pos e0, ne_eq, e1, not_false_eq_true, if_true, told_times, told_message]
          refine ⟨by (repeat' split) <;> omega, fun hi hp hs => ⟨by (repeat' split) <;> omega, reset_since hi _ _⟩⟩
        · simp only [if_neg e0, ne_eq, e1, not_false_eq_true, if_true, told_nil, told_message]
          refine ⟨by (repeat' split) <;> omega, fun hi hp hs => ⟨?_, reset_since hi _ _⟩⟩
          split <;> split <;> omega
    · rw [if_neg hcond]
      have e : c.str = t := Classical.byContradiction fun e => hcond (.inl e)
      simp only [told_nil, pending, hn, Option.getD_some]
      rw [e]
      refine ⟨by split <;> omega, fun hi hp hs => ⟨?_, hs⟩⟩
      split <;> omega

theorem one_told (c : Counter) (m : Msg) (t : Text) :
    toldAll t (one c m).2 + pending t (one c m).1 ≤ pending t c + (if m.text = t then 1 else 0) := by
  unfold one
  cases m.hide with
  | none => simp only [told_message]; omega
  | some h => exact (logHidden_told c h m.now m.text t).1

theorem seq_told (t : Text) (ms : List Msg) : ∀ c, toldAll t (seq c ms).2 + pending t (seq c ms).1 ≤ pending t c + sent t ms := by
  induction ms with
  | nil => intro c; simp [seq, sent, told_nil]
  | cons m ms ih =>
    intro c
    have h1 := one_told c m t
    have h2 := ih (one c m).1
    rw [seq]
    simp only [told_append, sent, List.countP_cons, decide_eq_true_eq] at *
    omega

/-- C145.  The log never tells more occurrences of a message than were sent from a place, whatever is hidden there and elsewhere. -/
theorem told_at_most (ms : List Msg) (k : Key) (t : Text) : toldAll t (linesAt k ms (logAll Filter.empty ms).2) ≤ sent t (place k ms) := by
  rw [(logAll_place k ms Filter.empty).2]
  have h := seq_told t (place k ms) (Filter.empty k)
  have : pending t (Filter.empty k) = 0 := by simp [pending, Filter.empty, Counter.fresh]
  omega

theorem summaries_append (a b : List Line) : summaries (a ++ b) = summaries a + summaries b := by simp [summaries]

/-- C145, as far as it holds.  At a place that hides by number, every occurrence sent is told by a line, or is one of the hidden ones not
told yet (at most the number asked for), but for at most one per "(n times)" line. -/
theorem told_at_least_partial (ms : List Msg) (k : Key) (t : Text) (n : Nat) (hn : n > 0) (hh : ∀ m ∈ ms, m.key = k → m.hide = some ⟨n, none⟩) :
    sent t (place k ms) ≤ toldAll t (linesAt k ms (logAll Filter.empty ms).2) + summaries (linesAt k ms (logAll Filter.empty ms).2) + n := by
  rw [(logAll_place k ms Filter.empty).2]
  have key : ∀ (ms : List Msg) (c : Counter), (∀ m ∈ ms, m.hide = some ⟨n, none⟩) → c.since = none → (∀ x, c.count = some x → x ≤ n) →
      pending t c + sent t ms ≤ toldAll t (seq c ms).2 + summaries (seq c ms).2 + pending t (seq c ms).1 ∧ (∀ x, (seq c ms).1.count = some x → x ≤ n) := by
    intro ms
    induction ms with
    | nil => intro c _ _ hx; exact ⟨by simp [seq, sent, told_nil, summaries], hx⟩
    | cons m ms ih =>
      intro c hm hs hx
      have e := hm m List.mem_cons_self
      have h1 := (logHidden_told c ⟨n, none⟩ m.now m.text t).2 rfl hn hs
      have eo : one c m = logHidden c ⟨n, none⟩ m.now m.text := by unfold one; rw [e]
      rw [← eo] at h1
      have hx' : ∀ x, (one c m).1.count = some x → x ≤ n := by
        intro x
        rw [eo]
        unfold logHidden
        cases hc : c.count with
        | none => simp [Counter.reset]; omega
        | some y =>
          simp only []
          split
          · simp [Counter.reset]; omega
          · rename_i hcond
            simp only [Option.some.injEq]
            have : ¬ (y ≥ n) := fun h => hcond (.inr (.inl h))
            omega
      obtain ⟨h2, h3⟩ := ih (one c m).1 (fun m' h => hm m' (List.mem_cons_of_mem _ h)) h1.2 hx'
      rw [seq]
      refine ⟨?_, h3⟩
      simp only [told_append, summaries_append, sent, List.countP_cons, decide_eq_true_eq] at *
      omega
  obtain ⟨h1, h2⟩ := key (place k ms) (Filter.empty k) (by
    intro m hm
    simp only [place, List.mem_filter, decide_eq_true_eq] at hm
    exact hh m hm.1 hm.2) rfl (fun x hx => by simp [Filter.empty, Counter.fresh] at hx)
  have h3 : pending t (seq (Filter.empty k) (place k ms)).1 ≤ n := by
    unfold pending
    split
    · cases hc : (seq (Filter.empty k) (place k ms)).1.count with
      | none => simp
      | some x => exact h2 x hc
    · exact Nat.zero_le _
  have h4 : pending t (Filter.empty k) = 0 := by simp [pending, Filter.empty, Counter.fresh]
  omega

/-- C145.  A message that differs from the one before it at its place is written in full, after the number of the hidden ones; the first
one is, and so is every message that does not ask for hiding. -/
theorem new_message_shown (f : Filter) (m : Msg) :
    (m.hide = none → logOne f m = (f, [.message m.text])) ∧
    ((f m.key).count = none → (logOne f m).2 = [.message m.text]) ∧
    (∀ n, (f m.key).count = some n → m.hide ≠ none → (f m.key).str ≠ m.text →
      (logOne f m).2 = (if n = 0 then [] else [.times (f m.key).str n]) ++ [.message m.text]) ∧
    (m.hide ≠ none → ((logOne f m).1 m.key).str = m.text ∧ ((logOne f m).1 m.key).count ≠ none) := by
  unfold logOne
  refine ⟨?_, ?_, ?_, ?_⟩
  · intro h; rw [h]
  · intro h
    cases m.hide with
    | none => rfl
    | some hd => simp [logHidden, h]
  · intro n hn hh hd
    cases hm : m.hide with
    | none => exact absurd hm hh
    | some hd' =>
      simp only [logHidden, hn, ne_eq, hd, not_false_eq_true, true_or, if_true]
      by_cases e : n = 0
      · simp [e]
      · rw [if_pos (by omega), if_neg e]
  · intro hh
    cases hm : m.hide with
    | none => exact absurd hm hh
    | some hd' =>
      simp only [if_true, logHidden]
      cases hc : (f m.key).count with
      | none => simp [Counter.reset]
      | some n =>
        simp only []
        split
        · simp [Counter.reset]
        · rename_i hcond
          have e : (f m.key).str = m.text := Classical.byContradiction fun e => hcond (.inl e)
          simp [e]

/-- `n` times the same message from the same place. -/
def again (k : Key) (n : Nat) (t : Text) (count : Nat) : List Msg := List.replicate count ⟨k, some ⟨n, none⟩, 0, t⟩

theorem seq_append (a b : List Msg) : ∀ c, seq c (a ++ b) = ((seq (seq c a).1 b).1, (seq c a).2 ++ (seq (seq c a).1 b).2) := by
  induction a with
  | nil => intro c; simp [seq]
  | cons m a ih => intro c; rw [List.cons_append, seq, seq, ih]; simp

/-- C145.  A message repeated without end from one place, hidden by number `n`: it is written once, and then once for every `n + 1`
repetitions, telling `n` of them. -/
theorem repeated_message (k : Key) (n : Nat) (t : Text) (hn : n > 0) (q r : Nat) (hr : r ≤ n) :
    linesAt k (again k n t (1 + q * (n + 1) + r)) (logAll Filter.empty (again k n t (1 + q * (n + 1) + r))).2 =
      .message t :: List.replicate q (.times t n) := by
  rw [(logAll_place k _ Filter.empty).2]
  have hp : place k (again k n t (1 + q * (n + 1) + r)) = again k n t (1 + q * (n + 1) + r) := by
    simp [place, again]
  have part : ∀ j i, i + j ≤ n → seq ⟨t, some i, none⟩ (again k n t j) = (⟨t, some (i + j), none⟩, []) := by
    intro j
    induction j with
    | zero => intro i _; rfl
    | succ j ih =>
      intro i hi
      have e : one ⟨t, some i, none⟩ ⟨k, some ⟨n, none⟩, 0, t⟩ = (⟨t, some (i + 1), none⟩, []) := by
        unfold one logHidden
        simp only [ne_eq, not_true_eq_false, false_or, due, Bool.false_eq_true, or_false]
        rw [if_neg (by omega)]
      have ih' := ih (i + 1) (by omega)
      unfold again at ih' ⊢
      rw [List.replicate_succ, seq, e]
      simp only []
      rw [ih']
      simp [Nat.add_comm 1 j, Nat.add_assoc]
  have full : seq ⟨t, some 0, none⟩ (again k n t (n + 1)) = (⟨t, some 0, none⟩, [.times t n]) := by
    have h1 := part n 0 (by omega)
    have : again k n t (n + 1) = again k n t n ++ [⟨k, some ⟨n, none⟩, 0, t⟩] := by
      unfold again; rw [List.replicate_succ']
    rw [this, seq_append, h1]
    simp [seq, one, logHidden, Counter.reset, hn]
  have many : ∀ q, seq ⟨t, some 0, none⟩ (again k n t (q * (n + 1))) = (⟨t, some 0, none⟩, List.replicate q (.times t n)) := by
    intro q
    induction q with
    | zero => simp [again, seq]
    | succ q ih =>
      have : again k n t ((q + 1) * (n + 1)) = again k n t (n + 1) ++ again k n t (q * (n + 1)) := by
        unfold again; rw [List.replicate_append_replicate]; congr 1; rw [Nat.add_mul]; omega
      rw [this, seq_append, full]
      simp only []
      rw [ih]
      simp [List.replicate_succ]
  rw [hp]
  have : again k n t (1 + q * (n + 1) + r) = again k n t 1 ++ (again k n t (q * (n + 1)) ++ again k n t r) := by
    unfold again; rw [List.replicate_append_replicate, List.replicate_append_replicate]; congr 1; omega
  have e1 : seq (Filter.empty k) (again k n t 1) = (⟨t, some 0, none⟩, [.message t]) := rfl
  rw [this, seq_append, e1]
  simp only []
  rw [seq_append, many q]
  simp only []
  rw [part r 0 (by omega)]
  simp

example : (logAll Filter.empty (again (['f'], 7) 2 ['m'] 6)).2 = [[.message ['m']], [], [], [.times ['m'] 2], [], []] := by decide

/-- C145 is violated: "m (2 times)" stands for two messages or for three.  Different histories, three and four messages, give the same
lines. -/
theorem times_ambiguous_violated :
    (logAll Filter.empty (again (['f'], 7) 2 ['m'] 3 ++ again (['f'], 7) 2 ['x'] 1)).2.flatten = [.message ['m'], .times ['m'] 2, .message ['x']] ∧
    (logAll Filter.empty (again (['f'], 7) 2 ['m'] 4 ++ again (['f'], 7) 2 ['x'] 1)).2.flatten = [.message ['m'], .times ['m'] 2, .message ['x']] := by decide

/-- The same message from the same place, hidden by interval `d`, at intervals of `d`. -/
def rarely (k : Key) (d : Int) (t : Text) : Nat → Int → List Msg
  | 0, _ => []
  | n + 1, now => ⟨k, some ⟨4294967295, some d⟩, now, t⟩ :: rarely k d t n (now + d)

/-- C145 is violated for hiding by interval: a message repeated no sooner than the interval asked for is written the first time only, and
never again, however often it occurs. -/
theorem interval_lost_violated (k : Key) (d : Int) (t : Text) (n : Nat) (now : Int) :
    (logAll Filter.empty (rarely k d t (n + 1) now)).2 = [.message t] :: List.replicate n [] := by
  have key : ∀ n now (f : Filter), f k = ⟨t, some 0, some (now - d)⟩ → (logAll f (rarely k d t n now)).2 = List.replicate n [] := by
    intro n
    induction n with
    | zero => intro now f _; rfl
    | succ n ih =>
      intro now f hf
      have e : logHidden (f k) ⟨4294967295, some d⟩ now t = (⟨t, some 0, some now⟩, []) := by
        rw [hf]
        have : due ⟨t, some 0, some (now - d)⟩ ⟨4294967295, some d⟩ now = true := by simp [due]; omega
        simp [logHidden, this, Counter.reset]
      rw [rarely, logAll, List.replicate_succ]
      have e2 : (logOne f ⟨k, some ⟨4294967295, some d⟩, now, t⟩).2 = [] := by
        simp only [logOne]; rw [e]
      have e1 : (logOne f ⟨k, some ⟨4294967295, some d⟩, now, t⟩).1 k = ⟨t, some 0, some (now + d - d)⟩ := by
        simp only [logOne, if_true]; rw [e]; simp
      rw [e2]
      simp only []
      rw [ih _ _ e1]
  rw [rarely, logAll]
  have e1 : (logOne Filter.empty ⟨k, some ⟨4294967295, some d⟩, now, t⟩).1 k = ⟨t, some 0, some (now + d - d)⟩ := by
    simp only [logOne, if_true]
    simp [logHidden, Filter.empty, Counter.fresh, Counter.reset]
  rw [key n _ _ e1]
  rfl

/-- Such messages can be made. -/
example : Hide.ofInterval 1000000 = some ⟨4294967295, some 1000000⟩ ∧ Hide.ofCount 2 = some ⟨2, none⟩ ∧ Hide.ofCount 0 = none := by decide

/-- C145.  `HideDuplicatingLogs(count)` and `HideDuplicatingLogs(interval)` refuse exactly what is not positive. -/
theorem refused (n : Nat) (d : Int) : (Hide.ofCount n = none ↔ n = 0) ∧ (Hide.ofInterval d = none ↔ d ≤ 0) ∧
    (0 < n → Hide.ofCount n = some ⟨n, none⟩) ∧ (0 < d → Hide.ofInterval d = some ⟨4294967295, some d⟩) := by
  unfold Hide.ofCount Hide.ofInterval
  refine ⟨?_, ?_, fun h => if_pos h, fun h => if_pos h⟩
  · by_cases h : n > 0
    · simp [h]; omega
    · rw [if_neg h]; exact ⟨fun _ => by omega, fun _ => rfl⟩
  · by_cases h : d > 0
    · simp [h]
    · rw [if_neg h]; exact ⟨fun _ => by omega, fun _ => rfl⟩

end Verif.Log
