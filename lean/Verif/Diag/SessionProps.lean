import Verif.Diag.SessionSpec
/-! C163: reports of profile sessions. -/

namespace Verif.Diag.Session

open Spec

/-- The time stored at a path; `t` at the root. -/
def timeAt : Nat → Kids → List Id → Option Nat
  | t, _, [] => some t
  | _, .nil, _ :: _ => none
  | t, .cons k _ t' c rest, x :: q => if x = k then timeAt t' c q else timeAt t rest (x :: q)

def comb : Option Nat → Option Nat → Option Nat
  | none, b => b
  | a, none => a
  | some a, some b => some ((a + b) % 2 ^ 64)

theorem comb_none (a : Option Nat) : comb a none = a := by cases a <;> rfl

theorem comb_assoc (a b c : Option Nat) : comb (comb a b) c = comb a (comb b c) := by
  cases a <;> cases b <;> cases c <;> simp [comb] <;> omega

def Above (k : Id) : Kids → Prop
  | .nil => True
  | .cons k' _ _ _ rest => k < k' ∧ Above k rest

def WF : Kids → Prop
  | .nil => True
  | .cons k i _ c rest => i = k ∧ k ≠ [] ∧ WF c ∧ WF rest ∧ Above k rest

theorem Above.trans {a b : Id} (h : a < b) : ∀ {ks : Kids}, Above b ks → Above a ks
  | .nil, _ => trivial
  | .cons _ _ _ _ _, hs => ⟨List.lt_trans h hs.1, Above.trans h hs.2⟩

theorem timeAt_above {k : Id} {t : Nat} {q : List Id} : ∀ {ks : Kids}, Above k ks → timeAt t ks (k :: q) = none
  | .nil, _ => rfl
  | .cons k' _ _ _ _, h => by
    rw [timeAt, if_neg]
    · exact timeAt_above h.2
    · rintro rfl; exact List.lt_irrefl _ h.1

theorem timeAt_irrel {t t' : Nat} {x : Id} {q : List Id} : ∀ (ks : Kids), timeAt t ks (x :: q) = timeAt t' ks (x :: q)
  | .nil => rfl
  | .cons k _ _ _ rest => by
    rw [timeAt, timeAt]
    by_cases h : x = k
    · rw [if_pos h, if_pos h]
    · rw [if_neg h, if_neg h]; exact timeAt_irrel rest

theorem lt_of_not {a b : Id} (h1 : ¬ a = b) (h2 : ¬ b < a) : a < b := by
  rcases List.le_iff_lt_or_eq.mp (List.not_lt.mp h2) with h | h
  · exact h
  · exact absurd h h1

theorem put_above {a key : Id} {time : Nat} {ch : Kids} {m : Kids → Kids} (h : a < key) :
    ∀ {ks : Kids}, Above a ks → Above a (put key key time ch m ks)
  | .nil, _ => ⟨h, trivial⟩
  | .cons k i t c rest, hs => by
    rw [put]
    by_cases h1 : k = key
    · rw [if_pos h1]
      split <;> exact hs
    · rw [if_neg h1]
      by_cases h2 : key < k
      · rw [if_pos h2]; exact ⟨h, hs⟩
      · rw [if_neg h2]; exact ⟨hs.1, put_above h hs.2⟩

/-- What the loop has to do with the children. -/
def MergeOk (ch : Kids) (m : Kids → Kids) : Prop :=
  ∀ c, WF c → WF (m c) ∧ ∀ t x q, timeAt t (m c) (x :: q) = comb (timeAt t c (x :: q)) (timeAt t ch (x :: q))

theorem put_ok {key : Id} {time : Nat} {ch : Kids} {m : Kids → Kids} (hk : key ≠ []) (hc : WF ch) (hm : MergeOk ch m) :
    ∀ {ks : Kids}, WF ks → WF (put key key time ch m ks) ∧
      ∀ t x q, timeAt t (put key key time ch m ks) (x :: q) = comb (timeAt t ks (x :: q)) (timeAt t (.cons key key time ch .nil) (x :: q))
  | .nil, _ => ⟨⟨rfl, hk, hc, trivial, trivial⟩, fun t x q => rfl⟩
  | .cons k i t c rest, hs => by
    obtain ⟨rfl, h0, h1, h2, h3⟩ := hs
    rw [put]
    by_cases e : i = key
    · rw [if_pos e, if_neg h0]
      subst e
      refine ⟨⟨rfl, h0, (hm c h1).1, h2, h3⟩, ?_⟩
      intro t0 x q
      simp only [timeAt]
      by_cases hx : x = i
      · rw [if_pos hx, if_pos hx, if_pos hx]
        cases q with
        | nil => simp [timeAt, comb, addTime]
        | cons y q =>
          rw [(hm c h1).2, timeAt_irrel (t := addTime t time) (t' := t) c, timeAt_irrel (t := addTime t time) (t' := time) ch]
      · rw [if_neg hx, if_neg hx, if_neg hx, comb_none]
    · rw [if_neg e]
      by_cases h : key < i
      · rw [if_pos h]
        refine ⟨⟨rfl, hk, hc, ⟨rfl, h0, h1, h2, h3⟩, h, h3.trans h⟩, ?_⟩
        intro t0 x q
        rw [timeAt.eq_3 t0 key]
        by_cases hx : x = key
        · rw [if_pos hx]
          have : timeAt t0 (.cons i i t c rest) (x :: q) = none := by rw [hx]; exact timeAt_above ⟨h, h3.trans h⟩
          rw [this]
          simp only [timeAt]
          rw [if_pos hx]
          rfl
        · rw [if_neg hx]
          have : timeAt t0 (.cons key key time ch .nil) (x :: q) = none := by simp only [timeAt]; rw [if_neg hx]
          rw [this, comb_none]
      · rw [if_neg h]
        have ih := put_ok (time := time) hk hc hm h2
        refine ⟨⟨rfl, h0, h1, ih.1, put_above (lt_of_not e h) h3⟩, ?_⟩
        intro t0 x q
        rw [timeAt.eq_3 t0 i, timeAt.eq_3 t0 i]
        by_cases hx : x = i
        · rw [if_pos hx, if_pos hx]
          have : timeAt t0 (.cons key key time ch .nil) (x :: q) = none := by simp only [timeAt]; rw [if_neg (by rw [hx]; exact e)]
          rw [this, comb_none]
        · rw [if_neg hx, if_neg hx]
          exact ih.2 t0 x q

theorem cons_split {key : Id} {time : Nat} {ch rest : Kids} {t : Nat} {x : Id} {q : List Id} (h : Above key rest) :
    timeAt t (.cons key key time ch rest) (x :: q) = comb (timeAt t (.cons key key time ch .nil) (x :: q)) (timeAt t rest (x :: q)) := by
  simp only [timeAt]
  by_cases hx : x = key
  · rw [if_pos hx, if_pos hx, hx, timeAt_above h, comb_none]
  · rw [if_neg hx, if_neg hx]; rfl

theorem merge_ok : ∀ {src : Kids}, WF src → MergeOk src (merge src)
  | .nil, _ => fun c hc => ⟨hc, fun t x q => by rw [merge, timeAt, comb_none]⟩
  | .cons k i t ch rest, h => fun c hc => by
    obtain ⟨rfl, h0, h1, h2, h3⟩ := h
    have p := put_ok (time := t) h0 h1 (merge_ok h1) hc
    have r := merge_ok h2 _ p.1
    rw [merge]
    refine ⟨r.1, ?_⟩
    intro t0 x q
    rw [r.2, p.2, comb_assoc, cons_split h3]

/-- What a run adds. -/
def contrib (run : Run) (p : List Id) : Option Nat := cond (occurs run p) (some (total run p % 2 ^ 64)) none

theorem total_none : ∀ {run : Run} {p : List Id}, occurs run p = false → total run p = 0
  | .nil, _, _ => rfl
  | .cons _ _ _ _, [], _ => rfl
  | .cons id time ch rest, x :: q, h => by
    simp only [occurs, Bool.or_eq_false_iff, Bool.and_eq_false_iff] at h
    rw [total, total_none h.2]
    by_cases hx : x = id
    · rw [if_pos hx]
      have : (q.isEmpty = false ∧ occurs ch q = false) := by
        rcases h.1 with h' | h'
        · simp [hx] at h'
        · exact h'
      cases q with
      | nil => simp at this
      | cons y q => rw [if_neg (by simp), total_none this.2]
    · rw [if_neg hx]

/-- The times fit into 64 bits. -/
def Fits : Run → Prop
  | .nil => True
  | .cons _ time children rest => time < 2 ^ 64 ∧ Fits children ∧ Fits rest

theorem collect_ok : ∀ {run : Run}, named run → Fits run → ∀ {ks : Kids}, WF ks → WF (collect run ks) ∧
    ∀ t x q, timeAt t (collect run ks) (x :: q) = comb (timeAt t ks (x :: q)) (contrib run (x :: q))
  | .nil, _, _, ks, h => ⟨h, fun t x q => by rw [collect, contrib]; simp [occurs, comb_none]⟩
  | .cons id time ch rest, hn, hf, ks, h => by
    have c := collect_ok hn.2.1 hf.2.1 (ks := .nil) trivial
    have p := put_ok (time := time) hn.1 c.1 (merge_ok c.1) h
    have r := collect_ok hn.2.2 hf.2.2 p.1
    rw [collect]
    refine ⟨r.1, ?_⟩
    intro t x q
    rw [r.2, p.2, comb_assoc]
    congr 1
    simp only [timeAt]
    have key : contrib (.cons id time ch rest) (x :: q) =
        comb (if x = id then (if q = [] then some time else contrib ch q) else none) (contrib rest (x :: q)) := by
      simp only [contrib, occurs, total]
      by_cases hx : x = id
      · have hb : (x == id) = true := by simp [hx]
        rw [if_pos hx, if_pos hx, hb]
        cases q with
        | nil =>
          have := hf.1
          cases hr : occurs rest [x] with
          | true => simp [comb]
          | false => simp [comb, total_none hr]; omega
        | cons y q =>
          cases hr : occurs rest (x :: y :: q) with
          | true =>
            cases ho : occurs ch (y :: q) with
            | true => simp [comb]
            | false => simp [comb, total_none ho]
          | false =>
            cases ho : occurs ch (y :: q) with
            | true => simp [comb, total_none hr]
            | false => simp [comb]
      · have hb : (x == id) = false := by simp [hx]
        rw [if_neg hx, if_neg hx, hb]
        simp [comb]
    rw [key]
    by_cases hx : x = id
    · rw [if_pos hx, if_pos hx]
      cases q with
      | nil => simp [timeAt]
      | cons y q => rw [c.2, if_neg (by simp)]; rfl
    · rw [if_neg hx, if_neg hx]

theorem timeAt_collect {run : Run} (hn : named run) (hf : Fits run) (t : Nat) {p : List Id} (hp : p ≠ []) :
    timeAt t (collect run .nil) p = if occurs run p = true then some (total run p % 2 ^ 64) else none := by
  cases p with
  | nil => exact absurd rfl hp
  | cons x q =>
    rw [(collect_ok hn hf (ks := .nil) trivial).2]
    simp only [timeAt, contrib, comb]
    cases occurs run (x :: q) <;> rfl

/-! ### The lines -/

def paths : Kids → List (List Id)
  | .nil => []
  | .cons k _ _ c rest => [k] :: (paths c).map (k :: ·) ++ paths rest

theorem mem_paths {p : List Id} : ∀ {ks : Kids}, WF ks → ∀ t, p ∈ paths ks ↔ p ≠ [] ∧ timeAt t ks p ≠ none
  | .nil, _, t => by
    cases p <;> simp [paths, timeAt]
  | .cons k i t' c rest, h, t => by
    obtain ⟨rfl, h0, h1, h2, h3⟩ := h
    simp only [paths, List.cons_append, List.mem_cons, List.mem_append, List.mem_map]
    cases p with
    | nil =>
      have := mem_paths (p := []) h2 t
      simp at this
      simp [this]
    | cons x q =>
      have hr := mem_paths (p := x :: q) h2 t
      have hc := mem_paths (p := q) h1 t'
      rw [timeAt, hr]
      by_cases hx : x = i
      · rw [if_pos hx, hx, timeAt_above h3]
        constructor
        · rintro (h | ⟨q', h, e⟩ | h)
          · cases h; simp [timeAt]
          · cases e; exact ⟨by simp, (hc.mp h).2⟩
          · exact absurd rfl h.2
        · rintro ⟨-, h⟩
          cases q with
          | nil => exact .inl rfl
          | cons y q => exact .inr (.inl ⟨_, hc.mpr ⟨by simp, h⟩, rfl⟩)
      · rw [if_neg hx]
        constructor
        · rintro (h | ⟨q', h, e⟩ | h)
          · cases h; exact absurd rfl hx
          · cases e; exact absurd rfl hx
          · exact h
        · exact fun h => .inr (.inr h)

theorem paths_above {k : Id} : ∀ {ks : Kids}, Above k ks → ∀ p ∈ paths ks, ∃ x q, p = x :: q ∧ k < x
  | .nil, _, p, hp => by simp [paths] at hp
  | .cons k' _ _ c rest, h, p, hp => by
    simp only [paths, List.cons_append, List.mem_cons, List.mem_append, List.mem_map] at hp
    rcases hp with rfl | ⟨q, -, rfl⟩ | hp
    · exact ⟨k', [], rfl, h.1⟩
    · exact ⟨k', q, rfl, h.1⟩
    · exact paths_above h.2 p hp

theorem paths_sorted : ∀ {ks : Kids}, WF ks → (paths ks).Pairwise (· < ·)
  | .nil, _ => List.Pairwise.nil
  | .cons k i t' c rest, h => by
    obtain ⟨rfl, h0, h1, h2, h3⟩ := h
    simp only [paths, List.cons_append]
    have hnil : ∀ q ∈ paths c, q ≠ [] := fun q hq => ((mem_paths h1 0).mp hq).1
    refine List.pairwise_cons.mpr ⟨?_, List.pairwise_append.mpr ⟨?_, paths_sorted h2, ?_⟩⟩
    · intro p hp
      rcases List.mem_append.mp hp with hp | hp
      · obtain ⟨q, hq, rfl⟩ := List.mem_map.mp hp
        cases q with
        | nil => exact absurd rfl (hnil _ hq)
        | cons y q => exact List.cons_lt_cons_iff.mpr (.inr ⟨rfl, List.nil_lt_cons ..⟩)
      · obtain ⟨x, q, rfl, hx⟩ := paths_above h3 p hp
        exact List.cons_lt_cons_iff.mpr (.inl hx)
    · refine List.pairwise_map.mpr ((paths_sorted h1).imp ?_)
      intro a b hab
      exact List.cons_lt_cons_iff.mpr (.inr ⟨rfl, hab⟩)
    · intro a ha b hb
      obtain ⟨q, hq, rfl⟩ := List.mem_map.mp ha
      obtain ⟨x, q', rfl, hx⟩ := paths_above h3 b hb
      exact List.cons_lt_cons_iff.mpr (.inl hx)

def lineAt (t : Nat) (ks : Kids) (level : Nat) (p : List Id) : Line :=
  ⟨level + p.length, p.getLastD [], (timeAt t ks p).getD 0, percentOf ((timeAt t ks p).getD 0) ((timeAt t ks p.dropLast).getD 0)⟩

theorem lines_ok : ∀ {ks : Kids}, WF ks → ∀ (t level : Nat),
    (∀ p ∈ paths ks, percentOf ((timeAt t ks p).getD 0) ((timeAt t ks p.dropLast).getD 0) ≠ none) →
    lines ks (level + 1) t = some ((paths ks).map (lineAt t ks level))
  | .nil, _, _, _, _ => rfl
  | .cons k i t' c rest, h, t, level, hp => by
    obtain ⟨rfl, h0, h1, h2, h3⟩ := h
    have a1 : ∀ q, timeAt t (.cons i i t' c rest) (i :: q) = timeAt t' c q := fun q => by rw [timeAt, if_pos rfl]
    have a2 : ∀ p ∈ paths rest, timeAt t (.cons i i t' c rest) p = timeAt t rest p ∧ timeAt t (.cons i i t' c rest) p.dropLast = timeAt t rest p.dropLast := by
      intro p hp
      obtain ⟨x, q, rfl, hx⟩ := paths_above h3 p hp
      have hne : ¬ x = i := by rintro rfl; exact List.lt_irrefl _ hx
      refine ⟨by rw [timeAt, if_neg hne], ?_⟩
      cases q with
      | nil => simp [timeAt]
      | cons y q => rw [List.dropLast_cons_of_ne_nil (by simp), timeAt, if_neg hne]
    have hnil : ∀ q ∈ paths c, q ≠ [] := fun q hq => ((mem_paths h1 0).mp hq).1
    have ihc := lines_ok h1 t' (level + 1) (by
      intro p hpc
      have := hp (i :: p) (by simp [paths, hpc])
      rw [List.dropLast_cons_of_ne_nil (hnil p hpc), a1, a1] at this
      exact this)
    have ihr := lines_ok h2 t level (by
      intro p hpr
      have := hp p (by simp [paths, hpr])
      rw [(a2 p hpr).1, (a2 p hpr).2] at this
      exact this)
    have h0' := hp [i] (by simp [paths])
    have e0 : timeAt t (.cons i i t' c rest) [i] = some t' := by rw [a1]; simp [timeAt]
    have e1 : timeAt t (.cons i i t' c rest) [i].dropLast = some t := by simp [timeAt]
    rw [e0, e1] at h0'
    simp only [Option.getD_some] at h0'
    rw [lines, ihc, ihr]
    cases hq : percentOf t' t with
    | none => exact absurd hq h0'
    | some pc =>
      simp only [paths, List.cons_append, List.map_cons, List.map_append, List.map_map, Option.some.injEq, List.cons.injEq]
      refine ⟨?_, ?_⟩
      · simp only [lineAt, e0, e1, Option.getD_some, hq, List.length_singleton]
        rfl
      · congr 1
        · apply List.map_congr_left
          intro p hpc
          simp only [Function.comp, lineAt]
          rw [List.dropLast_cons_of_ne_nil (hnil p hpc), a1, a1]
          cases p with
          | nil => exact absurd rfl (hnil _ hpc)
          | cons y q => simp only [List.length_cons, List.getLastD]; congr 1; omega
        · apply List.map_congr_left
          intro p hpr
          simp only [lineAt]
          rw [(a2 p hpr).1, (a2 p hpr).2]

/-! ### Times of parents and children -/

theorem total_parent : ∀ {run : Run} {bound : Nat}, nested bound run → ∀ {p : List Id} {x : Id}, p ≠ [] → total run p = 0 → total run (p ++ [x]) = 0
  | .nil, _, _, _, _, _, _ => rfl
  | .cons id time ch rest, bound, h, [], x, hp, _ => absurd rfl hp
  | .cons id time ch rest, bound, h, y :: q, x, _, h0 => by
    simp only [List.cons_append, total] at h0 ⊢
    have hr := total_parent h.2.2 (p := y :: q) (x := x) (by simp) (by omega)
    simp only [List.cons_append] at hr
    rw [hr]
    by_cases hy : y = id
    · rw [if_pos hy] at h0 ⊢
      rw [if_neg (by simp)]
      cases q with
      | nil =>
        have ht : time = 0 := by simp at h0; omega
        have : ∀ {r : Run}, nested 0 r → total r [x] = 0 := by
          intro r
          induction r with
          | nil => intro _; rfl
          | cons i t c r _ ihr =>
            intro hn
            have := hn.1
            simp only [total]
            rw [ihr hn.2.2]
            split <;> simp <;> omega
        have hz := this (r := ch) (by rw [← ht]; exact h.2.1)
        simpa using hz
      | cons z q =>
        rw [if_neg (by simp)] at h0
        have := total_parent h.2.1 (p := z :: q) (x := x) (by simp) (by omega)
        simpa using this
    · rw [if_neg hy]

theorem total_direct (x : Id) : ∀ (run : Run), total run [x] ≤ direct run
  | .nil => Nat.le_refl _
  | .cons id time ch rest => by
    have := total_direct x rest
    simp only [total, direct]
    split <;> simp <;> omega

theorem total_seq : ∀ {run : Run}, sequential run → ∀ {p : List Id} {x : Id}, p ≠ [] → total run (p ++ [x]) ≤ total run p
  | .nil, _, _, _, _ => Nat.le_refl _
  | .cons id time ch rest, h, [], x, hp => absurd rfl hp
  | .cons id time ch rest, h, y :: q, x, _ => by
    simp only [List.cons_append, total]
    have hr := total_seq h.2.2 (p := y :: q) (x := x) (by simp)
    simp only [List.cons_append] at hr
    by_cases hy : y = id
    · rw [if_pos hy, if_pos hy]
      rw [if_neg (by simp)]
      cases q with
      | nil =>
        have := total_direct x ch
        have h' := h.1
        simp only [List.nil_append, List.nil_append, if_true] at *
        omega
      | cons z q =>
        have := total_seq h.2.1 (p := z :: q) (x := x) (by simp)
        rw [if_neg (by simp)]
        omega
    · rw [if_neg hy, if_neg hy]; omega

theorem fits_of_total : ∀ {run : Run}, (∀ p, total run p * 100 < 2 ^ 64) → Fits run
  | .nil, _ => trivial
  | .cons id time ch rest, h => by
    refine ⟨?_, fits_of_total ?_, fits_of_total ?_⟩
    · have := h [id]
      simp only [total, if_true] at this
      omega
    · intro p
      cases p with
      | nil => cases ch <;> simp [total]
      | cons y q =>
        have := h (id :: y :: q)
        simp only [total, if_true] at this
        rw [if_neg (by simp)] at this
        omega
    · intro p
      cases p with
      | nil => cases rest <;> simp [total]
      | cons y q =>
        have := h (y :: q)
        simp only [total] at this
        omega

theorem occurs_parent : ∀ {run : Run} {p : List Id} {x : Id}, p ≠ [] → occurs run (p ++ [x]) = true → occurs run p = true
  | .nil, _, _, _, h => by simp [occurs] at h
  | .cons id time ch rest, [], x, hp, _ => absurd rfl hp
  | .cons id time ch rest, y :: q, x, _, h => by
    simp only [List.cons_append, occurs, Bool.or_eq_true, Bool.and_eq_true] at h ⊢
    rcases h with ⟨h1, h2⟩ | h
    · refine .inl ⟨h1, ?_⟩
      cases q with
      | nil => exact .inl rfl
      | cons z q =>
        refine .inr (occurs_parent (x := x) (by simp) ?_)
        rcases h2 with h2 | h2
        · simp at h2
        · exact h2
    · exact .inr (occurs_parent (p := y :: q) (x := x) (by simp) h)

/-- C163.  The report of a session without a parent has one line for the session itself and one for every chain of ids of sessions below it, sorted; a line has the sum of the
times of all sessions with that chain of ids and its share in the time of the sessions it is a child of.  Nothing is divided by zero. -/
theorem report_exact_partial (id : Id) (time threshold : Nat) (run : Run) (hn : named run) (hs : nested time run) (ht : ∀ p, total run p * 100 < 2 ^ 64) (hth : threshold < time) :
    ∃ ps : List (List Id), report id time threshold true run = some (some (⟨0, id, time, none⟩ :: ps.map (Spec.line time run))) ∧
      ps.Pairwise (· < ·) ∧ ∀ p, p ∈ ps ↔ occurs run p = true := by
  have hf := fits_of_total ht
  have hwf := (collect_ok hn hf (ks := .nil) trivial).1
  have hat := fun t p hp => timeAt_collect hn hf t (p := p) hp
  have hmem : ∀ p, p ∈ paths (collect run .nil) ↔ occurs run p = true := by
    intro p
    rw [mem_paths hwf 0]
    constructor
    · rintro ⟨h1, h2⟩
      rw [hat 0 p h1] at h2
      by_cases ho : occurs run p = true
      · exact ho
      · rw [if_neg ho] at h2; exact absurd rfl h2
    · intro ho
      have hp : p ≠ [] := by
        rintro rfl
        cases run <;> simp [occurs] at ho
      refine ⟨hp, ?_⟩
      rw [hat 0 p hp, if_pos ho]
      simp
  have hval : ∀ p, occurs run p = true → timeAt time (collect run .nil) p = some (total run p) := by
    intro p ho
    have hp : p ≠ [] := by
      rintro rfl
      cases run <;> simp [occurs] at ho
    rw [hat time p hp, if_pos ho, Nat.mod_eq_of_lt]
    have := ht p
    omega
  have hpar : ∀ p, occurs run p = true → timeAt time (collect run .nil) p.dropLast = some (parentTotal time run p) := by
    intro p ho
    rw [parentTotal]
    by_cases hd : p.dropLast = []
    · rw [if_pos hd, hd]; simp [timeAt]
    · rw [if_neg hd]
      have hp : p ≠ [] := by rintro rfl; exact hd rfl
      refine hval _ (occurs_parent (x := p.getLast hp) hd ?_)
      rw [List.dropLast_concat_getLast]
      exact ho
  have hpc : ∀ p, occurs run p = true → percentOf (total run p) (parentTotal time run p) = some (total run p * 100 / parentTotal time run p) := by
    intro p ho
    rw [percentOf]
    by_cases h0 : total run p = 0
    · rw [if_pos h0, h0]; simp
    · rw [if_neg h0]
      have hpt : ¬ parentTotal time run p = 0 := by
        intro hz
        rw [parentTotal] at hz
        by_cases hd : p.dropLast = []
        · rw [if_pos hd] at hz; omega
        · rw [if_neg hd] at hz
          have hp : p ≠ [] := by rintro rfl; exact hd rfl
          have := total_parent hs (x := p.getLast hp) hd hz
          rw [List.dropLast_concat_getLast] at this
          exact h0 this
      rw [if_neg hpt, Nat.mod_eq_of_lt (ht p)]
  refine ⟨paths (collect run .nil), ?_, paths_sorted hwf, hmem⟩
  rw [report, if_neg (by simp), if_pos hth, lines_ok hwf time 0]
  · simp only [Option.map_some, Option.some.injEq, List.cons.injEq, true_and]
    apply List.map_congr_left
    intro p hp
    have ho := (hmem p).mp hp
    simp only [lineAt, Spec.line, hval p ho, hpar p ho, Option.getD_some, hpc p ho, Nat.zero_add]
  · intro p hp
    have ho := (hmem p).mp hp
    rw [hval p ho, hpar p ho, Option.getD_some, Option.getD_some, hpc p ho]
    simp

/-- C163.  Without a parent there is no report of a session that was not enabled or that took no longer than the threshold. -/
theorem report_threshold (id : Id) (time threshold : Nat) (enable : Bool) (run : Run) (h : enable = false ∨ time ≤ threshold) :
    report id time threshold enable run = some none := by
  rw [report]
  rcases h with h | h
  · rw [if_pos h]
  · by_cases he : enable = false
    · rw [if_pos he]
    · rw [if_neg he, if_neg (by omega)]

/-- C163.  If the children of each session do not overlap in time, no share is above 100 percent. -/
theorem share_le (time : Nat) (run : Run) (hs : sequential run) (hd : direct run ≤ time) (p : List Id) : total run p * 100 / parentTotal time run p ≤ 100 := by
  have hle : total run p ≤ parentTotal time run p := by
    rw [parentTotal]
    by_cases hp : p = []
    · subst hp; cases run <;> simp [total]
    · by_cases h : p.dropLast = []
      · rw [if_pos h]
        have := List.dropLast_concat_getLast hp
        rw [h] at this
        rw [← this]
        have := total_direct (p.getLast hp) run
        simp only [List.nil_append]
        omega
      · rw [if_neg h]
        have := total_seq hs (x := p.getLast hp) h
        rwa [List.dropLast_concat_getLast] at this
  exact Nat.div_le_of_le_mul (by omega)

/-- C163, why `named` is needed: of the sessions with an empty id only the last one counts. -/
theorem empty_id_violated : report [82] 10 0 true (.cons [] 3 .nil (.cons [] 4 .nil .nil)) = some (some [⟨0, [82], 10, none⟩, ⟨1, [], 4, some 40⟩]) ∧
    total (.cons [] 3 .nil (.cons [] 4 .nil .nil)) [[]] = 7 := by decide +kernel

/-- C163, why `nested` is needed: a parent of zero milliseconds with a child that took longer makes the report divide by zero. -/
theorem zero_parent_violated : report [82] 10 0 true (.cons [65] 0 (.cons [66] 1 .nil .nil) .nil) = none := by decide +kernel

/-! Non-vacuity: two sessions `A`, one of them with a child `B`, and a session `0`. -/
example : named (.cons [65] 3 (.cons [66] 2 .nil .nil) (.cons [48] 1 .nil (.cons [65] 5 (.cons [66] 1 .nil .nil) .nil))) ∧
    nested 10 (.cons [65] 3 (.cons [66] 2 .nil .nil) (.cons [48] 1 .nil (.cons [65] 5 (.cons [66] 1 .nil .nil) .nil))) ∧
    sequential (.cons [65] 3 (.cons [66] 2 .nil .nil) (.cons [48] 1 .nil (.cons [65] 5 (.cons [66] 1 .nil .nil) .nil))) := by
  simp [named, nested, sequential, direct]

example : report [82] 10 0 true (.cons [65] 3 (.cons [66] 2 .nil .nil) (.cons [48] 1 .nil (.cons [65] 5 (.cons [66] 1 .nil .nil) .nil))) =
    some (some [⟨0, [82], 10, none⟩, ⟨1, [48], 1, some 10⟩, ⟨1, [65], 8, some 80⟩, ⟨2, [66], 3, some 37⟩]) := by decide +kernel

end Verif.Diag.Session
