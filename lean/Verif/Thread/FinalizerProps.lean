import Verif.Thread.Finalizer
/-
What a user of Finalizer relies on: objects are deleted by the executor, once, when nothing refers to them, and all of them are.
-/
namespace Verif.Thread.Finalizer

/-- The pointers to `i` that the first `n` objects hold, except those that are gone. -/
def held (children : Nat → List Nat) (gone : List Nat) (i : Nat) : Nat → Nat
  | 0 => 0
  | n + 1 => held children gone i n + if n ∈ gone then 0 else (children n).count i

theorem held_congr {f g : Nat → List Nat} {gone : List Nat} {i : Nat} : ∀ {n : Nat}, (∀ j, j < n → f j = g j) → held f gone i n = held g gone i n
  | 0, _ => rfl
  | n + 1, h => by rw [held, held, held_congr (fun j hj => h j (by omega)), h n (by omega)]

theorem held_gone {f : Nat → List Nat} {gone : List Nat} {i j : Nat} (hj : j ∉ gone) : ∀ {n : Nat},
    held f (gone ++ [j]) i n + (if j < n then (f j).count i else 0) = held f gone i n
  | 0 => by simp [held]
  | n + 1 => by
    have ih := held_gone (f := f) (i := i) hj (n := n)
    rw [held, held]
    by_cases hn : n = j
    · subst hn
      simp [hj] at ih ⊢
      omega
    · have h1 : n ∈ gone ++ [j] ↔ n ∈ gone := by simp [hn]
      have h2 : j < n + 1 ↔ j < n := by omega
      simp only [h1, h2]
      omega

theorem held_zero {f : Nat → List Nat} {gone : List Nat} {i : Nat} : ∀ {n : Nat}, (∀ j, j < n → j ∉ gone → i ∉ f j) → held f gone i n = 0
  | 0, _ => rfl
  | n + 1, h => by
    rw [held, held_zero (fun j hj => h j (by omega))]
    split
    · rfl
    · next hn => rw [List.count_eq_zero.mpr (h n (by omega) hn)]

theorem held_pos {f : Nat → List Nat} {gone : List Nat} {i j : Nat} : ∀ {n : Nat}, j < n → j ∉ gone → i ∈ f j → 0 < held f gone i n
  | n + 1, hj, hg, hi => by
    rw [held]
    by_cases hn : n = j
    · subst hn
      rw [if_neg hg]
      have := List.count_pos_iff.mpr hi
      omega
    · have := held_pos (n := n) (by omega) hg hi
      omega

/-- Invariant, with pointers that are about to be released. -/
structure Inv (s : State) (pending : List Nat) : Prop where
  below : ∀ j, j < s.n → ∀ c ∈ s.children j, c < j
  count : ∀ i, i < s.n → s.strong i = s.users i + held s.children s.deleted i s.n + pending.count i
  gone : ∀ i, i < s.n → (s.strong i = 0 ↔ i ∈ s.queue ∨ i ∈ s.deleted)
  nodup : (s.queue ++ s.deleted).Nodup
  made : (∀ i ∈ s.queue, i < s.n) ∧ (∀ i ∈ s.deleted, i < s.n) ∧ (∀ i ∈ pending, i < s.n) ∧ ∀ i, 0 < s.users i → i < s.n

theorem inv_init : Inv init [] := ⟨by simp [init], by simp [init], by simp [init], by simp [init], by simp [init]⟩

theorem inv_release {s : State} {i : Nat} {p : List Nat} (hi : Inv s (i :: p)) : Inv (release s i) p := by
  have hin := hi.made.2.2.1 i (by simp)
  have hc := hi.count i hin
  simp only [List.count_cons_self] at hc
  refine ⟨hi.below, fun k hk => ?_, fun k hk => ?_, ?_, ?_⟩
  · have := hi.count k hk
    simp only [release, set]
    by_cases he : k = i
    · subst he
      simp only [if_true]
      simp only [List.count_cons_self] at this
      omega
    · have hne : ¬ i = k := fun h => he h.symm
      rw [if_neg he, this]
      simp [List.count_cons, hne]
  · have hg := hi.gone k hk
    simp only [release, set]
    by_cases he : k = i
    · subst he
      simp only [if_true]
      by_cases h1 : s.strong k = 1
      · simp [h1]
      · rw [if_neg h1, ← hg]
        omega
    · rw [if_neg he, hg]
      split
      · simp [he]
      · rfl
  · simp only [release]
    split
    · next h1 =>
      have hn := mt (hi.gone i hin).mpr (by omega)
      have := hi.nodup
      rw [List.append_assoc, List.nodup_append]
      rw [List.nodup_append] at this
      obtain ⟨h2, h3, h4⟩ := this
      refine ⟨h2, ?_, ?_⟩
      · simp only [List.cons_append, List.nil_append, List.nodup_cons]
        exact ⟨fun h => hn (.inr h), h3⟩
      · intro a ha b hb
        simp only [List.cons_append, List.nil_append, List.mem_cons] at hb
        rcases hb with rfl | hb
        · intro h
          subst h
          exact hn (.inl ha)
        · exact h4 a ha b hb
    · exact hi.nodup
  · obtain ⟨h1, h2, h3, h4⟩ := hi.made
    refine ⟨fun k hk => ?_, h2, fun k hk => h3 k (by simp [hk]), h4⟩
    simp only [release] at hk ⊢
    split at hk
    · rcases List.mem_append.mp hk with hk | hk
      · exact h1 k hk
      · simp at hk
        subst hk
        exact hin
    · exact h1 k hk

theorem inv_releaseAll : ∀ {cs : List Nat} {s : State}, Inv s cs → Inv (releaseAll s cs) []
  | [], _, h => h
  | c :: cs, s, h => by
    show Inv (releaseAll (release s c) cs) []
    exact inv_releaseAll (inv_release h)

theorem releaseAll_fixed : ∀ (cs : List Nat) (s : State), (releaseAll s cs).deleted = s.deleted ∧ (releaseAll s cs).n = s.n ∧ (releaseAll s cs).users = s.users ∧ (releaseAll s cs).children = s.children
  | [], _ => ⟨rfl, rfl, rfl, rfl⟩
  | c :: cs, s => by
    have := releaseAll_fixed cs (release s c)
    exact this

theorem inv_step {s s' : State} {a : Act} (hi : Inv s []) (ha : a ≠ .clear) (h : step s a = some s') : Inv s' [] := by
  obtain ⟨m1, m2, m3, m4⟩ := hi.made
  cases a with
  | clear => exact absurd rfl ha
  | make cs =>
    simp only [step] at h
    split at h
    · next hall =>
      have hcs : ∀ c ∈ cs, c < s.n ∧ 0 < s.strong c := by
        intro c hc
        have hu : 0 < s.users c := by simpa using List.all_eq_true.mp hall c hc
        have hl := m4 c hu
        have := hi.count c hl
        exact ⟨hl, by omega⟩
      cases h
      refine ⟨fun j hj c hc => ?_, fun i hin => ?_, fun i hin => ?_, hi.nodup, fun i hq => ?_, fun i hd => ?_, by simp, fun i hu => ?_⟩
      · simp only [set] at hc
        split at hc
        · next he => subst he; exact (hcs c hc).1
        · next he => exact hi.below j (by simp only at hj; omega) c hc
      · have hnd : s.n ∉ s.deleted := fun h => by have := m2 s.n h; omega
        simp only [held, set, if_true, if_neg hnd]
        rw [held_congr (g := s.children) (fun j hj => by show (if j = s.n then cs else s.children j) = s.children j; rw [if_neg (by omega)])]
        by_cases he : i = s.n
        · subst he
          simp only [if_true]
          rw [held_zero (fun j hj _ hc => by have := hi.below j hj _ hc; omega), List.count_eq_zero.mpr (fun hc => by have := (hcs _ hc).1; omega)]
          simp
        · have hlt : i < s.n := by simp only at hin; omega
          have := hi.count i hlt
          simp only [if_neg he]
          simp at this ⊢
          omega
      · by_cases he : i = s.n
        · subst he
          simp only [if_true]
          constructor
          · intro h; omega
          · rintro (h | h)
            · have := m1 _ h; omega
            · have := m2 _ h; omega
        · have hlt : i < s.n := by simp only at hin; omega
          simp only [if_neg he]
          rw [← hi.gone i hlt]
          by_cases hc : i ∈ cs
          · have := (hcs i hc).2
            omega
          · rw [List.count_eq_zero.mpr hc]
            omega
      · have := m1 i hq; simp only; omega
      · have := m2 i hd; simp only; omega
      · simp only [set] at hu ⊢
        split at hu
        · omega
        · have := m4 i hu; omega
    · cases h
  | copy i =>
    simp only [step] at h
    split at h
    · next hu =>
      have hl := m4 i hu
      have hci := hi.count i hl
      cases h
      refine ⟨hi.below, fun k hk => ?_, fun k hk => ?_, hi.nodup, m1, m2, by simp, fun k hk => ?_⟩
      · have := hi.count k hk
        simp only [set]
        split
        · next he => subst he; omega
        · exact this
      · have := hi.gone k hk
        simp only [set]
        split
        · next he => subst he; rw [← this]; omega
        · exact this
      · simp only [set] at hk
        split at hk
        · next he => subst he; exact hl
        · exact m4 k hk
    · cases h
  | drop i =>
    simp only [step] at h
    split at h
    · next hu =>
      have hl := m4 i hu
      cases h
      refine inv_release ⟨hi.below, fun k hk => ?_, hi.gone, hi.nodup, m1, m2, by simpa using hl, fun k hk => ?_⟩
      · have := hi.count k hk
        simp only [set]
        by_cases he : k = i
        · subst he
          simp at this ⊢
          omega
        · have hne : ¬ i = k := fun h => he h.symm
          simp [he, hne, List.count_cons] at this ⊢
          exact this
      · simp only [set] at hk
        split at hk
        · next he => subst he; exact hl
        · exact m4 k hk
    · cases h
  | work =>
    simp only [step] at h
    split at h
    · cases h
    · next i q hq =>
      cases h
      have hnd := hi.nodup
      rw [hq] at hnd
      have hl := m1 i (by rw [hq]; simp)
      have hni : i ∉ s.deleted := by
        simp only [List.cons_append, List.nodup_cons] at hnd
        exact fun h => hnd.1 (by simp [h])
      refine inv_releaseAll ⟨hi.below, fun k hk => ?_, fun k hk => ?_, ?_, fun k hk => m1 k (by rw [hq]; simp [hk]), fun k hk => ?_, fun k hk => ?_, m4⟩
      · have := hi.count k hk
        have h2 := held_gone (f := s.children) (i := k) hni (n := s.n)
        simp only [if_pos hl] at h2
        simp at this ⊢
        omega
      · have := hi.gone k hk
        rw [hq] at this
        simp only [List.mem_append, List.mem_cons, List.not_mem_nil, or_false] at this ⊢
        rw [this]
        constructor
        · rintro ((h | h) | h)
          · exact .inr (.inr h)
          · exact .inl h
          · exact .inr (.inl h)
        · rintro (h | h | h)
          · exact .inl (.inr h)
          · exact .inr h
          · exact .inl (.inl h)
      · simp only
        rw [← List.append_assoc]
        have hp : ((q ++ s.deleted) ++ [i]).Perm (i :: q ++ s.deleted) := by
          rw [List.cons_append]
          exact List.perm_append_comm
        exact hp.nodup_iff.mpr hnd
      · rcases List.mem_append.mp hk with hk | hk
        · exact m2 k hk
        · simp at hk; subst hk; exact hl
      · have := hi.below i hl k hk
        show k < s.n
        omega

theorem inv_run : ∀ {as : List Act} {s s' : State}, Inv s [] → Act.clear ∉ as → run s as = some s' → Inv s' []
  | [], s, s', hi, _, h => by simp only [run] at h; cases h; exact hi
  | a :: as, s, s', hi, hn, h => by
    simp only [run] at h
    split at h
    · cases h
    · next s1 hs => exact inv_run (inv_step hi (fun k => hn (by simp [k])) hs) (fun k => hn (by simp [k])) h

theorem pigeon : ∀ (n : Nat) (l : List Nat), l.Nodup → (∀ x ∈ l, x < n) → l.length ≤ n
  | 0, [], _, _ => by simp
  | 0, x :: l, _, h => by have := h x (by simp); omega
  | n + 1, l, hn, h => by
    have he : (l.erase n).Nodup := hn.erase n
    have := pigeon n (l.erase n) he (fun x hx => by
      have h1 := h x (List.mem_of_mem_erase hx)
      have h2 : x ≠ n := fun e => by subst e; exact (List.Nodup.not_mem_erase hn) hx
      omega)
    have hl := List.length_erase (a := n) (l := l)
    split at hl <;> omega

/-- C192.  In every history without ClearTasks: no object is deleted twice. -/
theorem deleted_once_partial {as : List Act} {s : State} (hn : Act.clear ∉ as) (h : run init as = some s) : s.deleted.Nodup :=
  (List.nodup_append.mp (inv_run inv_init hn h).nodup).2.1

/-- C192.  An object to which a user has a pointer, or which an object holds that is not deleted itself, is not deleted, nor is its deletion queued. -/
theorem referred_alive_partial {as : List Act} {s : State} (hn : Act.clear ∉ as) (h : run init as = some s) {i : Nat}
    (hr : 0 < s.users i ∨ ∃ j, j < s.n ∧ j ∉ s.deleted ∧ i ∈ s.children j) : i ∉ s.deleted ∧ i ∉ s.queue := by
  have hi := inv_run inv_init hn h
  have key : i < s.n ∧ 0 < s.strong i := by
    rcases hr with hu | ⟨j, hj, hd, hc⟩
    · have hl := hi.made.2.2.2 i hu
      have := hi.count i hl
      exact ⟨hl, by omega⟩
    · have hl := hi.below j hj i hc
      have := hi.count i (by omega)
      have := held_pos hj hd hc
      exact ⟨by omega, by omega⟩
  have hg := hi.gone i key.1
  exact ⟨fun k => by have := hg.mpr (.inr k); omega, fun k => by have := hg.mpr (.inl k); omega⟩

/-- C192.  When users have no pointers and the executor no tasks, all objects are deleted, however they held each other. -/
theorem all_deleted_partial {as : List Act} {s : State} (hn : Act.clear ∉ as) (h : run init as = some s) (hu : ∀ i, s.users i = 0) (hq : s.queue = []) :
    ∀ i, i < s.n → i ∈ s.deleted := by
  have hi := inv_run inv_init hn h
  suffices H : ∀ d i, i < s.n → s.n - i ≤ d → i ∈ s.deleted from fun i hin => H (s.n - i) i hin (Nat.le_refl _)
  intro d
  induction d with
  | zero => intro i hin hd; omega
  | succ d ih =>
    intro i hin hd
    have hz : held s.children s.deleted i s.n = 0 := by
      apply held_zero
      intro j hj hjd hc
      have hlt := hi.below j hj i hc
      exact hjd (ih j hj (by omega))
    have hc := hi.count i hin
    rw [hz, hu i] at hc
    simp at hc
    rcases (hi.gone i hin).mp hc with k | k
    · rw [hq] at k; cases k
    · exact k

/-- C192.  The executor gets there: from any state it has at most as many tasks to do as there are objects not deleted yet. -/
theorem drains_partial {as : List Act} {s : State} (hn : Act.clear ∉ as) (h : run init as = some s) : ∃ k, k + s.deleted.length ≤ s.n ∧ ∃ s', run s (List.replicate k .work) = some s' ∧ s'.queue = [] ∧
    s'.users = s.users ∧ s'.n = s.n := by
  have hi := inv_run inv_init hn h
  suffices H : ∀ d s, Inv s [] → s.n - s.deleted.length ≤ d → ∃ k, k + s.deleted.length ≤ s.n ∧ ∃ s', run s (List.replicate k .work) = some s' ∧ s'.queue = [] ∧ s'.users = s.users ∧ s'.n = s.n from
    H _ s hi (Nat.le_refl _)
  have bound : ∀ s, Inv s [] → (s.queue ++ s.deleted).length ≤ s.n := by
    intro s hi
    exact pigeon _ _ hi.nodup (fun x hx => by
      rcases List.mem_append.mp hx with k | k
      · exact hi.made.1 x k
      · exact hi.made.2.1 x k)
  intro d
  induction d with
  | zero =>
    intro s hi hd
    have hb := bound s hi
    rw [List.length_append] at hb
    refine ⟨0, by omega, s, rfl, List.length_eq_zero_iff.mp (by omega), rfl, rfl⟩
  | succ d ih =>
    intro s hi hd
    have hb := bound s hi
    rw [List.length_append] at hb
    cases hq : s.queue with
    | nil => exact ⟨0, by omega, s, rfl, hq, rfl, rfl⟩
    | cons i q =>
      have hst : step s .work = some (releaseAll { s with queue := q, deleted := s.deleted ++ [i] } (s.children i)) := by simp only [step, hq]
      have hi' := inv_step hi (by simp) hst
      obtain ⟨f1, f2, f3, _⟩ := releaseAll_fixed (s.children i) { s with queue := q, deleted := s.deleted ++ [i] }
      rw [hq] at hb
      simp only [List.length_cons] at hb
      obtain ⟨k, hk, s', h1, h2, h3, h4⟩ := ih _ hi' (by rw [f1, f2]; simp; omega)
      rw [f1, f2] at hk
      simp at hk
      refine ⟨k + 1, by omega, s', ?_, h2, by rw [h3, f3], by rw [h4, f2]⟩
      rw [List.replicate_succ, run, hst]
      exact h1

/-- C192.  Dropping a pointer, even the last one, deletes nothing in the thread of the user: only tasks of the executor delete, each the object at the head of the queue. -/
theorem only_executor {s s' : State} {a : Act} (h : step s a = some s') : s'.deleted = s.deleted ∨ a = .work ∧ ∃ i q, s.queue = i :: q ∧ s'.deleted = s.deleted ++ [i] := by
  cases a with
  | work =>
    simp only [step] at h
    split at h
    · cases h
    · next i q hq => cases h; exact .inr ⟨rfl, i, q, hq, (releaseAll_fixed _ _).1⟩
  | make cs => simp only [step] at h; split at h <;> cases h; exact .inl rfl
  | copy i => simp only [step] at h; split at h <;> cases h; exact .inl rfl
  | drop i => simp only [step] at h; split at h <;> cases h; exact .inl rfl
  | clear => simp only [step] at h; cases h; exact .inl rfl

/-- C192 does not hold when the tasks of the executor are cleared (or a threadless executor is destroyed with tasks): the object is never deleted. -/
theorem cleared_violated : ∃ s, run init [.make [], .drop 0, .clear] = some s ∧ s.n = 1 ∧ s.users 0 = 0 ∧ s.strong 0 = 0 ∧ s.queue = [] ∧ s.deleted = [] := ⟨_, rfl, rfl, rfl, rfl, rfl, rfl⟩

/-- Object 1 holds 0 twice, 2 holds 0 and 1: dropping all pointers of the user queues 2, whose deletion queues 1, whose deletion queues 0. -/
example : ∃ s, run init [.make [], .make [0, 0], .copy 1, .drop 1, .make [0, 1], .drop 0, .drop 1, .drop 2, .work, .work, .work] = some s ∧ s.deleted = [2, 1, 0] ∧ s.queue = [] :=
  ⟨_, rfl, rfl, rfl⟩

end Verif.Thread.Finalizer
