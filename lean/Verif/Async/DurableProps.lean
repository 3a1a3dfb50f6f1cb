import Verif.Async.Props

/-!
# C117: what is on the underlying stream, and when

Theorems about every sequence of calls and steps of the thread, the failing ones included.
-/

namespace Verif.Async

variable {α : Type}

/-- From the moment at which synchronization `k` is over, every stage of the work has only bytes that are `Ok` and at least
the length `m` -/
def Stages (Ok : Nat → α → Prop) (m k : Nat) (mem : Nat → Nat → α) (disk : File α) (q : List Op) : Prop :=
  ∀ a b, q = a ++ b → Op.sync k ∉ b → (∀ x, Ok x ((fileOf mem disk a).get x)) ∧ m ≤ (fileOf mem disk a).len

/-- A file some of whose bytes are those of another -/
theorem write_byte (f g : File α) (at_ : Nat) (d e : List α) (x : Nat) :
    (f.write at_ d).get x = f.get x ∨ (f.write at_ d).get x = (g.write at_ (d ++ e)).get x := by
  rcases put_cases at_ d.length x with h | ⟨i, hi, rfl⟩
  · exact .inl (put_out _ _ _ _ h)
  · right
    show put _ _ _ _ = put _ _ _ _
    rw [put_in _ _ _ i hi, put_in _ _ _ i (by rw [List.length_append]; omega), List.getElem_append_left hi]

theorem len_le_write (f : File α) (at_ : Nat) (d : List α) : f.len ≤ (f.write at_ d).len := by
  show f.len ≤ (if d = [] then f.len else max f.len (at_ + d.length))
  split <;> omega

theorem Effect.stages {Ok : Nat → α → Prop} {m k : Nat} {mem mem' : Nat → Nat → α} {disk disk' file file' : File α} {q q' : List Op}
    (e : Effect mem disk file q mem' disk' file' q') (h : fileOf mem disk q = file) (hj : Stages Ok m k mem disk q)
    (hok : ∀ x, Ok x (file'.get x)) (hm : m ≤ file'.len) : Stages Ok m k mem' disk' q' := by
  have hc := e.content h
  cases e with
  | same => exact hj
  | push op hb =>
    intro a b he hk
    rcases List.eq_nil_or_concat b with rfl | ⟨b', y, rfl⟩
    · rw [List.append_nil] at he
      rw [← he, hc]
      exact ⟨hok, hm⟩
    · rw [List.concat_eq_append, ← List.append_assoc] at he
      rw [List.concat_eq_append] at hk
      obtain ⟨e1, _⟩ := List.append_inj' he rfl
      rw [fileOf_congr fun op hop => hb op (by rw [e1]; exact List.mem_append_left _ hop)]
      exact hj a b' e1 fun hx => hk (List.mem_append_left _ hx)
  | @merge a0 b0 _ o o' d ha hb hs ho hd h1 h2 =>
    intro a b he hk
    rcases List.append_eq_append_iff.mp he with ⟨c, e1, e2⟩ | ⟨c, e1, e2⟩
    · cases c with
      | nil =>
        rw [List.append_nil] at e1
        subst e1
        rw [fileOf_congr ha]
        refine hj _ _ rfl fun hx => hk ?_
        rw [List.nil_append] at e2
        rw [← e2]
        cases hx with
        | head => exact absurd rfl (h1 k)
        | tail _ hx => exact List.mem_cons_of_mem _ hx
      | cons y c =>
        injection e2 with e2 e3
        subst e2
        subst e1
        rw [fileOf_merge disk ha (fun op hop => hb op (by rw [e3]; exact List.mem_append_left _ hop)) hs ho
          (fun op hop => hd op (by rw [e3]; exact List.mem_append_left _ hop))]
        obtain ⟨h3, h4⟩ := hj (a0 ++ o :: c) b (by rw [e3, List.append_assoc]; rfl) hk
        refine ⟨fun x => ?_, Nat.le_trans h4 (len_le_write ..)⟩
        rcases write_byte (fileOf mem disk (a0 ++ o :: c)) file o.end_ d [] x with e | e
        · rw [e]; exact h3 x
        · rw [e, List.append_nil]; exact hok x
    · subst e1
      rw [fileOf_congr fun op hop => ha op (List.mem_append_left _ hop)]
      refine hj a (c ++ o :: b0) (by rw [List.append_assoc]) fun hx => hk ?_
      rw [e2]
      exact mem_replace h1 hx
  | executed op =>
    intro a b he hk
    exact hj (op :: a) b (by rw [he]; rfl) hk
  | partly op op' n hs hn hb h1 h2 =>
    intro a b he hk
    cases a with
    | nil =>
      rw [List.nil_append] at he
      subst he
      have hk' : Op.sync k ∉ op :: _ := fun hx => hk (mem_replace (a := []) h1 hx)
      obtain ⟨h3, h4⟩ := hj [] _ rfl hk'
      obtain ⟨h5, _⟩ := hj [op] _ rfl fun hx => hk (List.mem_cons_of_mem _ hx)
      rw [fileOf_nil] at h3 h4 ⊢
      refine ⟨fun x => ?_, Nat.le_trans h4 (len_le_write ..)⟩
      rcases write_byte disk disk op.start ((op.bytes mem).take n) ((op.bytes mem).drop n) x with e | e
      · rw [e]; exact h3 x
      · rw [e, List.take_append_drop]; exact h5 x
    | cons y a =>
      injection he with e1 e2
      subst e1
      have := hj (op :: a) b (by rw [e2]; rfl) hk
      have e3 : fileOf mem (disk.write op.start ((op.bytes mem).take n)) (op' :: a) = fileOf mem disk (op :: a) := by
        rw [fileOf_cons, fileOf_cons, hs, hb]
        congr 1
        conv => rhs; rw [← List.take_append_drop n (op.bytes mem)]
        rw [write_append, List.length_take, Nat.min_eq_left hn]
      rw [e3]
      exact this

/-- What is known of a reachable state -/
def Durable (Ok : Nat → α → Prop) (m k : Nat) (s : State α) (r : Ref α) : Prop :=
  (s.failed = false ∧ Inv s r ∧ Stages Ok m k s.mem s.disk (ops s)) ∨
    (s.failed = true ∧ s.thread = .ended ∧ (k ≤ s.syncDone → (∀ x, Ok x (s.disk.get x)) ∧ m ≤ s.disk.len))

theorem step_durable {Ok : Nat → α → Prop} {m k : Nat} {s s' : State α} {r r' : Ref α} (h : Durable Ok m k s r) {a : Act α}
    (hs : step s r a = .ok (s', r')) (hok : ∀ x, Ok x (r'.file.get x)) (hm : m ≤ r'.file.len) : Durable Ok m k s' r' := by
  rcases h with ⟨hf, h, hj⟩ | ⟨hf, ht, hj⟩
  · cases a with
    | call c =>
      rcases call_next h hf c with ⟨t, res, hc, hx⟩ | hc
      · rw [step, hc] at hs
        cases hs
        exact .inl ⟨hx.alive, hx.inv, hx.eff.stages h.content hj hok hm⟩
      · rw [step, hc] at hs; cases hs
    | tick t =>
      rcases tick_next h hf t with ⟨t', hc, hx | ⟨_, hx⟩⟩ | hc
      · rw [step, hc] at hs
        cases hs
        exact .inl ⟨hx.alive, hx.inv, hx.eff.stages h.content hj hok hm⟩
      · rw [step, hc] at hs
        cases hs
        refine .inr ⟨hx.failed, hx.ended, fun hk => ?_⟩
        rw [hx.done] at hk
        have hns : Op.sync k ∉ ops s := fun hx => absurd (h.syncs k hx).1 (by omega)
        obtain ⟨op, q, n, ho, hd⟩ := hx.disk
        rw [ho] at hns hj
        obtain ⟨h3, h4⟩ := hj [] _ rfl hns
        obtain ⟨h5, _⟩ := hj [op] _ rfl fun hx => hns (List.mem_cons_of_mem _ hx)
        rw [fileOf_nil] at h3 h4
        rw [hd]
        refine ⟨fun x => ?_, Nat.le_trans h4 (len_le_write ..)⟩
        rcases write_byte s.disk s.disk op.start ((op.bytes s.mem).take n) ((op.bytes s.mem).drop n) x with e | e
        · rw [e]; exact h3 x
        · rw [e, List.take_append_drop]; exact h5 x
      · rw [step, hc] at hs; cases hs
  · rcases step_good (.inr ⟨hf, ht⟩ : Good s r) a with e | ⟨t, w, e, hg, h1, _⟩
    · rw [e] at hs; cases hs
    · rw [e] at hs
      cases hs
      obtain ⟨a1, a2, a3, a4⟩ := h1 hf
      refine .inr ⟨a1, ?_, by rw [a3, a4]; exact hj⟩
      rcases hg with ⟨b1, _⟩ | ⟨_, b2⟩
      · rw [a1] at b1; cases b1
      · exact b2

theorem run_durable {Ok : Nat → α → Prop} {m k : Nat} {s s' : State α} {r r' : Ref α} (h : Durable Ok m k s r) {as : List (Act α)}
    (hs : run s r as = .ok (s', r'))
    (hok : ∀ p t w, p <+: as → run s r p = .ok (t, w) → (∀ x, Ok x (w.file.get x)) ∧ m ≤ w.file.len) : Durable Ok m k s' r' := by
  induction as generalizing s r with
  | nil => cases hs; exact h
  | cons a as ih =>
    rw [run] at hs
    cases ha : step s r a with
    | error e => rw [ha] at hs; cases hs
    | ok w =>
      rw [ha] at hs
      obtain ⟨t, w⟩ := w
      obtain ⟨h1, h2⟩ := hok [a] t w (List.prefix_iff_eq_append.mpr rfl) (by rw [run, ha]; rfl)
      refine ih (step_durable h ha h1 h2) hs fun p t' w' hp hr => ?_
      obtain ⟨c, hc⟩ := hp
      exact hok (a :: p) t' w' ⟨c, by rw [← hc]; rfl⟩ (by rw [run, ha]; exact hr)

/-- The ordinary file never gets shorter -/
theorem after_len (r : Ref α) (c : Call α) (res : Res) : r.file.len ≤ (r.after c res).file.len := by
  cases c <;> cases res <;> first | exact Nat.le_refl _ | exact len_le_write ..

theorem run_len {s s' : State α} {r r' : Ref α} {as : List (Act α)} (hs : run s r as = .ok (s', r')) : r.file.len ≤ r'.file.len := by
  induction as generalizing s r with
  | nil => cases hs; exact Nat.le_refl _
  | cons a as ih =>
    rw [run] at hs
    cases ha : step s r a with
    | error e => rw [ha] at hs; cases hs
    | ok w =>
      rw [ha] at hs
      refine Nat.le_trans ?_ (ih hs)
      cases a with
      | call c =>
        rw [step] at ha
        split at ha
        · cases ha
        · cases ha; exact after_len ..
      | tick t =>
        rw [step] at ha
        split at ha
        · cases ha
        · cases ha; exact Nat.le_refl _

section
variable {mem : Nat → Nat → α} {disk : File α} {position size prealloc : Nat} {as : List (Act α)} {s : State α} {r : Ref α}

/-- **C117.** Once synchronization `k` is over, every byte of the underlying stream is one that the ordinary file has had
there since `Sync` was called, and the stream is at least as long as the file was then: nothing written before `Sync` is
missing, whatever was written since, however it was merged, and even if the underlying stream fails later -/
theorem sync_durable (h : run (init mem disk position size prealloc) ⟨disk, position⟩ as = .ok (s, r)) {s1 : State α} {k : Nat}
    (hc : call s .sync = .ok (s1, .count k)) {later : List (Act α)} {s2 : State α} {r2 : Ref α}
    (hr : run s1 r later = .ok (s2, r2)) (hk : k ≤ s2.syncDone) :
    r.file.len ≤ s2.disk.len ∧
      ∀ x, ∃ p t w, p <+: later ∧ run s1 r p = .ok (t, w) ∧ s2.disk.get x = w.file.get x := by
  have hd : Durable (fun x v => ∃ p t w, p <+: later ∧ run s1 r p = .ok (t, w) ∧ v = w.file.get x) r.file.len k s1 r := by
    rcases reach_good h with ⟨hf, hi⟩ | ⟨hf, _⟩
    · rcases call_next hi hf .sync with ⟨t, res, e, hx⟩ | e
      · rw [hc] at e
        cases e
        refine .inl ⟨hx.alive, hx.inv, ?_⟩
        rw [call, hf] at hc
        split at hc
        · cases hc
        · cases hc
          intro a b he hkb
          have : b = [] := by
            rcases List.eq_nil_or_concat b with e | ⟨b', y, e⟩
            · exact e
            · exfalso
              rw [e, List.concat_eq_append] at he hkb
              have e2 : busyOps s.thread ++ (s.queue ++ [Op.sync s.syncNext]) = a ++ (b' ++ [y]) := he
              rw [← List.append_assoc, ← List.append_assoc] at e2
              obtain ⟨_, e3⟩ := List.append_inj' e2 rfl
              cases e3
              exact hkb (List.mem_append_right _ (List.mem_cons_self ..))
          subst this
          rw [List.append_nil] at he
          rw [← he]
          have := hx.inv.content
          rw [this]
          exact ⟨fun x => ⟨[], _, _, List.nil_prefix, rfl, rfl⟩, Nat.le_refl _⟩
      · rw [hc] at e; cases e
    · rcases call_failed hf (.sync : Call α) with e | e | ⟨e, _⟩
      · rw [e] at hc; cases hc
      · rw [e] at hc; cases hc
      · cases e
  have := run_durable hd hr fun p t w hp hw => ⟨fun x => ⟨p, t, w, hp, hw, rfl⟩, run_len hw⟩
  rcases this with ⟨_, hi, hj⟩ | ⟨_, _, hj⟩
  · obtain ⟨h1, h2⟩ := hj [] _ rfl fun hx => absurd (hi.syncs k hx).1 (by omega)
    exact ⟨h2, h1⟩
  · obtain ⟨h1, h2⟩ := hj hk
    exact ⟨h2, h1⟩

/-- `Sync` returns only when the synchronization it has asked for is over -/
theorem waitSync_returns {s s' : State α} {k : Nat} (h : call s (.waitSync k) = .ok (s', .unit)) : s' = s ∧ k ≤ s.syncDone := by
  rw [call] at h
  split at h
  · cases h
  split at h
  · cases h
  split at h
  · rename_i e; cases h; exact ⟨rfl, e⟩
  · cases h

/-- At every moment, every byte of the underlying stream is one that the ordinary file has had there at some time -/
theorem bytes_genuine (h : run (init mem disk position size prealloc) ⟨disk, position⟩ as = .ok (s, r)) (x : Nat) :
    ∃ p t w, p <+: as ∧ run (init mem disk position size prealloc) ⟨disk, position⟩ p = .ok (t, w) ∧ s.disk.get x = w.file.get x := by
  have hd : Durable (fun x v => ∃ p t w, p <+: as ∧ run (init mem disk position size prealloc) ⟨disk, position⟩ p = .ok (t, w) ∧
      v = w.file.get x) 0 0 (init mem disk position size prealloc) ⟨disk, position⟩ := by
    refine .inl ⟨rfl, init_inv .., ?_⟩
    intro a b he _
    have : a = [] ∧ b = [] := by
      have : ([] : List Op) = a ++ b := he
      exact List.append_eq_nil_iff.mp this.symm
    rw [this.1]
    exact ⟨fun x => ⟨[], _, _, List.nil_prefix, rfl, rfl⟩, Nat.zero_le _⟩
  have := run_durable hd h fun p t w hp hw => ⟨fun x => ⟨p, t, w, hp, hw, rfl⟩, Nat.zero_le _⟩
  rcases this with ⟨_, hi, hj⟩ | ⟨_, _, hj⟩
  · exact (hj [] _ rfl fun hx => absurd (hi.syncs 0 hx).1 (by omega)).1 x
  · exact (hj (Nat.zero_le _)).1 x

end

-- the hypotheses of `sync_durable` are met: a write made after `Sync` has overtaken it, another has not
example : (match run (init (fun _ _ => 0) empty 5 6 4) ⟨empty, 5⟩ [.call (.write [1, 2])] with
    | .ok (s, r) =>
      match call s .sync with
      | .ok (s1, .count k) =>
        match run s1 r [.call (.write [3]), .call (.seek 5 .begin), .call (.write [7]), .tick .take, .tick (.wrote 3), .tick .take, .tick .synced] with
        | .ok (s2, r2) => some (k, s2.syncDone, Show s2.disk, Show r2.file)
        | _ => none
      | _ => none
    | _ => none) = some (1, 1, [0, 0, 0, 0, 0, 1, 2, 3], [0, 0, 0, 0, 0, 7, 2, 3]) := by decide +kernel

/-- Write at 0, then at 100, then where the first write has ended -/
def overtaking : List (Act Nat) :=
  [.call (.write [1, 2]), .call (.seek 100 .begin), .call (.write [9]), .call (.seek 2 .begin), .call (.write [3]), .tick .take, .tick (.wrote 3)]

/-- **C117.** The order of the writes is not kept: the underlying stream can have the contents of no moment in the
history of the ordinary file, as a write that continues an operation still in the queue overtakes the others -/
theorem order_violated : ∃ (as : List (Act Nat)) (s : State Nat) (r : Ref Nat),
    run (init (fun _ _ => 0) empty 0 32 8) ⟨empty, 0⟩ as = .ok (s, r) ∧
      ∀ p t w, p <+: as → run (init (fun _ _ => 0) empty 0 32 8) ⟨empty, 0⟩ p = .ok (t, w) → s.disk ≠ w.file := by
  have hx : ∀ n, n < 8 → (match run (init (fun _ _ => 0) empty 0 32 8) ⟨empty, 0⟩ (overtaking.take n) with
      | .ok (_, w) => ! (w.file.get 2 == 3 && w.file.get 100 == 0) | .error _ => false) = true := by decide +kernel
  have hy : (match run (init (fun _ _ => 0) empty 0 32 8) ⟨empty, 0⟩ overtaking with
      | .ok (s, _) => s.disk.get 2 == 3 && s.disk.get 100 == 0 | .error _ => false) = true := by decide +kernel
  cases hz : run (init (fun _ _ => 0) empty 0 32 8) ⟨empty, 0⟩ overtaking with
  | error e => rw [hz] at hy; cases hy
  | ok v =>
    rw [hz] at hy
    refine ⟨overtaking, v.1, v.2, hz, fun p t w hp hr e => ?_⟩
    have hn : p.length ≤ 7 := hp.length_le
    rw [List.prefix_iff_eq_take] at hp
    have := hx p.length (by omega)
    rw [← hp, hr] at this
    simp only [] at this hy
    rw [e] at hy
    rw [hy] at this
    cases this

end Verif.Async
