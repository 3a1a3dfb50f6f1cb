import Verif.Async.Inv

/-! The invariant is kept by every step. -/

namespace Verif.Async

open Verif.Ring Verif.Ring.Ring

variable {α : Type}

theorem Inv.stay {s : State α} {r : Ref α} (h : Inv s r) (hf : s.failed = false) : Next s r s r := ⟨h, hf, .same, .inl rfl⟩

/-- `Write` on a stream that has not failed -/
theorem write_cases {s : State α} {r : Ref α} (h : Inv s r) (hf : s.failed = false) (d : List α) :
    ∃ s' n, write s d = .ok (s', .count n) ∧ n ≤ d.length ∧ Next s r s' (r.after (.write d) (.count n)) ∧
      ((d = [] ∨ ∃ b, s.buffers.getLast? = some b ∧ b.2.freeSize = 0) ∨ 0 < n) := by
  have same : ∀ n, d.take n = [] → n = 0 → r.after (.write d) (.count n) = r := by
    intro n hn h0
    subst h0
    show (⟨r.file.write r.pos (d.take 0), r.pos + 0⟩ : Ref α) = r
    rw [hn, write_nil]
    cases r
    rfl
  rw [write, if_neg (by rw [hf]; exact Bool.false_ne_true)]
  by_cases hd : d = []
  · rw [if_pos hd]
    exact ⟨s, 0, rfl, Nat.zero_le _, by rw [same 0 (by rw [List.take_zero]) rfl]; exact h.stay hf, .inl (.inl hd)⟩
  rw [if_neg hd]
  cases hl : s.buffers.getLast? with
  | none => exact absurd (List.getLast?_eq_none_iff.mp hl) h.lay.ne
  | some b =>
    obtain ⟨g, b⟩ := b
    simp only []
    by_cases hb : b.freeSize = 0
    · rw [if_pos hb]
      exact ⟨s, 0, rfl, Nat.zero_le _, by rw [same 0 (by rw [List.take_zero]) rfl]; exact h.stay hf, .inl (.inr ⟨_, rfl, hb⟩)⟩
    rw [if_neg hb]
    cases ht : target s.position s.queue with
    | some w =>
      obtain ⟨pre, o, post⟩ := w
      obtain ⟨s', n, ha, hn, hm, hx⟩ := write_merge h hf hd ht
      exact ⟨s', n, ha, hm, hx, .inr hn⟩
    | none =>
      obtain ⟨b', s', n, hp, ha, hn, hm, hx⟩ := write_new h hf hd hl hb
      simp only []
      rw [hp]
      simp only []
      exact ⟨s', n, ha, hm, hx, .inr hn⟩

/-- `Seek` on a stream that has not failed -/
theorem seek_cases {s : State α} {r : Ref α} (h : Inv s r) (hf : s.failed = false) (offset : Int) (mode : Mode) :
    ∃ s' res, seek s offset mode = (s', res) ∧ Next s r s' (r.after (.seek offset mode) res) ∧
      (res = .unit ∧ 0 ≤ r.target offset mode ∨ res = .threw ∧ r.target offset mode < 0) := by
  have e : newPosition s offset mode = r.target offset mode := by
    cases mode
    · rfl
    · show (s.position : Int) + offset = r.pos + offset; rw [h.pos]
    · show (s.length : Int) + offset = r.file.len + offset; rw [h.len]
  rw [seek, if_neg (by rw [hf]; exact Bool.false_ne_true), e]
  by_cases h1 : r.target offset mode = s.position
  · rw [if_pos h1]
    refine ⟨_, _, rfl, ?_, .inl ⟨rfl, by omega⟩⟩
    have : r.after (.seek offset mode) .unit = r := by
      show (⟨r.file, (r.target offset mode).toNat⟩ : Ref α) = r
      rw [h1, h.pos]
      cases r
      rfl
    rw [this]
    exact h.stay hf
  · rw [if_neg h1]
    by_cases h2 : 0 ≤ r.target offset mode
    · rw [if_pos h2]
      exact ⟨_, _, rfl, ⟨⟨h.rings, h.gens, h.fresh, h.lay, h.content, rfl, h.len, h.syncs, h.order, h.done, h.busy⟩, hf, .same, .inl rfl⟩,
        .inl ⟨rfl, h2⟩⟩
    · rw [if_neg h2]
      exact ⟨_, _, rfl, h.stay hf, .inr ⟨rfl, by omega⟩⟩

/-- Queueing an operation without bytes -/
theorem effect_quiet {mem : Nat → Nat → α} {disk file : File α} {q : List Op} (op : Op) (h : op.bytes mem = []) :
    Effect mem disk file q mem disk file (q ++ [op]) := by
  have := Effect.push (mem := mem) (disk := disk) (file := file) (q := q) (mem' := mem) op (fun _ _ => rfl)
  rwa [h, write_nil] at this

theorem push_next {s s' : State α} {r : Ref α} (h : Inv s r) (op : Op) (hb : ∀ mem : Nat → Nat → α, op.bytes mem = [])
    (hq : s'.queue = s.queue ++ [op]) (ht : s'.thread = s.thread) (hm : s'.mem = s.mem) (hd : s'.disk = s.disk)
    (hf : s'.failed = false) (hp : s'.position = s.position) (hl : s'.length = s.length) (hsd : s'.syncDone = s.syncDone)
    (hsn : s.syncNext ≤ s'.syncNext) (hsync : ∀ k, op = .sync k → k = s.syncNext ∧ k < s'.syncNext)
    (rings : ∀ b ∈ s'.buffers, b.2.Inv) (gens : (s'.buffers.map (·.1)).Nodup) (fresh : ∀ b ∈ s'.buffers, b.1 < s'.nextGen)
    (lay : Layout (ops s ++ [op]) s'.buffers 0) : Next s r s' r := by
  have hops : ops s' = ops s ++ [op] := by rw [ops, ops, hq, ht, List.append_assoc]
  have eff : Effect s.mem s.disk r.file (ops s) s'.mem s'.disk r.file (ops s') := by
    rw [hm, hd, hops]; exact effect_quiet op (hb _)
  refine ⟨⟨rings, gens, fresh, by rw [hops]; exact lay, eff.content h.content, by rw [hp, h.pos], by rw [hl, h.len], ?_, ?_, ?_, ?_⟩,
    hf, eff, .inl hsd⟩
  · intro k hk
    rw [hops] at hk
    rw [hsd]
    rcases List.mem_append.mp hk with hk | hk
    · have := h.syncs k hk; omega
    · have := hsync k (List.mem_singleton.mp hk).symm
      have := h.done
      omega
  · rw [hops]
    exact order_push h.order fun k e j hj => by have := (h.syncs j hj).2; have := hsync k e; omega
  · rw [hsd]; have := h.done; omega
  · rw [ht]; exact h.busy

theorem call_next {s : State α} {r : Ref α} (h : Inv s r) (hf : s.failed = false) (c : Call α) :
    (∃ s' res, call s c = .ok (s', res) ∧ Next s r s' (r.after c res)) ∨ call s c = .error .disabled := by
  by_cases hd : s.destroyed = true
  · right
    cases c <;> simp [call, hd]
  have hf' : ¬ s.failed = true := by rw [hf]; exact Bool.false_ne_true
  cases c with
  | write d =>
    obtain ⟨s', n, hw, _, hx, _⟩ := write_cases h hf d
    exact .inl ⟨s', _, by rw [call, if_neg hd]; exact hw, hx⟩
  | seek offset mode =>
    obtain ⟨s', res, hw, hx, _⟩ := seek_cases h hf offset mode
    exact .inl ⟨s', _, by rw [call, if_neg hd, hw], hx⟩
  | tell => exact .inl ⟨s, .count s.position, by rw [call, if_neg hd, if_neg hf'], h.stay hf⟩
  | sync =>
    left
    refine ⟨{ s with syncNext := s.syncNext + 1, queue := s.queue ++ [.sync s.syncNext] }, .count s.syncNext,
      by rw [call, if_neg hd, if_neg hf'], ?_⟩
    exact push_next h (.sync s.syncNext) (fun _ => rfl) rfl rfl rfl rfl hf rfl rfl rfl (Nat.le_succ _)
      (fun k e => by cases e; exact ⟨rfl, Nat.lt_succ_self _⟩) h.rings h.gens h.fresh (h.lay.push_quiet _ (.inr ⟨_, rfl⟩))
  | waitSync k =>
    by_cases hk : k ≤ s.syncDone
    · exact .inl ⟨s, .unit, by rw [call, if_neg hd, if_neg hf', if_pos hk], h.stay hf⟩
    · exact .inr (by rw [call, if_neg hd, if_neg hf', if_neg hk])
  | reconfigure size prealloc =>
    left
    have hne := h.lay.ne
    refine ⟨_, .unit, (by rw [call, if_neg hd, if_neg hf', if_neg hne] : _ = _), ?_⟩
    refine push_next h .popBuffer (fun _ => rfl) rfl rfl rfl rfl hf rfl rfl rfl (Nat.le_refl _) (fun k e => nomatch e) ?_ ?_ ?_
      (h.lay.reconf (s.nextGen, newRing size) rfl)
    · intro b hb
      rcases List.mem_append.mp hb with hb | hb
      · exact h.rings b hb
      · cases List.mem_singleton.mp hb
        exact create_inv _
    · simp only []
      rw [List.map_append]
      refine List.pairwise_append.mpr ⟨h.gens, List.pairwise_singleton .., ?_⟩
      intro x hx y hy
      obtain ⟨b, hb, rfl⟩ := List.mem_map.mp hx
      cases List.mem_singleton.mp hy
      have := h.fresh b hb
      simp only []
      omega
    · intro b hb
      simp only []
      rcases List.mem_append.mp hb with hb | hb
      · have := h.fresh b hb; omega
      · cases List.mem_singleton.mp hb
        simp only []
        omega
  | destroy =>
    left
    refine ⟨{ s with destroyed := true, queue := s.queue ++ [.stop] }, .unit, by rw [call, if_neg hd], ?_⟩
    exact push_next h .stop (fun _ => rfl) rfl rfl rfl rfl hf rfl rfl rfl (Nat.le_refl _) (fun k e => nomatch e) h.rings h.gens h.fresh
      (h.lay.push_quiet _ (.inl rfl))

/-! ## The thread -/

/-- A failure of the thread (AsyncByteStream.cpp 428-432): the disk has part of the operation in progress -/
structure Fell (s : State α) (r : Ref α) (s' : State α) : Prop where
  failed : s'.failed = true
  ended : s'.thread = .ended
  done : s'.syncDone = s.syncDone
  disk : ∃ op q n, ops s = op :: q ∧ s'.disk = s.disk.write op.start ((op.bytes s.mem).take n)

theorem effect_drop {mem : Nat → Nat → α} {disk file : File α} {q : List Op} (op : Op) (h : op.bytes mem = []) :
    Effect mem disk file (op :: q) mem disk file q := by
  have := Effect.executed (mem := mem) (disk := disk) (file := file) (q := q) op
  rwa [h, write_nil] at this

theorem take_next {s : State α} {r : Ref α} (h : Inv s r) (hf : s.failed = false) (ht : s.thread = .idle) {op : Op} {q : List Op}
    (hq : s.queue = op :: q) : Next s r (takeOp { s with queue := q } op) r := by
  have hops : ops s = op :: q := by rw [ops, ht, hq]; rfl
  have hlay := h.lay
  rw [hops] at hlay
  have hc := h.content
  rw [hops] at hc
  have hs := h.syncs
  rw [hops] at hs
  have ho := h.order
  rw [hops] at ho
  have ho' := (List.pairwise_cons.mp ho).2
  have hs' : ∀ k, Op.sync k ∈ q → s.syncDone < k ∧ k < s.syncNext := fun k hk => hs k (List.mem_cons_of_mem _ hk)
  cases op with
  | write st g o c u =>
    obtain ⟨b, rest, hb, hro, _⟩ := hlay.front h.rings
    rw [takeOp]
    simp only [hb, List.head?_cons, hro]
    rw [if_pos trivial]
    rw [hro] at hlay hc hs ho hops
    refine ⟨⟨hb ▸ h.rings, hb ▸ h.gens, hb ▸ h.fresh, hb ▸ hlay, hc, h.pos, h.len, hs, ho, h.done, ?_⟩, hf, ?_, .inl rfl⟩
    · intro op e; cases e; exact .inl ⟨_, _, _, _, _, rfl⟩
    · rw [hops]; exact .same
  | stop =>
    refine ⟨⟨h.rings, h.gens, h.fresh, hlay, ?_, h.pos, h.len, hs', ho', h.done, ?_⟩, hf, ?_, .inl rfl⟩
    · exact (effect_drop Op.stop rfl).content hc
    · intro op e; cases e
    · rw [hops]; exact effect_drop Op.stop rfl
  | sync k =>
    refine ⟨⟨h.rings, h.gens, h.fresh, hlay, hc, h.pos, h.len, hs, ho, h.done, ?_⟩, hf, ?_, .inl rfl⟩
    · intro op e; cases e; exact .inr ⟨_, rfl⟩
    · rw [hops]; exact .same
  | popBuffer =>
    obtain ⟨g, b, rest, hb, hp, hl⟩ := hlay
    have hops' : ops (takeOp { s with queue := q } .popBuffer) = q := by
      rw [ops]; simp only [takeOp, ht]; rfl
    refine ⟨⟨?_, ?_, ?_, ?_, ?_, h.pos, h.len, ?_, ?_, h.done, ?_⟩, hf, ?_, .inl rfl⟩
    · intro x hx
      exact h.rings x (List.mem_of_mem_tail hx)
    · simp only [takeOp]
      have := h.gens
      rw [hb] at this ⊢
      exact (List.nodup_cons.mp this).2
    · intro x hx
      exact h.fresh x (List.mem_of_mem_tail hx)
    · rw [hops']
      simp only [takeOp]
      rw [hb]
      exact hl
    · rw [hops']
      exact (effect_drop Op.popBuffer rfl).content hc
    · rw [hops']; exact hs'
    · rw [hops']; exact ho'
    · intro op e
      simp only [takeOp] at e
      rw [ht] at e
      cases e
    · rw [hops', hops]; exact effect_drop Op.popBuffer rfl

theorem bytes_popped (mem : Nat → Nat → α) (st g o c u n : Nat) (hn : n ≤ u) :
    ((Op.write st g o c u).popped n).bytes mem = ((Op.write st g o c u).bytes mem).drop n := by
  unfold Op.popped Op.bytes
  simp only []
  apply List.ext_getElem
  · simp
  · intro i h1 h2
    simp [Nat.add_assoc]

theorem wrote_next {s : State α} {r : Ref α} (h : Inv s r) (hf : s.failed = false) {st g o c u n : Nat}
    (ht : s.thread = .busy (.write st g o c u)) (hn : n ≤ u) :
    Next s r (wroteOp { s with disk := s.disk.write st (((Op.write st g o c u).bytes s.mem).take n) } (.write st g o c u) n) r := by
  have hops : ops s = .write st g o c u :: s.queue := by rw [ops, ht]; rfl
  have hlay := h.lay
  rw [hops] at hlay
  have hc := h.content
  rw [hops] at hc
  have hs := h.syncs
  rw [hops] at hs
  have ho := h.order
  rw [hops] at ho
  have ho' := (List.pairwise_cons.mp ho).2
  have hs' : ∀ k, Op.sync k ∈ s.queue → s.syncDone < k ∧ k < s.syncNext := fun k hk => hs k (List.mem_cons_of_mem _ hk)
  obtain ⟨b, rest, hb, hro, hcr, hu, huc⟩ := hlay.front h.rings
  have hbi : b.Inv := h.rings (g, b) (by rw [hb]; exact List.mem_cons_self ..)
  have hfit := readSize_fits b hbi
  have hbl : ((Op.write st g o c u).bytes s.mem).length = u := by rw [length_bytes]; simp [Op.end_, Op.start]
  rw [hb] at hlay
  have pop : ∀ m, m ≤ c → b.pop m = some (b.advanceRead m) := by
    intro m hm
    rw [Ring.pop, if_pos (by omega)]
  have rings : ∀ m, m ≤ c → ∀ x ∈ (g, b.advanceRead m) :: rest, x.2.Inv := by
    intro m hm x hx
    cases hx with
    | head => exact advanceRead_inv b hbi m (by omega)
    | tail _ hx => exact h.rings x (by rw [hb]; exact List.mem_cons_of_mem _ hx)
  have gens : ∀ m, (((g, b.advanceRead m) :: rest).map (·.1)).Nodup := by
    intro m
    have := h.gens
    rw [hb] at this
    exact this
  have fresh : ∀ m, ∀ x ∈ (g, b.advanceRead m) :: rest, x.1 < s.nextGen := by
    intro m x hx
    cases hx with
    | head => exact h.fresh (g, b) (by rw [hb]; exact List.mem_cons_self ..)
    | tail _ hx => exact h.fresh x (by rw [hb]; exact List.mem_cons_of_mem _ hx)
  rw [wroteOp]
  simp only []
  by_cases hnu : n = ((Op.write st g o c u).bytes s.mem).length
  · rw [if_pos hnu]
    rw [hbl] at hnu
    subst hnu
    have hfr : n + (Op.write st g o c n).free = c := by unfold Op.free; simp only []; omega
    rw [hfr, popRing]
    simp only [hb]
    rw [pop c (Nat.le_refl _)]
    simp only [Option.map_some]
    have ht' : ((Op.write st g o c n).bytes s.mem).take n = (Op.write st g o c n).bytes s.mem := List.take_of_length_le (by omega)
    rw [ht']
    refine ⟨⟨rings c (Nat.le_refl _), gens c, fresh c, hlay.done hbi hcr, hc, h.pos, h.len, hs', ho', h.done, ?_⟩, hf, ?_, .inl rfl⟩
    · intro op e; cases e
    · rw [hops]; exact .executed _
  · rw [if_neg hnu]
    rw [hbl] at hnu
    rw [popRing]
    simp only [hb]
    rw [pop n (by omega)]
    simp only [Option.map_some]
    have eff : Effect s.mem s.disk r.file (.write st g o c u :: s.queue) s.mem
        (s.disk.write st (((Op.write st g o c u).bytes s.mem).take n)) r.file ((Op.write st g o c u).popped n :: s.queue) :=
      .partly (.write st g o c u) _ n rfl (by omega) (bytes_popped _ _ _ _ _ _ _ hn) (fun k e => nomatch e) (fun k e => nomatch e)
    refine ⟨⟨rings n (by omega), gens n, fresh n, hlay.partial_ hbi hcr (by omega), eff.content hc, h.pos, h.len, ?_, ?_, h.done, ?_⟩, hf, ?_, .inl rfl⟩
    · intro k hk
      cases hk with
      | tail _ hk => exact hs' k hk
    · exact List.pairwise_cons.mpr ⟨(fun x _ i j e => nomatch e), ho'⟩
    · intro op e; cases e
    · rw [hops]; exact eff

theorem tick_next {s : State α} {r : Ref α} (h : Inv s r) (hf : s.failed = false) (t : Tick) :
    (∃ s', tick s t = .ok s' ∧ (Next s r s' r ∨ (∃ n, t = .threw n) ∧ Fell s r s')) ∨ tick s t = .error .disabled := by
  have hops : ∀ op, s.thread = .busy op → ops s = op :: s.queue := by intro op e; rw [ops, e]; rfl
  cases t with
  | take =>
    cases ht : s.thread with
    | idle =>
      cases hq : s.queue with
      | nil => right; simp only [tick, ht, hq]
      | cons op q => exact .inl ⟨_, by simp only [tick, ht, hq], .inl (ht ▸ take_next h hf ht hq)⟩
    | busy => right; simp only [tick, ht]
    | ended => right; simp only [tick, ht]
  | wrote n =>
    cases ht : s.thread with
    | idle => right; simp only [tick, ht]
    | ended => right; simp only [tick, ht]
    | busy op =>
      cases op with
      | write st g o c u =>
        by_cases hn : n ≤ u
        · have hal : (Op.write st g o c u).dangling s.buffers = false :=
            h.lay.alive (by rw [hops _ ht]; exact List.mem_cons_self ..)
          exact .inl ⟨_, by simp only [tick, ht, if_pos hn, hal]; rfl, .inl (ht ▸ wrote_next h hf ht hn)⟩
        · right; simp only [tick, ht, if_neg hn]
      | _ => right; simp only [tick, ht]
  | synced =>
    cases ht : s.thread with
    | idle => right; simp only [tick, ht]
    | ended => right; simp only [tick, ht]
    | busy op =>
      cases op with
      | sync k =>
        have ho := hops _ ht
        have hlay := h.lay
        rw [ho] at hlay
        have hc := h.content
        rw [ho] at hc
        have hs := h.syncs
        rw [ho] at hs
        have hord := h.order
        rw [ho] at hord
        have hord' := List.pairwise_cons.mp hord
        refine .inl ⟨{ s with syncDone := k, thread := .idle }, by simp only [tick, ht], .inl ⟨⟨h.rings, h.gens, h.fresh, hlay, ?_, h.pos, h.len, ?_, hord'.2, ?_, ?_⟩, hf, ?_, .inr ⟨_, ho⟩⟩⟩
        · exact (effect_drop (Op.sync k) rfl).content hc
        · intro j hj
          exact ⟨hord'.1 _ hj k j rfl rfl, (hs j (List.mem_cons_of_mem _ hj)).2⟩
        · exact (hs k (List.mem_cons_self ..)).2
        · intro op e; cases e
        · rw [ho]; exact effect_drop (Op.sync k) rfl
      | _ => right; simp only [tick, ht]
  | threw n =>
    cases ht : s.thread with
    | idle => right; simp only [tick, ht]
    | ended => right; simp only [tick, ht]
    | busy op =>
      cases op with
      | write st g o c u =>
        by_cases hn : n ≤ u
        · have hal : (Op.write st g o c u).dangling s.buffers = false :=
            h.lay.alive (by rw [hops _ ht]; exact List.mem_cons_self ..)
          exact .inl ⟨caught { s with disk := s.disk.write st (((Op.write st g o c u).bytes s.mem).take n) }, by
            simp only [tick, ht, if_pos hn, hal, Bool.false_eq_true, ↓reduceIte], .inr ⟨⟨n, rfl⟩, ⟨rfl, rfl, rfl, _, _, n, hops _ ht, rfl⟩⟩⟩
        · right; simp only [tick, ht, if_neg hn]
      | sync k =>
        exact .inl ⟨caught s, by simp only [tick, ht], .inr ⟨⟨n, rfl⟩, ⟨rfl, rfl, rfl, _, _, 0, hops _ ht, (write_nil _ _).symm⟩⟩⟩
      | stop => rcases h.busy _ ht with ⟨_, _, _, _, _, e⟩ | ⟨_, e⟩ <;> cases e
      | popBuffer => rcases h.busy _ ht with ⟨_, _, _, _, _, e⟩ | ⟨_, e⟩ <;> cases e

end Verif.Async
