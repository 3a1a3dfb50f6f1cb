import Verif.Async.Steps

/-!
# C116, C117: AsyncByteStream

Theorems about every sequence of calls of users and steps of the thread.  `r` is an ordinary file on which the same
calls were made with the same results.
-/

namespace Verif.Async

open Verif.Ring Verif.Ring.Ring

variable {α : Type}

/-- What holds in every reachable state -/
def Good (s : State α) (r : Ref α) : Prop := (s.failed = false ∧ Inv s r) ∨ (s.failed = true ∧ s.thread = .ended)

theorem call_failed {s : State α} (hf : s.failed = true) (c : Call α) :
    call s c = .error .disabled ∨ call s c = .ok (s, .threw) ∨
      (c = .destroy ∧ call s c = .ok ({ s with destroyed := true, queue := s.queue ++ [.stop] }, .unit)) := by
  by_cases hd : s.destroyed = true
  · left
    cases c <;> simp [call, hd]
  · right
    cases c with
    | destroy => exact .inr ⟨rfl, by rw [call, if_neg hd]⟩
    | write d => left; rw [call, if_neg hd, write, if_pos hf]
    | seek => left; rw [call, if_neg hd, seek, if_pos hf]
    | _ => left; rw [call, if_neg hd, if_pos hf]

theorem step_good {s : State α} {r : Ref α} (h : Good s r) (a : Act α) :
    step s r a = .error .disabled ∨ ∃ s' r', step s r a = .ok (s', r') ∧ Good s' r' ∧
      (s.failed = true → s'.failed = true ∧ r' = r ∧ s'.disk = s.disk ∧ s'.syncDone = s.syncDone) ∧
      (s.failed = false → s'.failed = true → ∃ n, a = .tick (.threw n)) := by
  rcases h with ⟨hf, h⟩ | ⟨hf, ht⟩
  · have nf : ¬ s.failed = true := by rw [hf]; exact Bool.false_ne_true
    cases a with
    | call c =>
      rcases call_next h hf c with ⟨s', res, hc, hx⟩ | hc
      · refine .inr ⟨s', r.after c res, by rw [step, hc], .inl ⟨hx.alive, hx.inv⟩, fun e => absurd e nf, fun _ e => ?_⟩
        rw [hx.alive] at e; cases e
      · left; rw [step, hc]
    | tick t =>
      rcases tick_next h hf t with ⟨s', hc, hx | ⟨⟨n, rfl⟩, hx⟩⟩ | hc
      · refine .inr ⟨s', r, by rw [step, hc], .inl ⟨hx.alive, hx.inv⟩, fun e => absurd e nf, fun _ e => ?_⟩
        rw [hx.alive] at e; cases e
      · exact .inr ⟨s', r, by rw [step, hc], .inr ⟨hx.failed, hx.ended⟩, fun e => absurd e nf, fun _ _ => ⟨n, rfl⟩⟩
      · left; rw [step, hc]
  · have nf : ¬ s.failed = false := by rw [hf]; exact fun e => nomatch e
    cases a with
    | call c =>
      rcases call_failed hf c with hc | hc | ⟨rfl, hc⟩
      · left; rw [step, hc]
      · refine .inr ⟨s, r, ?_, .inr ⟨hf, ht⟩, fun _ => ⟨hf, rfl, rfl, rfl⟩, fun e => absurd e nf⟩
        rw [step, hc]
        cases c <;> rfl
      · exact .inr ⟨{ s with destroyed := true, queue := s.queue ++ [.stop] }, r, by rw [step, hc]; rfl, .inr ⟨hf, ht⟩, fun _ => ⟨hf, rfl, rfl, rfl⟩, fun e => absurd e nf⟩
    | tick t =>
      left
      have : tick s t = .error .disabled := by cases t <;> simp only [tick, ht]
      rw [step, this]

theorem run_good {s : State α} {r : Ref α} (h : Good s r) (as : List (Act α)) :
    run s r as = .error .disabled ∨ ∃ s' r', run s r as = .ok (s', r') ∧ Good s' r' ∧
      (s.failed = false → s'.failed = true → ∃ n, .tick (.threw n) ∈ as) := by
  induction as generalizing s r with
  | nil => exact .inr ⟨s, r, rfl, h, fun e k => by rw [e] at k; cases k⟩
  | cons a as ih =>
    rcases step_good h a with hs | ⟨s', r', hs, hg, h1, h2⟩
    · left; rw [run, hs]
    · rcases ih hg with hr | ⟨s'', r'', hr, hg', h3⟩
      · left; rw [run, hs]; exact hr
      · refine .inr ⟨s'', r'', by rw [run, hs]; exact hr, hg', fun e k => ?_⟩
        cases hf : s'.failed with
        | true => obtain ⟨n, rfl⟩ := h2 e hf; exact ⟨n, List.mem_cons_self ..⟩
        | false => obtain ⟨n, hn⟩ := h3 hf k; exact ⟨n, List.mem_cons_of_mem _ hn⟩

theorem init_good (mem : Nat → Nat → α) (disk : File α) (position size prealloc : Nat) :
    Good (init mem disk position size prealloc) ⟨disk, position⟩ := .inl ⟨rfl, init_inv ..⟩

section
variable {mem : Nat → Nat → α} {disk : File α} {position size prealloc : Nat} {as : List (Act α)} {s : State α} {r : Ref α}

theorem reach_good (h : run (init mem disk position size prealloc) ⟨disk, position⟩ as = .ok (s, r)) : Good s r := by
  rcases run_good (init_good mem disk position size prealloc) as with hr | ⟨s', r', hr, hg, _⟩
  · rw [hr] at h; cases h
  · rw [hr] at h; cases h; exact hg

/-- **C116.** Memory of a destroyed buffer is never used -/
theorem no_use_after_free : run (init mem disk position size prealloc) ⟨disk, position⟩ as ≠ .error .gone := by
  rcases run_good (init_good mem disk position size prealloc) as with hr | ⟨s', r', hr, _⟩ <;> rw [hr] <;> exact fun e => nomatch e

/-- The stream fails only if the underlying stream has thrown: the internal checks never fail -/
theorem fails_only_if_stream_throws (h : run (init mem disk position size prealloc) ⟨disk, position⟩ as = .ok (s, r))
    (hf : s.failed = true) : ∃ n, .tick (.threw n) ∈ as := by
  rcases run_good (init_good mem disk position size prealloc) as with hr | ⟨s', r', hr, _, h3⟩
  · rw [hr] at h; cases h
  · rw [hr] at h; cases h; exact h3 rfl hf

/-- When nothing is pending the underlying stream holds exactly what the same writes make of an ordinary file -/
theorem drained (h : run (init mem disk position size prealloc) ⟨disk, position⟩ as = .ok (s, r)) (hf : s.failed = false)
    (hq : s.queue = []) (ht : s.thread = .idle) : s.disk = r.file := by
  rcases reach_good h with ⟨_, hi⟩ | ⟨e, _⟩
  · have := hi.content
    rwa [ops, hq, ht] at this
  · rw [hf] at e; cases e

/-- `Tell` gives the position of the ordinary file -/
theorem tell_result (h : run (init mem disk position size prealloc) ⟨disk, position⟩ as = .ok (s, r)) {s' : State α} {n : Nat}
    (hc : call s .tell = .ok (s', .count n)) : s' = s ∧ n = r.pos := by
  rcases reach_good h with ⟨hf, hi⟩ | ⟨hf, _⟩
  · rw [call, hf] at hc
    by_cases hd : s.destroyed
    · rw [if_pos hd] at hc; cases hc
    · rw [if_neg hd] at hc; cases hc; exact ⟨rfl, hi.pos⟩
  · rcases call_failed hf (.tell : Call α) with e | e | ⟨e, _⟩
    · rw [e] at hc; cases hc
    · rw [e] at hc; cases hc
    · cases e

/-- `Seek` succeeds exactly if the place is not before the beginning -/
theorem seek_result (h : run (init mem disk position size prealloc) ⟨disk, position⟩ as = .ok (s, r)) (hf : s.failed = false)
    {s' : State α} {res : Res} {offset : Int} {mode : Mode} (hc : call s (.seek offset mode) = .ok (s', res)) :
    res = .unit ∧ 0 ≤ r.target offset mode ∨ res = .threw ∧ r.target offset mode < 0 := by
  rcases reach_good h with ⟨_, hi⟩ | ⟨e, _⟩
  · obtain ⟨s'', res', e, _, hx⟩ := seek_cases hi hf offset mode
    rw [call, e] at hc
    by_cases hd : s.destroyed
    · rw [if_pos hd] at hc; cases hc
    · rw [if_neg hd] at hc; cases hc; exact hx
  · rw [hf] at e; cases e

/-- `Write` accepts a first part of the bytes; none only if there are none or the buffer is full -/
theorem write_result (h : run (init mem disk position size prealloc) ⟨disk, position⟩ as = .ok (s, r)) (hf : s.failed = false)
    {s' : State α} {res : Res} {d : List α} (hc : call s (.write d) = .ok (s', res)) :
    ∃ n, res = .count n ∧ n ≤ d.length ∧
      (n = 0 → d = [] ∨ ∃ b, s.buffers.getLast? = some b ∧ b.2.dataSize = b.2.storageSize) := by
  rcases reach_good h with ⟨_, hi⟩ | ⟨e, _⟩
  · obtain ⟨s'', n, e, hn, _, hx⟩ := write_cases hi hf d
    rw [call, e] at hc
    by_cases hd : s.destroyed
    · rw [if_pos hd] at hc; cases hc
    · rw [if_neg hd] at hc
      cases hc
      refine ⟨n, rfl, hn, fun h0 => ?_⟩
      rcases hx with (hx | ⟨b, hb, hfr⟩) | hx
      · exact .inl hx
      · right
        refine ⟨b, hb, ?_⟩
        have hbi := hi.rings b (List.mem_of_getLast? hb)
        have := dataSize_le b.2 hbi
        unfold freeSize at hfr
        omega
      · omega
  · rw [hf] at e; cases e

/-- After a drain the buffer is empty, so the next write is accepted at least in part -/
theorem drained_accepts (h : run (init mem disk position size prealloc) ⟨disk, position⟩ as = .ok (s, r)) (hf : s.failed = false)
    (hq : s.queue = []) (ht : s.thread = .idle) : ∃ b, s.buffers = [b] ∧ b.2.dataSize = 0 := by
  rcases reach_good h with ⟨_, hi⟩ | ⟨e, _⟩
  · have := hi.lay
    rw [ops, hq, ht] at this
    obtain ⟨g, b, hb, h0⟩ := this
    exact ⟨(g, b), hb, h0.symm⟩
  · rw [hf] at e; cases e

/-! ## Destruction -/

/-- Where the request to stop is -/
structure StopInv (s : State α) : Prop where
  before : s.destroyed = false → Op.stop ∉ s.queue ∧ s.thread ≠ .ended
  after : s.destroyed = true → (∃ q, s.queue = q ++ [.stop] ∧ Op.stop ∉ q ∧ s.thread ≠ .ended) ∨ (s.queue = [] ∧ s.thread = .ended)

theorem stop_append {s : State α} {pre post : List Op} {o : Op} {d : List α} {s' : State α} {res : Res}
    (h : append s pre o post d = .ok (s', res)) :
    s'.destroyed = s.destroyed ∧ s'.thread = s.thread ∧ ∃ n, s'.queue = pre ++ o.pushed n :: post := by
  rw [append] at h
  split at h
  · cases h
  · cases h; exact ⟨rfl, rfl, _, rfl⟩

theorem pushed_stop {o : Op} {n : Nat} (h : Op.stop = o.pushed n) : o = .stop := by cases o <;> first | rfl | cases h

theorem stop_write {s : State α} {d : List α} {s' : State α} {res : Res} (h : write s d = .ok (s', res)) :
    s'.destroyed = s.destroyed ∧ s'.thread = s.thread ∧ (Op.stop ∈ s'.queue → Op.stop ∈ s.queue) := by
  have same : ∀ {res'}, (.ok (s, res') : Except Bad (State α × Res)) = .ok (s', res) →
      s'.destroyed = s.destroyed ∧ s'.thread = s.thread ∧ (Op.stop ∈ s'.queue → Op.stop ∈ s.queue) := by
    intro res' e; cases e; exact ⟨rfl, rfl, id⟩
  rw [write] at h
  split at h
  · exact same h
  split at h
  · exact same h
  split at h
  · exact same h
  split at h
  · exact same h
  split at h
  · rename_i ht
    obtain ⟨a, b, n, c⟩ := stop_append h
    refine ⟨a, b, fun hm => ?_⟩
    rw [c] at hm
    rw [(target_split ht).1]
    rcases List.mem_append.mp hm with hm | hm
    · exact List.mem_append_left _ hm
    · refine List.mem_append_right _ ?_
      rcases List.mem_cons.mp hm with hm | hm
      · rw [pushed_stop hm]; exact List.mem_cons_self ..
      · exact List.mem_cons_of_mem _ hm
  · split at h
    · exact same h
    · obtain ⟨a, b, n, c⟩ := stop_append h
      refine ⟨a, b, fun hm => ?_⟩
      rw [c] at hm
      rcases List.mem_append.mp hm with hm | hm
      · exact hm
      · cases hm with | tail _ hm => cases hm

theorem stop_call {s : State α} {c : Call α} {s' : State α} {res : Res} (h : call s c = .ok (s', res)) :
    s.destroyed = false ∧ s'.thread = s.thread ∧
      (s'.destroyed = false ∧ (Op.stop ∈ s'.queue → Op.stop ∈ s.queue) ∨ s'.destroyed = true ∧ s'.queue = s.queue ++ [.stop]) := by
  by_cases hd : s.destroyed = true
  · cases c <;> simp [call, hd] at h
  have hd' : s.destroyed = false := by cases hx : s.destroyed <;> simp_all
  refine ⟨hd', ?_⟩
  have same : ∀ {res'}, (.ok (s, res') : Except Bad (State α × Res)) = .ok (s', res) → s'.thread = s.thread ∧
      (s'.destroyed = false ∧ (Op.stop ∈ s'.queue → Op.stop ∈ s.queue) ∨ s'.destroyed = true ∧ s'.queue = s.queue ++ [.stop]) := by
    intro res' e; cases e; exact ⟨rfl, .inl ⟨hd', id⟩⟩
  cases c with
  | write d =>
    rw [call, if_neg hd] at h
    obtain ⟨a, b, c⟩ := stop_write h
    exact ⟨b, .inl ⟨by rw [a]; exact hd', c⟩⟩
  | seek offset mode =>
    rw [call, if_neg hd, seek] at h
    split at h
    · exact same h
    split at h
    · exact same h
    split at h
    · cases h; exact ⟨rfl, .inl ⟨hd', id⟩⟩
    · exact same h
  | tell =>
    rw [call, if_neg hd] at h
    split at h <;> exact same h
  | sync =>
    rw [call, if_neg hd] at h
    split at h
    · exact same h
    · cases h
      refine ⟨rfl, .inl ⟨hd', fun hm => ?_⟩⟩
      rcases List.mem_append.mp hm with hm | hm
      · exact hm
      · cases List.mem_singleton.mp hm
  | waitSync k =>
    rw [call, if_neg hd] at h
    split at h
    · exact same h
    split at h
    · exact same h
    · cases h
  | reconfigure size pre =>
    rw [call, if_neg hd] at h
    split at h
    · exact same h
    · cases h
      refine ⟨rfl, .inl ⟨hd', fun hm => ?_⟩⟩
      simp only [] at hm
      split at hm
      · exact hm
      · rcases List.mem_append.mp hm with hm | hm
        · exact hm
        · cases List.mem_singleton.mp hm
  | destroy =>
    rw [call, if_neg hd] at h
    cases h
    exact ⟨rfl, .inr ⟨rfl, rfl⟩⟩

theorem StopInv.call {s : State α} (h : StopInv s) {c : Call α} {s' : State α} {res : Res} (hc : Async.call s c = .ok (s', res)) :
    StopInv s' := by
  obtain ⟨hd, ht, hx⟩ := stop_call hc
  obtain ⟨h1, h2⟩ := h.before hd
  rcases hx with ⟨hd', hq⟩ | ⟨hd', hq⟩
  · exact ⟨fun _ => ⟨fun e => h1 (hq e), by rw [ht]; exact h2⟩, (fun e => by rw [hd'] at e; cases e)⟩
  · exact ⟨(fun e => by rw [hd'] at e; cases e), fun _ => .inl ⟨s.queue, hq, h1, by rw [ht]; exact h2⟩⟩

/-- The first operation is put back, dropped or changed, the thread goes on -/
theorem StopInv.go {s s' : State α} (h : StopInv s) (ht : s.thread ≠ .ended) (ht' : s'.thread ≠ .ended) (hd : s'.destroyed = s.destroyed)
    (hq : s'.queue = s.queue ∨ (∃ op, op ≠ .stop ∧ s'.queue = op :: s.queue) ∨ ∃ op, op ≠ .stop ∧ s.queue = op :: s'.queue) : StopInv s' := by
  constructor
  · intro e
    rw [hd] at e
    obtain ⟨h1, _⟩ := h.before e
    refine ⟨fun hm => h1 ?_, ht'⟩
    rcases hq with hq | ⟨op, hne, hq⟩ | ⟨op, hne, hq⟩
    · rwa [hq] at hm
    · rw [hq] at hm
      cases hm with
      | head => exact absurd rfl hne
      | tail _ hm => exact hm
    · rw [hq]; exact List.mem_cons_of_mem _ hm
  · intro e
    rw [hd] at e
    rcases h.after e with ⟨q, h1, h2, _⟩ | ⟨_, h2⟩
    · left
      rcases hq with hq | ⟨op, hne, hq⟩ | ⟨op, hne, hq⟩
      · exact ⟨q, by rw [hq, h1], h2, ht'⟩
      · refine ⟨op :: q, by rw [hq, h1]; rfl, fun hm => ?_, ht'⟩
        cases hm with
        | head => exact hne rfl
        | tail _ hm => exact h2 hm
      · cases q with
        | nil => rw [hq] at h1; injection h1 with e1 _; exact absurd e1 hne
        | cons x q =>
          rw [hq] at h1
          injection h1 with e1 e2
          exact ⟨q, e2, fun hm => h2 (List.mem_cons_of_mem _ hm), ht'⟩
    · exact absurd h2 ht

theorem StopInv.tick {s : State α} (h : StopInv s) {t : Tick} {s' : State α} (hc : Async.tick s t = .ok s') (hf : s'.failed = false) :
    StopInv s' := by
  have nc : ∀ x : State α, (caught x).failed ≠ false := fun x e => nomatch e
  cases t with
  | take =>
    rw [Async.tick] at hc
    split at hc
    · rename_i op q ht hq
      cases hc
      have hne : s.thread ≠ .ended := by rw [ht]; exact fun e => nomatch e
      cases op with
      | write st g o c u =>
        rw [takeOp] at hf ⊢
        split at hf
        · exact absurd hf (nc _)
        · split at hf
          · rename_i e1 e2
            rw [if_pos e2]
            exact h.go hne (fun e => nomatch e) rfl (.inr (.inr ⟨.write st g o c u, (fun e => nomatch e), hq⟩))
          · exact absurd hf (nc _)
      | stop =>
        rw [takeOp]
        cases hd : s.destroyed with
        | false =>
          exact absurd (by rw [hq]; exact List.mem_cons_self ..) (h.before hd).1
        | true =>
          rcases h.after hd with ⟨q', h1, h2, _⟩ | ⟨h1, _⟩
          · cases q' with
            | nil =>
              rw [hq] at h1
              injection h1 with _ h1
              exact ⟨(fun e => nomatch e), fun _ => .inr ⟨h1, rfl⟩⟩
            | cons x q' =>
              rw [hq] at h1
              injection h1 with e1 e2
              exact absurd (by rw [← e1]; exact List.mem_cons_self ..) h2
          · rw [h1] at hq; cases hq
      | sync k => exact h.go hne (fun e => nomatch e) rfl (.inr (.inr ⟨.sync k, (fun e => nomatch e), hq⟩))
      | popBuffer => exact h.go hne hne rfl (.inr (.inr ⟨.popBuffer, (fun e => nomatch e), hq⟩))
    · cases hc
  | wrote n =>
    rw [Async.tick] at hc
    split at hc
    · rename_i st g o c u ht
      have hne : s.thread ≠ .ended := by rw [ht]; exact fun e => nomatch e
      split at hc
      · split at hc
        · cases hc
        · cases hc
          rw [wroteOp] at hf ⊢
          split at hf
          · rename_i e1
            rw [if_pos e1]
            split at hf
            · exact absurd hf (nc _)
            · exact h.go hne (fun e => nomatch e) rfl (.inl rfl)
          · rename_i e1
            rw [if_neg e1]
            split at hf
            · exact absurd hf (nc _)
            · exact h.go hne (fun e => nomatch e) rfl (.inr (.inl ⟨(Op.write st g o c u).popped n, (fun e => nomatch e), rfl⟩))
      · cases hc
    · cases hc
  | synced =>
    rw [Async.tick] at hc
    split at hc
    · rename_i k ht
      cases hc
      exact h.go (by rw [ht]; exact fun e => nomatch e) (fun e => nomatch e) rfl (.inl rfl)
    · cases hc
  | threw n =>
    exfalso
    rw [Async.tick] at hc
    split at hc
    · split at hc
      · split at hc
        · cases hc
        · cases hc; exact nc _ hf
      · cases hc
    · cases hc; exact nc _ hf
    · cases hc

theorem run_stop {s s' : State α} {r r' : Ref α} (hg : Good s r) (h : s.failed = false → StopInv s) {as : List (Act α)}
    (hr : run s r as = .ok (s', r')) (hf : s'.failed = false) : StopInv s' := by
  induction as generalizing s r with
  | nil => cases hr; exact h hf
  | cons a as ih =>
    rw [run] at hr
    rcases step_good hg a with e | ⟨t, w, e, hg', h1, _⟩
    · rw [e] at hr; cases hr
    · rw [e] at hr
      refine ih hg' (fun hft => ?_) hr
      have hfs : s.failed = false := by
        cases hx : s.failed with
        | false => rfl
        | true => rw [(h1 hx).1] at hft; cases hft
      cases a with
      | call c =>
        rw [step] at e
        split at e
        · cases e
        · rename_i hc; cases e; exact (h hfs).call hc
      | tick c =>
        rw [step] at e
        split at e
        · cases e
        · rename_i hc; cases e; exact (h hfs).tick hc hft

theorem reach_stop (h : run (init mem disk position size prealloc) ⟨disk, position⟩ as = .ok (s, r)) (hf : s.failed = false) : StopInv s :=
  run_stop (init_good ..) (fun _ => ⟨fun _ => ⟨(fun e => nomatch e), (fun e => nomatch e)⟩, fun e => nomatch e⟩) h hf

/-- **C116.** When the thread has come to its end, and with it the destructor, the underlying stream holds exactly what all
the writes make of an ordinary file: destruction loses nothing that a `Write` has accepted, unless the stream throws -/
theorem destroyed_complete (h : run (init mem disk position size prealloc) ⟨disk, position⟩ as = .ok (s, r)) (hf : s.failed = false)
    (ht : s.thread = .ended) : s.disk = r.file ∧ s.queue = [] ∧ s.destroyed = true := by
  have hs := reach_stop h hf
  have hd : s.destroyed = true := by
    cases hd : s.destroyed with
    | true => rfl
    | false => exact absurd ht (hs.before hd).2
  rcases hs.after hd with ⟨_, _, _, e⟩ | ⟨hq, _⟩
  · exact absurd ht e
  · refine ⟨?_, hq, hd⟩
    rcases reach_good h with ⟨_, hi⟩ | ⟨e, _⟩
    · have := hi.content
      rwa [ops, hq, ht] at this
    · rw [hf] at e; cases e

/-- Until then the thread can always go on, without failing -/
theorem destroyed_goes_on (h : run (init mem disk position size prealloc) ⟨disk, position⟩ as = .ok (s, r)) (hf : s.failed = false)
    (hd : s.destroyed = true) (ht : s.thread ≠ .ended) :
    ∃ t s', tick s t = .ok s' ∧ s'.failed = false := by
  have hg := reach_good h
  have hi : Inv s r := by
    rcases hg with ⟨_, hi⟩ | ⟨e, _⟩
    · exact hi
    · rw [hf] at e; cases e
  have go : ∀ t, (∀ n, t ≠ .threw n) → tick s t ≠ .error .disabled → ∃ t s', tick s t = .ok s' ∧ s'.failed = false := by
    intro t hn hne
    rcases tick_next hi hf t with ⟨s', e, hx | ⟨⟨n, e2⟩, _⟩⟩ | e
    · exact ⟨t, s', e, hx.alive⟩
    · exact absurd e2 (hn n)
    · exact absurd e hne
  cases hth : s.thread with
  | ended => exact absurd hth ht
  | idle =>
    rcases (reach_stop h hf).after hd with ⟨q, hq, _⟩ | ⟨_, e⟩
    · refine go .take (fun n e => nomatch e) ?_
      rw [tick, hth, hq]
      cases q <;> exact fun e => nomatch e
    · exact absurd e ht
  | busy op =>
    rcases hi.busy op hth with ⟨st, g, o, c, u, rfl⟩ | ⟨k, rfl⟩
    · refine go (.wrote u) (fun n e => nomatch e) ?_
      have hal : (Op.write st g o c u).dangling s.buffers = false :=
        hi.lay.alive (by rw [ops, hth]; exact List.mem_cons_self ..)
      simp only [tick, hth, if_pos (Nat.le_refl u), hal]
      exact fun e => nomatch e
    · refine go .synced (fun n e => nomatch e) ?_
      simp only [tick, hth]
      exact fun e => nomatch e

/-! The thread's work is finite -/

/-- The work that an operation is -/
def Op.work : Op → Nat
  | .write _ _ _ _ u => 2 * u + 2
  | _ => 2

/-- The work that is left to do -/
def work (s : State α) : Nat := (busyOps s.thread).foldr (fun op n => op.work - 1 + n) 0 + s.queue.foldr (fun op n => op.work + n) 0

/-- Does the underlying stream return from `Write` without having written anything -/
def idleWrite : Act α → Bool
  | .tick (.wrote 0) => true
  | _ => false

theorem tick_work {s s' : State α} {t : Tick} (hc : tick s t = .ok s') (hf : s'.failed = false) :
    work s' + 1 ≤ work s + 2 * (if idleWrite (.tick t : Act α) then 1 else 0) := by
  have nc : ∀ x : State α, (caught x).failed ≠ false := fun x e => nomatch e
  have hw : ∀ op : Op, 2 ≤ op.work := by intro op; cases op <;> simp [Op.work]
  cases t with
  | take =>
    rw [tick] at hc
    split at hc
    · rename_i op q ht hq
      cases hc
      have hs : work s = op.work + q.foldr (fun op n => op.work + n) 0 := by rw [work, ht, hq]; simp [busyOps]
      have := hw op
      rw [hs]
      cases op with
      | write st g o c u =>
        rw [takeOp] at hf ⊢
        split at hf
        · exact absurd hf (nc _)
        · split at hf
          · rename_i e1 e2
            rw [if_pos e2]
            simp [work, busyOps]
            omega
          · exact absurd hf (nc _)
      | stop => simp [takeOp, work, busyOps]; omega
      | sync k => simp [takeOp, work, busyOps]; omega
      | popBuffer => simp [takeOp, work, busyOps, ht]; omega
    · cases hc
  | wrote n =>
    rw [tick] at hc
    split at hc
    · rename_i st g o c u ht
      have hl : ((Op.write st g o c u).bytes s.mem).length = u := by simp [Op.bytes]
      have hs : work s = 2 * u + 1 + s.queue.foldr (fun op n => op.work + n) 0 := by rw [work, ht]; simp [busyOps, Op.work]
      rw [hs]
      split at hc
      · split at hc
        · cases hc
        · cases hc
          rw [wroteOp] at hf ⊢
          rw [hl] at hf ⊢
          split at hf
          · rename_i e1
            rw [if_pos e1]
            split at hf
            · exact absurd hf (nc _)
            · simp [work, busyOps]
              omega
          · rename_i e1
            rw [if_neg e1]
            split at hf
            · exact absurd hf (nc _)
            · cases n with
              | zero => simp [work, busyOps, Op.work, Op.popped, idleWrite]; omega
              | succ n => simp [work, busyOps, Op.work, Op.popped]; omega
      · cases hc
    · cases hc
  | synced =>
    rw [tick] at hc
    split at hc
    · rename_i k ht
      cases hc
      simp [work, busyOps, Op.work, ht]
      omega
    · cases hc
  | threw n =>
    exfalso
    rw [tick] at hc
    split at hc
    · split at hc
      · split at hc
        · cases hc
        · cases hc; exact nc _ hf
      · cases hc
    · cases hc; exact nc _ hf
    · cases hc

theorem run_failed {s s' : State α} {r r' : Ref α} (h : Good s r) (hf : s.failed = true) {as : List (Act α)}
    (hs : run s r as = .ok (s', r')) : s'.failed = true ∧ r' = r := by
  induction as generalizing s r with
  | nil => cases hs; exact ⟨hf, rfl⟩
  | cons a as ih =>
    rw [run] at hs
    rcases step_good h a with e | ⟨t, w, e, hg, h1, _⟩
    · rw [e] at hs; cases hs
    · rw [e] at hs
      obtain ⟨a1, a2, _⟩ := h1 hf
      obtain ⟨b1, b2⟩ := ih hg a1 hs
      exact ⟨b1, by rw [b2, a2]⟩

theorem tick_destroyed {s s' : State α} {t : Tick} (h : tick s t = .ok s') : s'.destroyed = s.destroyed := by
  cases t with
  | take =>
    rw [tick] at h
    split at h
    · rename_i op q _ _
      cases h
      cases op with
      | write st g o c u =>
        rw [takeOp]
        split
        · rfl
        · split <;> rfl
      | _ => rfl
    · cases h
  | wrote n =>
    rw [tick] at h
    split at h
    · split at h
      · split at h
        · cases h
        · cases h
          rw [wroteOp]
          split <;> split <;> rfl
      · cases h
    · cases h
  | synced =>
    rw [tick] at h
    split at h
    · cases h; rfl
    · cases h
  | threw n =>
    rw [tick] at h
    split at h
    · split at h
      · split at h
        · cases h
        · cases h; rfl
      · cases h
    · cases h; rfl
    · cases h

/-- After the destructor has asked the thread to stop, the thread makes at most as many steps as its work, plus two for
every time the underlying stream returns without having written anything -/
theorem run_work {s s' : State α} {r r' : Ref α} (hg : Good s r) (hd : s.destroyed = true) {as : List (Act α)}
    (hr : run s r as = .ok (s', r')) (hf : s'.failed = false) : as.length + work s' ≤ work s + 2 * as.countP idleWrite := by
  induction as generalizing s r with
  | nil => cases hr; simp
  | cons a as ih =>
    rw [run] at hr
    rcases step_good hg a with e | ⟨t, w, e, hg', h1, _⟩
    · rw [e] at hr; cases hr
    · have hs := e
      rw [e] at hr
      have hd' : ∀ c, a ≠ .call c := by
        rintro c rfl
        rw [step] at e
        have : call s c = .error .disabled := by cases c <;> simp [call, hd]
        rw [this] at e
        cases e
      cases a with
      | call c => exact absurd rfl (hd' c)
      | tick c =>
        rw [step] at e
        split at e
        · cases e
        · rename_i t' hc
          cases e
          have hft : t.failed = false := by
            cases hx : t.failed with
            | false => rfl
            | true =>
              exfalso
              have := (run_failed hg' hx hr).1
              rw [hf] at this; cases this
          have h2 := tick_work hc hft
          have hdt : t.destroyed = true := by rw [tick_destroyed hc]; exact hd
          have := ih hg' hdt hr
          rw [List.countP_cons, List.length_cons]
          omega

/-- Destruction comes to its end if the underlying stream does not go on writing nothing forever -/
theorem destroyed_ends (h : run (init mem disk position size prealloc) ⟨disk, position⟩ as = .ok (s, r)) (hd : s.destroyed = true)
    {more : List (Act α)} {s' : State α} {r' : Ref α} (hr : run s r more = .ok (s', r')) (hf : s'.failed = false) :
    more.length ≤ work s + 2 * more.countP idleWrite := by
  have := run_work (reach_good h) hd hr hf
  omega

end

/-! ## Cases -/

/-- An empty file -/
def empty : File Nat := ⟨fun _ => 0, 0⟩

/-- A history with merging, a partial write of the underlying stream, a change of buffers and destruction -/
def story : List (Act Nat) :=
  [.call (.write [1, 2]), .call (.write [3, 4, 5]), .tick .take, .call (.seek 1 .begin), .call (.write [7]), .tick (.wrote 2),
    .call (.reconfigure 8 2), .call (.seek 2 .end_), .call (.write [8, 9, 10]), .call .sync, .tick .take, .tick (.wrote 2),
    .call .destroy, .tick .take, .tick (.wrote 1), .tick .take, .tick .take, .tick (.wrote 1), .tick .take, .tick (.wrote 2), .tick .take,
    .tick .synced, .tick .take]

/-- Contents as a list, for looking at -/
def Show (f : File Nat) : List Nat := (List.range f.len).map f.get

-- the story is possible, and at its end the hypotheses of `destroyed_complete` hold of a file that is not trivial
example : (run (init (fun _ _ => 0) empty 0 6 4) ⟨empty, 0⟩ story).toOption.map (fun w =>
    (w.1.failed, (match w.1.thread with | .ended => true | _ => false), Show w.1.disk, Show w.2.file)) =
    some (false, true, [1, 7, 3, 4, 0, 0, 8, 9, 10], [1, 7, 3, 4, 0, 0, 8, 9, 10]) := by decide +kernel

-- the hypotheses of `drained`, `drained_accepts`
example : (run (init (fun _ _ => 0) empty 0 6 4) ⟨empty, 0⟩ [.call (.write [1, 2]), .tick .take, .tick (.wrote 2)]).toOption.map (fun w =>
    (w.1.failed, w.1.queue, (match w.1.thread with | .idle => true | _ => false), Show w.1.disk)) =
    some (false, [], true, [1, 2]) := by decide +kernel

-- a full buffer accepts nothing, and the position stays
example : ((run (init (fun _ _ => 0) empty 0 3 4) ⟨empty, 0⟩ [.call (.write [1, 2, 3, 4]), .call (.write [4])]).toOption.map fun w =>
    (w.1.position, w.2.pos, Show w.2.file)) = some (3, 3, [1, 2, 3]) := by decide +kernel

-- the underlying stream throws
example : ((run (init (fun _ _ => 0) empty 0 3 4) ⟨empty, 0⟩ [.call (.write [1, 2]), .tick .take, .tick (.threw 1), .call (.write [4])]).toOption.map fun w =>
    (w.1.failed, Show w.1.disk, Show w.2.file)) = some (true, [1], [1, 2]) := by decide +kernel

end Verif.Async
