import Verif.Timer.Model
/-
Properties C43 and C63 of the model of `Timer`.
-/
namespace Verif.Timer
open Spec

theorem set_self {α : Type} (f : Nat → α) (i : Nat) (x : α) : set f i x i = x := by unfold set; rw [if_pos rfl]
theorem set_ne {α : Type} (f : Nat → α) {i j : Nat} (x : α) (h : j ≠ i) : set f i x j = f j := by unfold set; rw [if_neg h]

/-! ### The queue -/

theorem mem_insert {e x : Entry} : ∀ {q : List Entry}, x ∈ insert e q ↔ x = e ∨ x ∈ q
  | [] => by simp [insert]
  | y :: q => by
    unfold insert
    by_cases h : e.time < y.time
    · rw [if_pos h]; simp
    · rw [if_neg h, List.mem_cons, mem_insert, List.mem_cons]
      constructor
      · rintro (h | h | h)
        · exact Or.inr (Or.inl h)
        · exact Or.inl h
        · exact Or.inr (Or.inr h)
      · rintro (h | h | h)
        · exact Or.inr (Or.inl h)
        · exact Or.inl h
        · exact Or.inr (Or.inr h)

theorem insert_ids (e : Entry) : ∀ q : List Entry, ((insert e q).map (·.id)).Perm (e.id :: q.map (·.id))
  | [] => by simp [insert]
  | y :: q => by
    unfold insert
    by_cases h : e.time < y.time
    · rw [if_pos h]; exact List.Perm.refl _
    · rw [if_neg h]
      exact ((insert_ids e q).cons y.id).trans (List.Perm.swap _ _ _)

theorem insert_sorted {e : Entry} : ∀ {q : List Entry}, q.Pairwise Before → (∀ x ∈ q, x.seq < e.seq) → (insert e q).Pairwise Before
  | [], _, _ => by simp [insert]
  | y :: q, h, hs => by
    rw [List.pairwise_cons] at h
    unfold insert
    by_cases hl : e.time < y.time
    · rw [if_pos hl, List.pairwise_cons, List.pairwise_cons]
      refine ⟨fun x hx => ?_, h⟩
      rw [List.mem_cons] at hx
      rcases hx with hx | hx
      · rw [hx]; exact Or.inl hl
      · rcases h.1 x hx with h' | h' <;> exact Or.inl (by omega)
    · rw [if_neg hl, List.pairwise_cons]
      refine ⟨fun x hx => ?_, insert_sorted h.2 (fun x hx => hs x (List.mem_cons_of_mem _ hx))⟩
      rw [mem_insert] at hx
      rcases hx with hx | hx
      · subst hx
        have := hs y List.mem_cons_self
        by_cases he : y.time = x.time
        · exact Or.inr ⟨he, this⟩
        · exact Or.inl (by omega)
      · exact h.1 x hx

/-- The queue, the fields of the tasks it depends on, and the number of insertions. -/
structure QInv (q : List Entry) (f : Nat → Info) (n : Nat) : Prop where
  sorted : q.Pairwise Before
  seqs : ∀ e ∈ q, e.seq < n
  mem : ∀ e ∈ q, (f e.id).queued = true ∧ (f e.id).time = e.time
  nodup : (q.map (·.id)).Nodup
  queued : ∀ id, (f id).queued = true → ∃ e ∈ q, e.id = id

theorem q_push {q : List Entry} {f : Nat → Info} {n id : Nat} (h : QInv q f n) (hq : (f id).queued = false) :
    QInv (insert ⟨(f id).time, n, id⟩ q) (set f id { f id with queued := true }) (n + 1) := by
  have hne : ∀ e ∈ q, e.id ≠ id := fun e he heq => by have := (h.mem e he).1; rw [heq, hq] at this; cases this
  refine ⟨insert_sorted h.sorted h.seqs, fun e he => ?_, fun e he => ?_, ?_, fun k hk => ?_⟩
  · rw [mem_insert] at he
    rcases he with he | he
    · rw [he]; exact Nat.lt_succ_self _
    · exact Nat.lt_succ_of_lt (h.seqs e he)
  · rw [mem_insert] at he
    rcases he with he | he
    · rw [he]; simp only []; rw [set_self]; exact ⟨rfl, rfl⟩
    · rw [set_ne _ _ (hne e he)]; exact h.mem e he
  · rw [(insert_ids _ q).nodup_iff, List.nodup_cons]
    refine ⟨fun hm => ?_, h.nodup⟩
    rw [List.mem_map] at hm
    obtain ⟨e, he, heq⟩ := hm
    exact hne e he heq
  · by_cases e : k = id
    · exact ⟨_, mem_insert.2 (Or.inl rfl), e.symm⟩
    · rw [set_ne _ _ e] at hk
      obtain ⟨x, hx, hxe⟩ := h.queued k hk
      exact ⟨x, mem_insert.2 (Or.inr hx), hxe⟩

theorem q_set {q : List Entry} {f : Nat → Info} {n id : Nat} (x : Info) (h : QInv q f n) (hq : x.queued = (f id).queued) (ht : (f id).queued = true → x.time = (f id).time) :
    QInv q (set f id x) n := by
  refine ⟨h.sorted, h.seqs, fun e he => ?_, h.nodup, fun k hk => ?_⟩
  · by_cases e' : e.id = id
    · have := h.mem e he
      rw [e'] at this ⊢
      rw [set_self]
      exact ⟨by rw [hq]; exact this.1, by rw [ht this.1]; exact this.2⟩
    · rw [set_ne _ _ e']; exact h.mem e he
  · by_cases e : k = id
    · rw [e, set_self, hq] at hk
      rw [e]; exact h.queued id hk
    · rw [set_ne _ _ e] at hk; exact h.queued k hk

theorem q_pop {e : Entry} {q : List Entry} {f : Nat → Info} {n : Nat} (h : QInv (e :: q) f n) : QInv q (set f e.id { f e.id with queued := false }) n := by
  have hn := h.nodup
  rw [List.map_cons, List.nodup_cons] at hn
  have hne : ∀ x ∈ q, x.id ≠ e.id := fun x hx heq => hn.1 (by rw [List.mem_map]; exact ⟨x, hx, heq⟩)
  refine ⟨(List.pairwise_cons.1 h.sorted).2, fun x hx => h.seqs x (List.mem_cons_of_mem _ hx), fun x hx => ?_, hn.2, fun k hk => ?_⟩
  · rw [set_ne _ _ (hne x hx)]; exact h.mem x (List.mem_cons_of_mem _ hx)
  · by_cases ek : k = e.id
    · rw [ek, set_self] at hk; cases hk
    · rw [set_ne _ _ ek] at hk
      obtain ⟨x, hx, hxe⟩ := h.queued k hk
      rw [List.mem_cons] at hx
      rcases hx with hx | hx
      · rw [hx] at hxe; exact absurd hxe.symm ek
      · exact ⟨x, hx, hxe⟩

theorem q_erase {q : List Entry} {f : Nat → Info} {n id : Nat} (h : QInv q f n) :
    QInv (if (f id).queued then q.filter (fun e => e.id ≠ id) else q) (set f id { f id with erased := true, queued := false }) n := by
  by_cases hq : (f id).queued = true
  · rw [if_pos hq]
    refine ⟨h.sorted.sublist List.filter_sublist, fun e he => h.seqs e (List.mem_filter.1 he).1, fun e he => ?_, h.nodup.sublist (List.Sublist.map _ List.filter_sublist), fun k hk => ?_⟩
    · rw [List.mem_filter] at he
      rw [set_ne _ _ (by simpa using he.2)]; exact h.mem e he.1
    · by_cases ek : k = id
      · rw [ek, set_self] at hk; cases hk
      · rw [set_ne _ _ ek] at hk
        obtain ⟨x, hx, hxe⟩ := h.queued k hk
        exact ⟨x, List.mem_filter.2 ⟨hx, by simpa [hxe] using ek⟩, hxe⟩
  · rw [if_neg hq]
    have hq : (f id).queued = false := by simpa using hq
    exact q_set _ h hq.symm (fun e => absurd e (by rw [hq]; exact fun e => (nomatch e)))

/-! ### The whole state -/

/-- The task the worker has in hands. -/
def Pc.holds (id : Nat) : Pc → Prop
  | .popped k _ | .guarding k _ _ | .running k _ _ | .after k _ _ => k = id
  | _ => False

/-- What the next deadline of a task must be, given where it is. -/
structure Ok (i : Info) (pc : Pc) (id : Nat) (now : Int) (st : Option Int) : Prop where
  popped : ∀ d, pc = .popped id d → st = some d ∧ d ≤ now
  held : ∀ d t, pc = .guarding id d t ∨ pc = .running id d t ∨ pc = .after id d t → st = i.period.map (fun p => t + p) ∧ d ≤ t ∧ t ≤ now
  queued : i.queued = true ∨ i.pushed = false → st = some i.time

structure Inv (s : State) : Prop where
  q : QInv s.queue s.infos s.seq
  busy : ∀ id, s.pc.holds id → (s.infos id).queued = false ∧ (s.infos id).pushed = true
  unborn : ∀ id, (s.infos id).born = false → s.infos id = Info.none ∧ takesOf s id = []
  unpushed : ∀ id, (s.infos id).pushed = false → (s.infos id).queued = false
  chain : ∀ id, (s.infos id).born = true → ∃ st, Spec.after (s.infos id).period (some (s.infos id).first) (takesOf s id) = some st ∧ Ok (s.infos id) s.pc id s.now st
  runs : ∀ r ∈ s.runs, r.due ≤ r.start
  gone : ∀ id, (s.infos id).gone = true → (s.infos id).alive = false
  blocked : ∀ d, s.pc = .blocked d false → s.cancelled = false ∧ (d = none → s.queue = []) ∧ (∀ t, d = some t → ∀ e ∈ s.queue, t ≤ e.time)
  ct : s.ct ≠ none → s.pc ≠ .top ∧ ∀ d w, s.pc ≠ .blocked d w
  cancelled : s.ct ≠ none → s.cancelled = true
  draining : s.pc = .drain ∨ s.pc = .finished → s.ct ≠ none
  ctNow : ∀ c, s.ct = some c → c ≤ s.now

theorem init_inv : Inv init where
  q := ⟨List.Pairwise.nil, fun _ h => (nomatch h), fun _ h => (nomatch h), List.nodup_nil, fun _ h => (nomatch h)⟩
  busy := fun _ h => h.elim
  unborn := fun _ _ => ⟨rfl, rfl⟩
  unpushed := fun _ _ => rfl
  chain := fun _ h => (nomatch h)
  runs := fun _ h => (nomatch h)
  gone := fun _ h => (nomatch h)
  blocked := fun _ h => (nomatch h)
  ct := fun h => absurd rfl h
  cancelled := fun h => absurd rfl h
  draining := fun h => by rcases h with h | h <;> cases h
  ctNow := fun _ h => (nomatch h)

/-- Only the program counter changes, to one that holds no task (and so does the old one). -/
theorem ok_pc {i : Info} {pc pc' : Pc} {id : Nat} {now : Int} {st : Option Int} (h : Ok i pc id now st) (hn : ¬ pc'.holds id) : Ok i pc' id now st := by
  refine ⟨fun d e => absurd (show pc'.holds id by rw [e]; rfl) hn, fun d t e => ?_, h.queued⟩
  refine absurd ?_ hn
  rcases e with e | e | e <;> rw [e] <;> rfl

theorem ok_tick {i : Info} {pc : Pc} {id : Nat} {now : Int} {st : Option Int} (n : Nat) (h : Ok i pc id now st) : Ok i pc id (now + n) st := by
  refine ⟨fun d e => ?_, fun d t e => ?_, h.queued⟩
  · have := h.popped d e; exact ⟨this.1, by omega⟩
  · have := h.held d t e; exact ⟨this.1, this.2.1, by omega⟩

theorem wake_holds (p : Pc) (id : Nat) : p.wake.holds id ↔ p.holds id := by cases p <;> exact Iff.rfl

theorem ok_wake {i : Info} {pc : Pc} {id : Nat} {now : Int} {st : Option Int} (h : Ok i pc id now st) : Ok i pc.wake id now st := by
  cases pc with
  | blocked d w => exact ok_pc h (fun h => h.elim)
  | _ => exact h

theorem wake_blocked (p : Pc) (d : Option Int) : p.wake ≠ .blocked d false := by
  cases p <;> intro h <;> first | (cases h; done) | (injection h with _ h; cases h)

theorem wake_eq {p q : Pc} (h : p.wake = q) (hq : ∀ d w, q ≠ .blocked d w) : p = q := by
  cases p with
  | blocked d w => exact absurd h.symm (hq d true)
  | _ => exact h

theorem takesOf_append (s : State) (x : Take) (id : Nat) : takesOf { s with takes := s.takes ++ [x] } id = takesOf s id ++ (if x.id = id then [x] else []) := by
  unfold takesOf
  simp only [List.filter_append, List.filter_cons, List.filter_nil, decide_eq_true_eq]

theorem after_append (period : Option Int) : ∀ (xs : List Take) (st : Option Int) (x : Take),
    Spec.after period st (xs ++ [x]) = (Spec.after period st xs).bind fun st' => if st' = some x.due ∧ x.due ≤ x.taken then some (period.map fun p => x.taken + p) else none
  | [], st, x => by simp only [List.nil_append, Spec.after, Option.bind]
  | y :: xs, st, x => by
    simp only [List.cons_append, Spec.after]
    by_cases h : st = some y.due ∧ y.due ≤ y.taken
    · rw [if_pos h, if_pos h]; exact after_append period xs _ x
    · rw [if_neg h, if_neg h]; rfl

theorem holds_unique {p : Pc} {a b : Nat} (ha : p.holds a) (hb : p.holds b) : a = b := by
  cases p <;> simp only [Pc.holds] at ha hb <;> first | exact ha.elim | (rw [← ha, ← hb])

/-- The clock. -/
theorem inv_tick {s : State} (h : Inv s) (n : Nat) : Inv { s with now := s.now + n } :=
  { h with chain := fun id hb => let ⟨st, h1, h2⟩ := h.chain id hb; ⟨st, h1, ok_tick n h2⟩, ctNow := fun c hc => (by have := h.ctNow c hc; show c ≤ s.now + n; omega) }

/-- A change of the program counter alone, to one that holds no task. -/
theorem inv_pc {s : State} (h : Inv s) (p : Pc) (hn : ∀ id, ¬ p.holds id)
    (hb : ∀ d, p = .blocked d false → s.cancelled = false ∧ (d = none → s.queue = []) ∧ (∀ t, d = some t → ∀ e ∈ s.queue, t ≤ e.time))
    (hc : s.ct ≠ none → p ≠ .top ∧ ∀ d w, p ≠ .blocked d w) (hd : p = .drain ∨ p = .finished → s.ct ≠ none) : Inv { s with pc := p } :=
  { h with
    busy := fun id hi => absurd hi (hn id)
    chain := fun id hb => let ⟨st, h1, h2⟩ := h.chain id hb; ⟨st, h1, ok_pc h2 (hn id)⟩
    blocked := hb
    ct := hc
    draining := hd }

/-- A change of the program counter that keeps the task it holds, after the clock was read. -/
theorem inv_hold {s : State} (h : Inv s) (p : Pc) (id : Nat) (d t : Int) (hs : s.pc = .guarding id d t ∨ s.pc = .running id d t ∨ s.pc = .after id d t)
    (hp : p = .guarding id d t ∨ p = .running id d t ∨ p = .after id d t) (rs : List Run) (hr : ∀ r ∈ rs, r.due ≤ r.start) : Inv { s with pc := p, runs := rs } := by
  have hh : s.pc.holds id := by rcases hs with e | e | e <;> rw [e] <;> rfl
  have hh' : p.holds id := by rcases hp with e | e | e <;> rw [e] <;> rfl
  refine { h with busy := fun k hk => ?_, chain := fun k hb => ?_, runs := hr, blocked := fun d e => ?_, ct := fun _ => ⟨fun e => ?_, fun d w e => ?_⟩, draining := fun e => ?_ }
  · exact h.busy k (by rw [holds_unique hk hh']; exact hh)
  · obtain ⟨st, h1, h2⟩ := h.chain k hb
    refine ⟨st, h1, ?_⟩
    by_cases ek : k = id
    · subst ek
      have := h2.held d t hs
      refine ⟨fun d' e => ?_, fun d' t' e => ?_, h2.queued⟩
      · simp only [] at e; rw [e] at hp; rcases hp with x | x | x <;> cases x
      · have : d' = d ∧ t' = t := by
          simp only [] at e
          rcases hp with x | x | x <;> rw [x] at e <;> rcases e with e | e | e <;> cases e <;> exact ⟨rfl, rfl⟩
        rw [this.1, this.2]; assumption
    · exact ok_pc h2 (fun hk => ek (holds_unique hk hh'))
  · simp only [] at e; rw [e] at hp; rcases hp with x | x | x <;> cases x
  · simp only [] at e; rw [e] at hp; rcases hp with x | x | x <;> cases x
  · simp only [] at e; rw [e] at hp; rcases hp with x | x | x <;> cases x
  · simp only [] at e; rcases e with e | e <;> rw [e] at hp <;> rcases hp with x | x | x <;> cases x

theorem inv_pop {s : State} {e : Entry} {q : List Entry} (h : Inv s) (hq : s.queue = e :: q) (hn : ∀ id, ¬ s.pc.holds id) (hnow : e.time ≤ s.now) : Inv (pop s e q) := by
  have hq' := h.q
  rw [hq] at hq'
  have hm := hq'.mem e List.mem_cons_self
  have hpu : (s.infos e.id).pushed = true := by
    cases hx : (s.infos e.id).pushed with
    | true => rfl
    | false => have := h.unpushed e.id hx; rw [hm.1] at this; cases this
  have hbo : (s.infos e.id).born = true := by
    cases hx : (s.infos e.id).born with
    | true => rfl
    | false => have := (h.unborn e.id hx).1; rw [this] at hm; cases hm.1
  unfold pop
  refine ⟨q_pop hq', fun k hk => ?_, fun k hk => ?_, fun k hk => ?_, fun k hk => ?_, h.runs, fun k hk => ?_, fun d e => (nomatch e), fun _ => ⟨fun e => (nomatch e), fun _ _ e => (nomatch e)⟩,
    h.cancelled, (fun e => by rcases e with e | e <;> cases e), h.ctNow⟩
  · have hk : e.id = k := hk
    subst hk; simp only [set_self]; exact ⟨trivial, hpu⟩
  · simp only [] at hk ⊢
    by_cases ek : k = e.id
    · subst ek; rw [set_self] at hk; have : (s.infos e.id).born = false := hk; rw [hbo] at this; cases this
    · rw [set_ne _ _ ek] at hk ⊢; exact h.unborn k hk
  · simp only [] at hk ⊢
    by_cases ek : k = e.id
    · subst ek; rw [set_self]
    · rw [set_ne _ _ ek] at hk ⊢; exact h.unpushed k hk
  · simp only [] at hk ⊢
    by_cases ek : k = e.id
    · subst ek
      obtain ⟨st, h1, h2⟩ := h.chain e.id hbo
      rw [set_self]
      refine ⟨st, h1, fun d hd => ?_, fun d t hd => ?_, fun hx => ?_⟩
      · injection hd with _ hd; subst hd
        exact ⟨by rw [h2.queued (Or.inl hm.1), hm.2], hnow⟩
      · rcases hd with hd | hd | hd <;> cases hd
      · rcases hx with hx | hx
        · cases hx
        · have hx : (s.infos e.id).pushed = false := hx
          rw [hpu] at hx; cases hx
    · rw [set_ne _ _ ek] at hk ⊢
      obtain ⟨st, h1, h2⟩ := h.chain k hk
      exact ⟨st, h1, ok_pc h2 (fun x => ek (show k = e.id from (show e.id = k from x).symm))⟩
  · simp only [] at hk ⊢
    by_cases ek : k = e.id
    · subst ek; rw [set_self] at hk ⊢; exact h.gone e.id hk
    · rw [set_ne _ _ ek] at hk ⊢; exact h.gone k hk

/-- Line 249. -/
theorem inv_taken {s : State} {id : Nat} {d : Int} (h : Inv s) (hp : s.pc = .popped id d) : Inv { s with pc := .guarding id d s.now, takes := s.takes ++ [⟨id, d, s.now⟩] } := by
  have hh : s.pc.holds id := by rw [hp]; rfl
  have hbo : (s.infos id).born = true := by
    cases hx : (s.infos id).born with
    | true => rfl
    | false => have := (h.unborn id hx).1; have h2 := (h.busy id hh).2; rw [this] at h2; cases h2
  have ht : ∀ k, takesOf { s with pc := .guarding id d s.now, takes := s.takes ++ [⟨id, d, s.now⟩] } k = takesOf s k ++ (if id = k then [⟨id, d, s.now⟩] else []) :=
    fun k => takesOf_append s ⟨id, d, s.now⟩ k
  refine { h with busy := fun k hk => ?_, unborn := fun k hk => ?_, chain := fun k hk => ?_, blocked := fun d e => (nomatch e), ct := fun _ => ⟨fun e => (nomatch e), fun _ _ e => (nomatch e)⟩,
                  draining := fun e => (by rcases e with e | e <;> cases e) }
  · exact h.busy k (by rw [hp]; exact hk)
  · refine ⟨(h.unborn k hk).1, ?_⟩
    rw [ht, (h.unborn k hk).2, if_neg (fun e => by subst e; have : (s.infos id).born = false := hk; rw [hbo] at this; cases this)]; rfl
  · obtain ⟨st, h1, h2⟩ := h.chain k hk
    rw [ht]
    by_cases ek : id = k
    · subst ek
      obtain ⟨hst, hle⟩ := h2.popped d hp
      have hb := h.busy id hh
      rw [if_pos rfl]
      refine ⟨_, by rw [after_append]; simp only []; rw [h1]; simp only [Option.bind]; rw [if_pos ⟨hst, hle⟩], fun d' e => (nomatch e), fun d' t' e => ?_, fun e => ?_⟩
      · rcases e with e | e | e <;> cases e
        exact ⟨rfl, hle, Int.le_refl _⟩
      · simp only [] at e
        rw [hb.1, hb.2] at e
        rcases e with e | e <;> cases e
    · rw [if_neg ek, List.append_nil]
      exact ⟨st, h1, ok_pc h2 (fun x => ek x)⟩

/-- A change of one task, of the queue and of the program counter. -/
theorem inv_upd {s : State} {id : Nat} {y : Info} {q' : List Entry} {n' : Nat} {p : Pc} (h : Inv s) (hq : QInv q' (set s.infos id y) n')
    (hbo : y.born = true) (hpu : y.pushed = false → y.queued = false) (hgo : y.gone = true → y.alive = false)
    (hbusy : ∀ k, p.holds k → s.pc.holds k) (hid : p.holds id → y.queued = false ∧ y.pushed = true)
    (hchain : ∃ st, Spec.after y.period (some y.first) (takesOf s id) = some st ∧ Ok y p id s.now st)
    (hother : ∀ k, k ≠ id → ∀ st, Ok (s.infos k) s.pc k s.now st → Ok (s.infos k) p k s.now st)
    (hb : ∀ d, p = .blocked d false → s.cancelled = false ∧ (d = none → q' = []) ∧ (∀ t, d = some t → ∀ e ∈ q', t ≤ e.time))
    (hc : s.ct ≠ none → p ≠ .top ∧ ∀ d w, p ≠ .blocked d w) (hd : p = .drain ∨ p = .finished → s.ct ≠ none) :
    Inv { s with queue := q', infos := set s.infos id y, seq := n', pc := p } := by
  refine ⟨hq, fun k hk => ?_, fun k hk => ?_, fun k hk => ?_, fun k hk => ?_, h.runs, fun k hk => ?_, hb, hc, h.cancelled, hd, h.ctNow⟩
  · simp only [] at hk ⊢
    by_cases ek : k = id
    · subst ek; rw [set_self]; exact hid hk
    · rw [set_ne _ _ ek]; exact h.busy k (hbusy k hk)
  · simp only [] at hk ⊢
    by_cases ek : k = id
    · subst ek; rw [set_self, hbo] at hk; cases hk
    · rw [set_ne _ _ ek] at hk ⊢; exact h.unborn k hk
  · simp only [] at hk ⊢
    by_cases ek : k = id
    · subst ek; rw [set_self] at hk ⊢; exact hpu hk
    · rw [set_ne _ _ ek] at hk ⊢; exact h.unpushed k hk
  · simp only [] at hk ⊢
    by_cases ek : k = id
    · subst ek; rw [set_self]; exact hchain
    · rw [set_ne _ _ ek] at hk ⊢
      obtain ⟨st, h1, h2⟩ := h.chain k hk
      exact ⟨st, h1, hother k ek st h2⟩
  · simp only [] at hk ⊢
    by_cases ek : k = id
    · subst ek; rw [set_self] at hk ⊢; exact hgo hk
    · rw [set_ne _ _ ek] at hk ⊢; exact h.gone k hk

theorem set_set {α : Type} (f : Nat → α) (i : Nat) (x y : α) : set (set f i x) i y = set f i y := by
  funext j; unfold set; by_cases h : j = i
  · rw [if_pos h, if_pos h]
  · rw [if_neg h, if_neg h, if_neg h]

/-- `Push` of a task that is not in the queue, with its deadline set. -/
theorem inv_push {s : State} {id : Nat} {x : Info} {p : Pc} (h : Inv s) (hq : (s.infos id).queued = false) (hx : x.queued = false)
    (hbo : x.born = true) (hpu : x.pushed = true) (hgo : x.gone = true → x.alive = false)
    (hbusy : ∀ k, p.holds k → s.pc.holds k ∧ k ≠ id)
    (hchain : ∃ st, Spec.after x.period (some x.first) (takesOf s id) = some st ∧ (x.erased = false → st = some x.time))
    (hother : ∀ k, k ≠ id → ∀ st, Ok (s.infos k) s.pc k s.now st → Ok (s.infos k) p k s.now st)
    (hb : ∀ d, p ≠ .blocked d false) (hc : s.ct ≠ none → p ≠ .top ∧ ∀ d w, p ≠ .blocked d w) (hd : p = .drain ∨ p = .finished → s.ct ≠ none) :
    Inv { push { s with infos := set s.infos id x } id with pc := p } := by
  have hq0 : QInv s.queue (set s.infos id x) s.seq := q_set x h.q (by rw [hx, hq]) (fun e => by rw [hq] at e; cases e)
  obtain ⟨st, h1, h2⟩ := hchain
  have hnh : ¬ p.holds id := fun e => (hbusy id e).2 rfl
  have hok : ∀ b, (b = true → x.erased = false) → Ok { x with queued := b } p id s.now st := fun b hbx =>
    ⟨fun d e => absurd (show p.holds id by rw [e]; rfl) hnh, fun d t e => absurd (show p.holds id by rcases e with e | e | e <;> rw [e] <;> rfl) hnh,
      fun e => by rcases e with e | e; exact h2 (hbx e); simp only [] at e; rw [hpu] at e; cases e⟩
  unfold push
  simp only [set_self]
  by_cases he : x.erased = true
  · rw [if_pos he]
    have hok0 := hok false (fun e => nomatch e)
    have e0 : { x with queued := false } = x := by cases x; simp only [] at hx; subst hx; rfl
    rw [e0] at hok0
    exact inv_upd h hq0 hbo (fun e => hx) hgo (fun k hk => (hbusy k hk).1) (fun e => absurd e hnh) ⟨st, h1, hok0⟩ hother (fun d e => absurd e (hb d)) hc hd
  · rw [if_neg he]
    have he : x.erased = false := by simpa using he
    have hq1 := q_push (id := id) hq0 (by rw [set_self]; exact hx)
    rw [set_self, set_set] at hq1
    simp only [set_set]
    exact inv_upd h hq1 hbo (fun e => by simp only [] at e; rw [hpu] at e; cases e) hgo (fun k hk => (hbusy k hk).1) (fun e => absurd e hnh) ⟨st, h1, hok true (fun _ => he)⟩ hother
      (fun d e => absurd e (hb d)) hc hd

theorem wake_top (s : State) (h : Inv s) (hf : s.pc.wake = .top ∨ True) : s.ct ≠ none → s.pc.wake ≠ .top ∧ ∀ d w, s.pc.wake ≠ .blocked d w := by
  intro hc
  obtain ⟨h1, h2⟩ := h.ct hc
  cases hp : s.pc with
  | blocked d w => exact absurd hp (h2 d w)
  | _ => rw [hp] at h1 h2; exact ⟨h1, h2⟩

theorem ok_other {s : State} {k : Nat} {st : Option Int} (h : Ok (s.infos k) s.pc k s.now st) : Ok (s.infos k) s.pc.wake k s.now st := ok_wake h

theorem step_inv {s s' : State} {a : Act} (h : Inv s) (hs : step s a = some s') : Inv s' := by
  cases a with
  | tick n => injection hs with hs; subst hs; exact inv_tick h n
  | cancel =>
    injection hs with hs; subst hs
    refine { h with busy := fun id hi => ?_, chain := fun id hb => ?_, blocked := fun d e => absurd e (wake_blocked _ _), ct := wake_top s h (Or.inr trivial), cancelled := fun _ => rfl,
                    draining := fun e => ?_ }
    · exact h.busy id ((wake_holds _ _).1 hi)
    · obtain ⟨st, h1, h2⟩ := h.chain id hb
      exact ⟨st, h1, ok_wake h2⟩
    · refine h.draining ?_
      rcases e with e | e
      · exact Or.inl (wake_eq e (fun _ _ e => nomatch e))
      · exact Or.inr (wake_eq e (fun _ _ e => nomatch e))
  | spurious =>
    simp only [step] at hs
    cases hp : s.pc with
    | blocked d w =>
      rw [hp] at hs; injection hs with hs; subst hs
      refine inv_pc h _ (fun _ e => e) (fun _ e => by injection e with _ e; cases e) (fun hc => ?_) (fun e => by rcases e with e | e <;> cases e)
      exact absurd hp ((h.ct hc).2 d w)
    | _ => rw [hp] at hs; cases hs
  | prepare id t p b =>
    simp only [step, prepare] at hs
    by_cases hb : (s.infos id).born = true
    · rw [if_pos hb] at hs; cases hs
    · rw [if_neg hb] at hs; injection hs with hs; subst hs
      have hb : (s.infos id).born = false := by simpa using hb
      obtain ⟨u1, u2⟩ := h.unborn id hb
      have hnh : ¬ s.pc.holds id := fun e => by have := (h.busy id e).2; rw [u1] at this; cases this
      refine inv_upd (s := s) (p := s.pc) (q' := s.queue) (n' := s.seq) h ?_ rfl (fun _ => rfl) (fun e => nomatch e) (fun _ e => e) (fun e => absurd e hnh) ⟨_, by rw [u2]; rfl, ?_⟩
        (fun _ _ _ e => e) h.blocked h.ct h.draining
      · exact q_set _ h.q (by rw [u1]; rfl) (fun e => by rw [u1] at e; cases e)
      · exact ⟨fun d e => absurd (show s.pc.holds id by rw [e]; rfl) hnh, fun d t e => absurd (show s.pc.holds id by rcases e with e | e | e <;> rw [e] <;> rfl) hnh, fun _ => rfl⟩
  | enqueue id =>
    simp only [step, enqueue] at hs
    split at hs
    · rename_i hc
      injection hs with hs; subst hs
      obtain ⟨c1, c2, c3⟩ := hc
      have hqf := h.unpushed id c2
      have hnh : ¬ s.pc.holds id := fun e => by have := (h.busy id e).2; rw [c2] at this; cases this
      obtain ⟨st, h1, h2⟩ := h.chain id c1
      refine inv_push (s := s) h hqf hqf c1 rfl (h.gone id) (fun k hk => ⟨(wake_holds _ _).1 hk, fun e => hnh (by rw [← e]; exact (wake_holds _ _).1 hk)⟩)
        ⟨st, h1, fun _ => h2.queued (Or.inr c2)⟩ (fun k _ st e => ok_wake e) (fun d => wake_blocked _ d) (wake_top s h (Or.inr trivial)) (fun e => h.draining ?_)
      rcases e with e | e
      · exact Or.inl (wake_eq e (fun _ _ e => nomatch e))
      · exact Or.inr (wake_eq e (fun _ _ e => nomatch e))
    · cases hs
  | erase id =>
    simp only [step, erase] at hs
    split at hs
    · rename_i hc
      injection hs with hs; subst hs
      obtain ⟨c1, c2, c3⟩ := hc
      have hbo : (s.infos id).born = true := by
        cases hx : (s.infos id).born with
        | true => rfl
        | false => have := (h.unborn id hx).1; rw [this] at c1; cases c1
      obtain ⟨st, h1, h2⟩ := h.chain id hbo
      refine inv_upd (s := s) (p := s.pc) (n' := s.seq) h (q_erase h.q) hbo (fun _ => rfl) (h.gone id) (fun _ e => e) (fun _ => ⟨rfl, c1⟩) ⟨st, h1, h2.popped, h2.held, fun e => ?_⟩ (fun _ _ _ e => e)
        (fun d e => ?_) h.ct h.draining
      · simp only [] at e; rw [c1] at e; rcases e with e | e <;> cases e
      · obtain ⟨b1, b2, b3⟩ := h.blocked d e
        refine ⟨b1, fun e => ?_, fun t e x hx => ?_⟩
        · rw [b2 e]; simp
        · refine b3 t e x ?_
          by_cases hq : (s.infos id).queued = true
          · rw [if_pos hq] at hx; exact (List.mem_filter.1 hx).1
          · rw [if_neg hq] at hx; exact hx
    · cases hs
  | release id b =>
    simp only [step, release] at hs
    split at hs
    · rename_i hc
      injection hs with hs; subst hs
      have hbo : (s.infos id).born = true := by
        cases hx : (s.infos id).born with
        | true => rfl
        | false => have := (h.unborn id hx).1; rw [this] at hc; cases hc.1
      obtain ⟨st, h1, h2⟩ := h.chain id hbo
      exact inv_upd (s := s) (p := s.pc) (q' := s.queue) (n' := s.seq) h (q_set _ h.q rfl (fun _ => rfl)) hbo (h.unpushed id) (fun _ => rfl) (fun _ e => e) (h.busy id) ⟨st, h1, h2.popped, h2.held, h2.queued⟩
        (fun _ _ _ e => e) h.blocked h.ct h.draining
    · cases hs
  | worker =>
    simp only [step, worker] at hs
    cases hp : s.pc with
    | top =>
      rw [hp] at hs; simp only [] at hs
      have hct : s.ct = none := Decidable.byContradiction fun e => (h.ct e).1 hp
      by_cases hc : s.cancelled = true
      · rw [if_pos hc] at hs; injection hs with hs; subst hs
        refine { h with busy := fun id e => e.elim, chain := fun id hb => ?_, blocked := fun _ e => (nomatch e), ct := fun _ => ⟨fun e => (nomatch e), fun _ _ e => (nomatch e)⟩, cancelled := fun _ => hc,
                        draining := fun _ e => (nomatch e), ctNow := fun c hc => (by injection hc with hc; subst hc; exact Int.le_refl _) }
        obtain ⟨st, h1, h2⟩ := h.chain id hb
        exact ⟨st, h1, ok_pc h2 (fun e => e)⟩
      · rw [if_neg hc] at hs
        have hc : s.cancelled = false := by simpa using hc
        cases hq : s.queue with
        | nil =>
          rw [hq] at hs; injection hs with hs; subst hs
          have := inv_pc h (.blocked none false) (fun _ e => e) (fun d e => ?_) (fun e => absurd hct e) (fun e => by rcases e with e | e <;> cases e)
          · rw [hq] at this; exact this
          · injection e with e _; subst e; exact ⟨hc, fun _ => hq, fun _ e => (nomatch e)⟩
        | cons e q =>
          rw [hq] at hs; simp only [] at hs
          by_cases ht : e.time ≤ s.now
          · rw [if_pos ht] at hs; injection hs with hs; subst hs
            have := inv_pop h hq (fun k => by rw [hp]; exact fun e => e) ht
            exact this
          · rw [if_neg ht] at hs; injection hs with hs; subst hs
            have := inv_pc h (.blocked (some e.time) false) (fun _ e => e) (fun d ed => ?_) (fun e => absurd hct e) (fun e => by rcases e with e | e <;> cases e)
            · rw [hq] at this; exact this
            · injection ed with ed _; subst ed
              refine ⟨hc, fun e => (nomatch e), fun t e' x hx => ?_⟩
              injection e' with e'; subst e'
              rw [hq, List.mem_cons] at hx
              rcases hx with hx | hx
              · rw [hx]; exact Int.le_refl _
              · have := h.q.sorted; rw [hq, List.pairwise_cons] at this
                rcases this.1 x hx with h' | h' <;> omega
    | blocked d w =>
      have hct : s.ct = none := Decidable.byContradiction fun e => (h.ct e).2 d w hp
      have key : Inv { s with pc := .top } := inv_pc h .top (fun _ e => e) (fun _ e => (nomatch e)) (fun e => absurd hct e) (fun e => by rcases e with e | e <;> cases e)
      rw [hp] at hs
      cases w with
      | true => injection hs with hs; subst hs; exact key
      | false =>
        cases d with
        | none => cases hs
        | some d =>
          simp only [] at hs
          by_cases hd : d ≤ s.now
          · rw [if_pos hd] at hs; injection hs with hs; subst hs; exact key
          · rw [if_neg hd] at hs; cases hs
    | popped id d => rw [hp] at hs; injection hs with hs; subst hs; exact inv_taken h hp
    | guarding id d t =>
      rw [hp] at hs; simp only [] at hs
      by_cases ha : (s.infos id).alive = true
      · rw [if_pos ha] at hs; injection hs with hs; subst hs
        have hbo : (s.infos id).born = true := by
          cases hx : (s.infos id).born with
          | true => rfl
          | false => have := (h.unborn id hx).1; have h2 := (h.busy id (by rw [hp]; rfl)).2; rw [this] at h2; cases h2
        obtain ⟨st, h1, h2⟩ := h.chain id hbo
        have := h2.held d t (Or.inl hp)
        refine inv_hold h _ id d t (Or.inl hp) (Or.inr (Or.inl rfl)) _ (fun r hr => ?_)
        rw [List.mem_append, List.mem_singleton] at hr
        rcases hr with hr | hr
        · exact h.runs r hr
        · rw [hr]; show d ≤ s.now; omega
      · rw [if_neg ha] at hs; injection hs with hs; subst hs
        exact inv_hold h _ id d t (Or.inl hp) (Or.inr (Or.inr rfl)) s.runs h.runs
    | running id d t => rw [hp] at hs; injection hs with hs; subst hs; exact inv_hold h _ id d t (Or.inr (Or.inl hp)) (Or.inr (Or.inr rfl)) s.runs h.runs
    | after id d t =>
      rw [hp] at hs; simp only [] at hs
      have hrel : Inv { s with pc := .relock } :=
        inv_pc h .relock (fun _ e => e) (fun _ e => (nomatch e)) (fun _ => ⟨fun e => (nomatch e), fun _ _ e => (nomatch e)⟩) (fun e => by rcases e with e | e <;> cases e)
      by_cases hct : s.ct = none
      · rw [if_pos hct] at hs
        cases hpe : (s.infos id).period with
        | none => rw [hpe] at hs; injection hs with hs; subst hs; exact hrel
        | some p =>
          rw [hpe] at hs; injection hs with hs; subst hs
          obtain ⟨b1, b2⟩ := h.busy id (by rw [hp]; rfl)
          have hbo : (s.infos id).born = true := by
            cases hx : (s.infos id).born with
            | true => rfl
            | false => have := (h.unborn id hx).1; rw [this] at b2; cases b2
          obtain ⟨st, h1, h2⟩ := h.chain id hbo
          have hst := (h2.held d t (Or.inr (Or.inr hp))).1
          rw [hpe] at hst
          have key := inv_push (s := s) (x := { s.infos id with time := t + p }) (p := .relock) h b1 b1 hbo b2 (h.gone id) (fun _ e => e.elim) ⟨st, h1, fun _ => hst⟩ (fun k _ st e => ok_pc e (fun e => e)) (fun _ e => (nomatch e))
            (fun _ => ⟨fun e => (nomatch e), fun _ _ e => (nomatch e)⟩) (fun e => by rcases e with e | e <;> cases e)
          simp only [hpe, hp] at key; exact key
      · rw [if_neg hct] at hs; injection hs with hs; subst hs; exact hrel
    | relock =>
      rw [hp] at hs; simp only [] at hs
      by_cases hct : s.ct = none
      · rw [if_pos hct] at hs; injection hs with hs; subst hs
        exact inv_pc h .top (fun _ e => e) (fun _ e => (nomatch e)) (fun e => absurd hct e) (fun e => by rcases e with e | e <;> cases e)
      · rw [if_neg hct] at hs; injection hs with hs; subst hs
        exact inv_pc h .drain (fun _ e => e) (fun _ e => (nomatch e)) (fun _ => ⟨fun e => (nomatch e), fun _ _ e => (nomatch e)⟩) (fun _ => hct)
    | drain =>
      rw [hp] at hs; simp only [] at hs
      have hct := h.draining (Or.inl hp)
      have hfin : Inv { s with pc := .finished } :=
        inv_pc h .finished (fun _ e => e) (fun _ e => (nomatch e)) (fun _ => ⟨fun e => (nomatch e), fun _ _ e => (nomatch e)⟩) (fun _ => hct)
      cases hq : s.queue with
      | nil => rw [hq] at hs hfin; injection hs with hs; subst hs; exact hfin
      | cons e q =>
        cases hc : s.ct with
        | none => exact absurd hc hct
        | some c =>
          rw [hq, hc] at hs hfin; simp only [] at hs
          by_cases ht : c < e.time
          · rw [if_pos ht] at hs; injection hs with hs; subst hs; exact hfin
          · rw [if_neg ht] at hs; injection hs with hs; subst hs
            exact inv_pop h hq (fun k => by rw [hp]; exact fun e => e) (by have := h.ctNow c hc; omega)
    | finished => rw [hp] at hs; cases hs

theorem run_inv : ∀ {as : List Act} {s s' : State}, Inv s → run s as = some s' → Inv s'
  | [], s, s', hi, h => by injection h with h; exact h ▸ hi
  | a :: as, s, s', hi, h => by
    rw [run] at h
    cases hs : step s a with
    | none => rw [hs] at h; cases h
    | some t => rw [hs] at h; exact run_inv (step_inv hi hs) h

theorem run_append : ∀ {as bs : List Act} {s s1 s2 : State}, run s as = some s1 → run s1 bs = some s2 → run s (as ++ bs) = some s2
  | [], bs, s, s1, s2, h1, h2 => by injection h1 with h1; subst h1; exact h2
  | a :: as, bs, s, s1, s2, h1, h2 => by
    rw [run] at h1
    rw [List.cons_append, run]
    cases hs : step s a with
    | none => rw [hs] at h1; cases h1
    | some t => rw [hs] at h1; exact run_append h1 h2

/-- What every step does to the information of a task. -/
structure Info.Le (i j : Info) : Prop where
  born : i.born = true → j.born = true
  period : i.born = true → j.period = i.period
  first : i.born = true → j.first = i.first
  pushed : i.pushed = true → j.pushed = true
  alive : i.born = true → i.alive = false → j.alive = false
  erased : i.born = true → i.erased = true → j.erased = true

theorem Info.Le.refl (i : Info) : i.Le i := ⟨id, fun _ => rfl, fun _ => rfl, id, fun _ => id, fun _ => id⟩

theorem le_set {f : Nat → Info} {id : Nat} {x : Info} (h : (f id).Le x) (k : Nat) : (f k).Le (set f id x k) := by
  by_cases e : k = id
  · rw [e, set_self]; exact h
  · rw [set_ne _ _ e]; exact Info.Le.refl _

theorem le_push {s : State} {id : Nat} {x : Info} (h : (s.infos id).Le x) (k : Nat) : (s.infos k).Le ((push { s with infos := set s.infos id x } id).infos k) := by
  unfold push
  simp only [set_self]
  split
  · exact le_set h k
  · simp only [set_set]
    refine le_set ?_ k; exact ⟨h.born, h.period, h.first, h.pushed, h.alive, h.erased⟩

theorem step_le {s s' : State} {a : Act} (hi : Inv s) (hs : step s a = some s') (k : Nat) : (s.infos k).Le (s'.infos k) := by
  cases a with
  | tick n => injection hs with hs; subst hs; exact Info.Le.refl _
  | cancel => injection hs with hs; subst hs; exact Info.Le.refl _
  | spurious =>
    simp only [step] at hs
    split at hs
    · injection hs with hs; subst hs; exact Info.Le.refl _
    · cases hs
  | prepare id t p b =>
    simp only [step, prepare] at hs
    split at hs
    · cases hs
    · rename_i hb
      injection hs with hs; subst hs
      have hb' : (s.infos id).born = false := by simpa using hb
      refine le_set ?_ k; exact ⟨fun _ => rfl, fun e => absurd e hb, fun e => absurd e hb, fun e => (by rw [(hi.unborn id hb').1] at e; cases e), fun e => absurd e hb, fun e => absurd e hb⟩
  | enqueue id =>
    simp only [step, enqueue] at hs
    split at hs
    · injection hs with hs; subst hs
      refine le_push ?_ k; exact ⟨fun e => e, fun _ => rfl, fun _ => rfl, fun _ => rfl, fun _ e => e, fun _ e => e⟩
    · cases hs
  | erase id =>
    simp only [step, erase] at hs
    split at hs
    · injection hs with hs; subst hs
      refine le_set ?_ k; exact ⟨fun e => e, fun _ => rfl, fun _ => rfl, fun e => e, fun _ e => e, fun _ _ => rfl⟩
    · cases hs
  | release id b =>
    simp only [step, release] at hs
    split at hs
    · injection hs with hs; subst hs
      refine le_set ?_ k; exact ⟨fun e => e, fun _ => rfl, fun _ => rfl, fun e => e, fun _ _ => rfl, fun _ e => e⟩
    · cases hs
  | worker =>
    simp only [step, worker, pop] at hs
    repeat' split at hs
    all_goals first
      | (cases hs; done)
      | (injection hs with hs; subst hs; exact Info.Le.refl _)
      | (injection hs with hs; subst hs; refine le_set ?_ k; exact ⟨fun e => e, fun _ => rfl, fun _ => rfl, fun e => e, fun _ e => e, fun _ e => e⟩)
      | (injection hs with hs; subst hs; refine le_push ?_ k; exact ⟨fun e => e, fun _ => rfl, fun _ => rfl, fun e => e, fun _ e => e, fun _ e => e⟩)

theorem run_le : ∀ {as : List Act} {s s' : State}, Inv s → run s as = some s' → ∀ k, (s.infos k).Le (s'.infos k)
  | [], s, s', _, h, k => by injection h with h; rw [h]; exact Info.Le.refl _
  | a :: as, s, s', hi, h, k => by
    rw [run] at h
    cases hs : step s a with
    | none => rw [hs] at h; cases h
    | some t =>
      rw [hs] at h
      have h1 := step_le hi hs k
      have h2 := run_le (step_inv hi hs) h k
      exact ⟨fun e => h2.born (h1.born e), fun e => (h2.period (h1.born e)).trans (h1.period e), fun e => (h2.first (h1.born e)).trans (h1.first e), fun e => h2.pushed (h1.pushed e),
        fun e e' => h2.alive (h1.born e) (h1.alive e e'), fun e e' => h2.erased (h1.born e) (h1.erased e e')⟩

/-! ### C43: deadlines -/

/-- C43: no task starts before its deadline. -/
theorem never_early {as : List Act} {s : State} (h : run init as = some s) : ∀ r ∈ s.runs, r.due ≤ r.start := (run_inv init_inv h).runs

/-- C43, what the deadlines are: a task added with `timeout` when the clock showed `s.now` is taken, for the first time, with the deadline `s.now + timeout`, and not before it; after it was
taken at the time `taken`, a periodic one is taken next with the deadline `taken + period`, and not before; any other one never again. -/
theorem deadlines {as bs : List Act} {s s1 s2 : State} {id : Nat} {timeout : Int} {period : Option Int} {token : Bool} (h : run init as = some s)
    (hp : step s (.prepare id timeout period token) = some s1) (h2 : run s1 bs = some s2) : ∃ st, Spec.after period (some (s.now + timeout)) (takesOf s2 id) = some st := by
  have hi := run_inv init_inv h
  have hi1 := step_inv hi hp
  have hle := run_le hi1 h2 id
  simp only [step, prepare] at hp
  split at hp
  · cases hp
  · injection hp with hp
    have e : s1.infos id = ⟨true, false, s.now + timeout, s.now + timeout, period, token, true, false, false, false⟩ := by rw [← hp]; exact set_self _ _ _
    have hb : (s1.infos id).born = true := by rw [e]
    obtain ⟨st, h1, _⟩ := (run_inv hi1 h2).chain id (hle.born hb)
    rw [hle.period hb, hle.first hb, e] at h1
    exact ⟨st, h1⟩

theorem once : ∀ (xs : List Take) (st st' : Option Int), Spec.after none st xs = some st' → xs.length ≤ 1
  | [], _, _, _ => Nat.zero_le _
  | [_], _, _, _ => Nat.le_refl _
  | x :: y :: xs, st, st', h => by
    simp only [Spec.after, Option.map] at h
    split at h
    · split at h
      · rename_i e; cases e.1
      · cases h
    · cases h

/-- The starts of a task. -/
def Spec.runsOf (s : State) (id : Nat) : List Run := s.runs.filter fun x => x.id = id

/-- Every start comes from a take with the same deadline, in the same order. -/
structure Log (s : State) : Prop where
  sub : (s.runs.map fun r => (r.id, r.due)).Sublist (s.takes.map fun x => (x.id, x.due))
  next : ∀ id d t, s.pc = .guarding id d t → ∃ ts, s.takes = ts ++ [⟨id, d, t⟩] ∧ (s.runs.map fun r => (r.id, r.due)).Sublist (ts.map fun x => (x.id, x.due))

theorem log_same {s s' : State} (h : Log s) (h1 : s'.runs = s.runs) (h2 : s'.takes = s.takes) (h3 : ∀ id d t, s'.pc = .guarding id d t → s.pc = .guarding id d t) : Log s' :=
  ⟨by rw [h1, h2]; exact h.sub, fun id d t e => by rw [h1, h2]; exact h.next id d t (h3 id d t e)⟩

theorem push_logs (s : State) (id : Nat) : (push s id).runs = s.runs ∧ (push s id).takes = s.takes ∧ (push s id).pc = s.pc ∧ (push s id).now = s.now := by
  unfold push; split <;> exact ⟨rfl, rfl, rfl, rfl⟩

theorem step_log {s s' : State} {a : Act} (h : Log s) (hs : step s a = some s') : Log s' := by
  have hw : ∀ id d t, s.pc.wake = .guarding id d t → s.pc = .guarding id d t := fun id d t e => wake_eq e (fun _ _ e => nomatch e)
  cases a with
  | tick n => injection hs with hs; subst hs; exact log_same h rfl rfl (fun _ _ _ e => e)
  | cancel => injection hs with hs; subst hs; exact log_same h rfl rfl hw
  | spurious =>
    simp only [step] at hs
    split at hs
    · injection hs with hs; subst hs; exact log_same h rfl rfl (fun _ _ _ e => nomatch e)
    · cases hs
  | prepare id t p b =>
    simp only [step, prepare] at hs
    split at hs
    · cases hs
    · injection hs with hs; subst hs; exact log_same h rfl rfl (fun _ _ _ e => e)
  | enqueue id =>
    simp only [step, enqueue] at hs
    split at hs
    · injection hs with hs; subst hs; exact log_same h (push_logs _ _).1 (push_logs _ _).2.1 hw
    · cases hs
  | erase id =>
    simp only [step, erase] at hs
    split at hs
    · injection hs with hs; subst hs; exact log_same h rfl rfl (fun _ _ _ e => e)
    · cases hs
  | release id b =>
    simp only [step, release] at hs
    split at hs
    · injection hs with hs; subst hs; exact log_same h rfl rfl (fun _ _ _ e => e)
    · cases hs
  | worker =>
    simp only [step, worker] at hs
    cases hp : s.pc with
    | popped id d =>
      rw [hp] at hs; injection hs with hs; subst hs
      refine ⟨?_, fun id' d' t' e => ?_⟩
      · simp only [List.map_append]; exact h.sub.trans (List.sublist_append_left _ _)
      · injection e with e1 e2 e3; subst e1 e2 e3
        exact ⟨s.takes, rfl, h.sub⟩
    | guarding id d t =>
      rw [hp] at hs; simp only [] at hs
      obtain ⟨ts, h1, h2⟩ := h.next id d t hp
      split at hs
      · injection hs with hs; subst hs
        refine ⟨?_, fun _ _ _ e => nomatch e⟩
        simp only [h1, List.map_append]
        exact h2.append (List.Sublist.refl _)
      · injection hs with hs; subst hs; exact log_same h rfl rfl (fun _ _ _ e => nomatch e)
    | after id d t =>
      rw [hp] at hs; simp only [] at hs
      repeat' split at hs
      all_goals injection hs with hs; subst hs
      · exact log_same h (push_logs _ _).1 (push_logs _ _).2.1 (fun _ _ _ e => nomatch e)
      all_goals exact log_same h rfl rfl (fun _ _ _ e => nomatch e)
    | _ =>
      simp only [hp, pop] at hs
      repeat' split at hs
      all_goals first | contradiction | (cases hs; done) | (injection hs with hs; subst hs; exact log_same h rfl rfl (fun _ _ _ e => nomatch e))

theorem run_log : ∀ {as : List Act} {s s' : State}, Log s → run s as = some s' → Log s'
  | [], s, s', hi, h => by injection h with h; exact h ▸ hi
  | a :: as, s, s', hi, h => by
    rw [run] at h
    cases hs : step s a with
    | none => rw [hs] at h; cases h
    | some t => rw [hs] at h; exact run_log (step_log hi hs) h

theorem init_log : Log init := ⟨List.Sublist.refl _, fun _ _ _ e => nomatch e⟩

/-- C43: a task starts only as often as it is taken, with the deadlines of `deadlines`. -/
theorem starts_are_takes {as : List Act} {s : State} (h : run init as = some s) (id : Nat) :
    ((Spec.runsOf s id).map fun r => r.due).Sublist ((takesOf s id).map fun x => x.due) := by
  have := (run_log init_log h).sub
  have h2 := (this.filter fun x => x.1 = id).map Prod.snd
  rw [List.filter_map, List.filter_map, List.map_map, List.map_map] at h2
  exact h2

/-- C43: a task that is not periodic starts at most once. -/
theorem one_shot {as bs : List Act} {s s1 s2 : State} {id : Nat} {timeout : Int} {token : Bool} (h : run init as = some s)
    (hp : step s (.prepare id timeout none token) = some s1) (h2 : run s1 bs = some s2) : (Spec.runsOf s2 id).length ≤ 1 := by
  obtain ⟨st, e⟩ := deadlines h hp h2
  have h1 : run s [.prepare id timeout none token] = some s1 := by simp only [run, hp]
  have := (starts_are_takes (run_append (run_append h h1) h2) id).length_le
  rw [List.length_map, List.length_map] at this
  exact Nat.le_trans this (once _ _ _ e)

/-! ### C43: order -/

/-- C43, the order: the task the worker takes is the one with the earliest deadline, of several with the same deadline the one put into the queue first; and this deadline has passed. -/
theorem deadline_order {as : List Act} {s s' : State} {id : Nat} {due : Int} (h : run init as = some s) (hs : step s .worker = some s') (hp : s'.pc = .popped id due) :
    ∃ e ∈ s.queue, e.id = id ∧ e.time = due ∧ due ≤ s.now ∧ (∀ x ∈ s.queue, x = e ∨ Before e x) ∧ ∀ x, x ∈ s'.queue ↔ x ∈ s.queue ∧ x ≠ e := by
  have hi := run_inv init_inv h
  have key : ∀ e q, s.queue = e :: q → e.time ≤ s.now → pop s e q = s' → ∃ e ∈ s.queue, e.id = id ∧ e.time = due ∧ due ≤ s.now ∧ (∀ x ∈ s.queue, x = e ∨ Before e x) ∧
      ∀ x, x ∈ s'.queue ↔ x ∈ s.queue ∧ x ≠ e := by
    intro e q hq ht hs
    have hso := hi.q.sorted
    have hno := hi.q.nodup
    rw [hq, List.pairwise_cons] at hso
    rw [hq, List.map_cons, List.nodup_cons] at hno
    rw [← hs] at hp ⊢
    injection hp with e1 e2
    refine ⟨e, by rw [hq]; exact List.mem_cons_self, e1, e2, by rw [← e2]; exact ht, fun x hx => ?_, fun x => ?_⟩
    · rw [hq, List.mem_cons] at hx
      rcases hx with hx | hx
      · exact Or.inl hx
      · exact Or.inr (hso.1 x hx)
    · show x ∈ q ↔ _
      rw [hq, List.mem_cons]
      constructor
      · intro hx
        exact ⟨Or.inr hx, fun e' => hno.1 (by rw [← e']; exact List.mem_map_of_mem hx)⟩
      · rintro ⟨hx | hx, hn⟩
        · exact absurd hx hn
        · exact hx
  simp only [step, worker] at hs
  cases hpc : s.pc with
  | top =>
    rw [hpc] at hs; simp only [] at hs
    split at hs
    · injection hs with hs; rw [← hs] at hp; cases hp
    · split at hs
      · injection hs with hs; rw [← hs] at hp; cases hp
      · rename_i e q hq
        split at hs
        · injection hs with hs; exact key e q hq (by assumption) hs
        · injection hs with hs; rw [← hs] at hp; cases hp
  | drain =>
    rw [hpc] at hs; simp only [] at hs
    split at hs
    · rename_i e q c hq hc
      split at hs
      · injection hs with hs; rw [← hs] at hp; cases hp
      · injection hs with hs; exact key e q hq (by have := hi.ctNow c hc; omega) hs
    · injection hs with hs; rw [← hs] at hp; cases hp
  | _ =>
    simp only [hpc] at hs
    repeat' split at hs
    all_goals first | contradiction | (cases hs; done) | (injection hs with hs; rw [← hs] at hp; cases hp)

/-! ### C43: release -/

/-- C43: once a token is released its task never starts again; released by another thread, it is not running either. -/
theorem release_stops {as bs : List Act} {s s1 s2 : State} {id : Nat} {inside : Bool} (h : run init as = some s) (hr : step s (.release id inside) = some s1) (h2 : run s1 bs = some s2) :
    Spec.runsOf s2 id = Spec.runsOf s id ∧ (inside = false → s2.pc.isRunning id = false) := by
  have hi := run_inv init_inv h
  have hi1 := step_inv hi hr
  have h0 : (s1.infos id).alive = false ∧ (s1.infos id).born = true ∧ s1.runs = s.runs ∧ (inside = false → s1.pc.isRunning id = false) := by
    have hle := step_le hi hr id
    simp only [step, release] at hr
    split at hr
    · rename_i hc
      have hbo : (s.infos id).born = true := by
        cases hx : (s.infos id).born with
        | true => rfl
        | false => have := (hi.unborn id hx).1; rw [this] at hc; cases hc.1
      have hb := hle.born hbo
      injection hr with hr; subst hr
      exact ⟨by simp only [set_self], hb, rfl, fun e => by rw [← e]; exact hc.2⟩
    · cases hr
  have key : ∀ (bs : List Act) (s1 s2 : State), Inv s1 → (s1.infos id).alive = false → (s1.infos id).born = true → run s1 bs = some s2 →
      Spec.runsOf s2 id = Spec.runsOf s1 id ∧ (s1.pc.isRunning id = false → s2.pc.isRunning id = false) := by
    intro bs
    induction bs with
    | nil => intro s1 s2 _ _ _ h; injection h with h; rw [h]; exact ⟨rfl, fun e => e⟩
    | cons a as ih =>
      intro s1 s2 hi ha hb h
      rw [run] at h
      cases hs : step s1 a with
      | none => rw [hs] at h; cases h
      | some t =>
        rw [hs] at h
        have hle := step_le hi hs id
        obtain ⟨r1, r2⟩ := ih t s2 (step_inv hi hs) (hle.alive hb ha) (hle.born hb) h
        have h1 : Spec.runsOf t id = Spec.runsOf s1 id ∧ (s1.pc.isRunning id = false → t.pc.isRunning id = false) := by
          have hw : s1.pc.isRunning id = false → s1.pc.wake.isRunning id = false := by cases s1.pc <;> exact fun e => e
          cases a with
          | tick n => injection hs with hs; subst hs; exact ⟨rfl, fun e => e⟩
          | cancel => injection hs with hs; subst hs; exact ⟨rfl, hw⟩
          | spurious =>
            simp only [step] at hs
            split at hs
            · injection hs with hs; subst hs; exact ⟨rfl, fun _ => rfl⟩
            · cases hs
          | prepare k t p b =>
            simp only [step, prepare] at hs
            split at hs
            · cases hs
            · injection hs with hs; subst hs; exact ⟨rfl, fun e => e⟩
          | enqueue k =>
            simp only [step, enqueue] at hs
            split at hs
            · injection hs with hs; subst hs
              refine ⟨?_, hw⟩
              unfold Spec.runsOf; simp only []; rw [(push_logs _ _).1]
            · cases hs
          | erase k =>
            simp only [step, erase] at hs
            split at hs
            · injection hs with hs; subst hs; exact ⟨rfl, fun e => e⟩
            · cases hs
          | release k b =>
            simp only [step, release] at hs
            split at hs
            · injection hs with hs; subst hs; exact ⟨rfl, fun e => e⟩
            · cases hs
          | worker =>
            simp only [step, worker] at hs
            cases hp : s1.pc with
            | guarding k d t =>
              rw [hp] at hs; simp only [] at hs
              split at hs
              · rename_i hal
                have hk : k ≠ id := fun e => by rw [e, ha] at hal; cases hal
                injection hs with hs; subst hs
                refine ⟨?_, fun _ => by simp [Pc.isRunning, hk]⟩
                unfold Spec.runsOf
                simp [List.filter_append, hk]
              · injection hs with hs; subst hs; exact ⟨rfl, fun _ => rfl⟩
            | after k d t =>
              rw [hp] at hs; simp only [] at hs
              repeat' split at hs
              all_goals injection hs with hs; subst hs
              · refine ⟨?_, fun _ => rfl⟩
                unfold Spec.runsOf; simp only []; rw [(push_logs _ _).1]
              all_goals exact ⟨rfl, fun _ => rfl⟩
            | _ =>
              simp only [hp, pop] at hs
              repeat' split at hs
              all_goals first | contradiction | (cases hs; done) | (injection hs with hs; subst hs; exact ⟨rfl, fun _ => rfl⟩)
        exact ⟨r1.trans h1.1, fun e => r2 (h1.2 e)⟩
  obtain ⟨a1, a2, a3, a4⟩ := h0
  obtain ⟨k1, k2⟩ := key bs s1 s2 hi1 a1 a2 h2
  exact ⟨by rw [k1]; unfold Spec.runsOf; rw [a3], fun e => k2 (a4 e)⟩

/-- The release is possible when the task is not running, or from inside of it, as soon as the mutex is free. -/
theorem release_possible {s : State} {id : Nat} (hp : (s.infos id).pushed = true) (ht : (s.infos id).hasToken = true) (hf : free s = true) :
    ∃ s1 s2, step s (.erase id) = some s1 ∧ step s1 (.release id (s.pc.isRunning id)) = some s2 ∧ (s2.infos id).alive = false ∧ ∀ e ∈ s2.queue, Inv s → e.id ≠ id := by
  have h1 : step s (.erase id) = some { s with queue := if (s.infos id).queued then s.queue.filter (fun e => e.id ≠ id) else s.queue,
                                               infos := set s.infos id { s.infos id with erased := true, queued := false } } := by
    simp only [step, erase, if_pos (And.intro hp (And.intro ht hf))]
  refine ⟨_, { s with queue := if (s.infos id).queued then s.queue.filter (fun e => e.id ≠ id) else s.queue,
                      infos := set s.infos id { s.infos id with erased := true, queued := false, alive := false, gone := true } }, h1, ?_, ?_, fun e he hi => ?_⟩
  · simp only [step, release, set_self, set_set, and_self, if_pos]
  · simp only [set_self]
  simp only [] at he
  by_cases hq : (s.infos id).queued = true
  · rw [if_pos hq] at he
    simpa using (List.mem_filter.1 he).2
  · rw [if_neg hq] at he
    intro e'
    exact hq (by rw [← e']; exact (hi.q.mem e he).1)

/-! ### C43: nothing is forgotten -/

/-- How many steps of the worker until it looks at the queue. -/
def todo (s : State) : Nat := match s.pc with
  | .popped _ _ => 5
  | .guarding _ _ _ => 4
  | .running _ _ _ => 3
  | .after _ _ _ => 2
  | .relock | .blocked _ _ => 1
  | .top | .drain | .finished => 0

/-- C43, no missed deadline: as long as there is a task in the queue whose deadline has passed, or the timer is being destroyed, the worker can go on; each of its steps brings it nearer to
the queue, nothing else takes it away from there, and when it is there it takes a task (or begins to drain the queue). -/
theorem no_missed_deadline {as : List Act} {s : State} (h : run init as = some s) (hf : s.pc ≠ .finished) (hd : (∃ e ∈ s.queue, e.time ≤ s.now) ∨ s.cancelled = true) :
    (∃ s', step s .worker = some s' ∧
      (0 < todo s → todo s' < todo s) ∧
      (s.pc = .top → if s.cancelled = true then s'.pc = .drain else ∃ e ∈ s.queue, s'.pc = .popped e.id e.time)) ∧
    (∀ a s', a ≠ .worker → step s a = some s' → todo s' ≤ todo s) := by
  have hi := run_inv init_inv h
  refine ⟨?_, fun a s' ha hs => ?_⟩
  · simp only [step, worker]
    cases hp : s.pc with
    | top =>
      simp only []
      by_cases hc : s.cancelled = true
      · rw [if_pos hc]
        exact ⟨_, rfl, fun e => (by unfold todo at e; rw [hp] at e; cases e), fun _ => by rw [if_pos hc]⟩
      · rw [if_neg hc]
        rcases hd with ⟨e, he, ht⟩ | hd
        · cases hq : s.queue with
          | nil => rw [hq] at he; cases he
          | cons x q =>
            have hx : x.time ≤ s.now := by
              rw [hq, List.mem_cons] at he
              rcases he with he | he
              · rw [← he]; exact ht
              · have := hi.q.sorted; rw [hq, List.pairwise_cons] at this
                rcases this.1 e he with h' | h' <;> omega
            simp only []
            rw [if_pos hx]
            exact ⟨_, rfl, fun e => (by unfold todo at e; rw [hp] at e; cases e), fun _ => by rw [if_neg hc]; exact ⟨x, List.mem_cons_self, rfl⟩⟩
        · exact absurd hd hc
    | blocked d w =>
      have key : ∀ s' : State, s' = { s with pc := .top } → (0 < todo s → todo s' < todo s) ∧ (Pc.blocked d w = .top → if s.cancelled = true then s'.pc = .drain else ∃ e ∈ s.queue, s'.pc = .popped e.id e.time) :=
        fun s' e => by subst e; exact ⟨fun _ => (by unfold todo; rw [hp]; exact Nat.zero_lt_one), fun e => nomatch e⟩
      cases w with
      | true => exact ⟨_, rfl, key _ rfl⟩
      | false =>
        obtain ⟨b1, b2, b3⟩ := hi.blocked d hp
        rcases hd with ⟨e, he, ht⟩ | hd
        · cases d with
          | none => rw [b2 rfl] at he; cases he
          | some d =>
            have := b3 d rfl e he
            simp only []
            rw [if_pos (show d ≤ s.now by omega)]
            exact ⟨_, rfl, key _ rfl⟩
        · rw [b1] at hd; cases hd
    | popped id d => exact ⟨_, rfl, fun _ => (by unfold todo; rw [hp]; exact Nat.lt_succ_self _), fun e => nomatch e⟩
    | guarding id d t =>
      simp only []
      by_cases hal : (s.infos id).alive = true
      · rw [if_pos hal]; exact ⟨_, rfl, fun _ => (by unfold todo; rw [hp]; exact Nat.lt_succ_self _), fun e => nomatch e⟩
      · rw [if_neg hal]; exact ⟨_, rfl, fun _ => (by unfold todo; rw [hp]; exact Nat.lt_succ_of_lt (Nat.lt_succ_self _)), fun e => nomatch e⟩
    | running id d t => exact ⟨_, rfl, fun _ => (by unfold todo; rw [hp]; exact Nat.lt_succ_self _), fun e => nomatch e⟩
    | after id d t =>
      simp only []
      by_cases hc : s.ct = none
      · rw [if_pos hc]
        cases (s.infos id).period with
        | none => exact ⟨_, rfl, fun _ => (by unfold todo; rw [hp]; exact Nat.lt_succ_self _), fun e => nomatch e⟩
        | some p => exact ⟨_, rfl, fun _ => (by unfold todo; rw [hp]; exact Nat.lt_succ_self _), fun e => nomatch e⟩
      · rw [if_neg hc]; exact ⟨_, rfl, fun _ => (by unfold todo; rw [hp]; exact Nat.lt_succ_self _), fun e => nomatch e⟩
    | relock =>
      simp only []
      by_cases hc : s.ct = none
      · rw [if_pos hc]; exact ⟨_, rfl, fun _ => (by unfold todo; rw [hp]; exact Nat.lt_succ_self _), fun e => nomatch e⟩
      · rw [if_neg hc]; exact ⟨_, rfl, fun _ => (by unfold todo; rw [hp]; exact Nat.lt_succ_self _), fun e => nomatch e⟩
    | drain =>
      simp only []
      split
      · split
        · exact ⟨_, rfl, fun e => (by unfold todo at e; rw [hp] at e; cases e), fun e => nomatch e⟩
        · exact ⟨_, rfl, fun e => (by unfold todo at e; rw [hp] at e; cases e), fun e => nomatch e⟩
      · exact ⟨_, rfl, fun e => (by unfold todo at e; rw [hp] at e; cases e), fun e => nomatch e⟩
    | finished => exact absurd hp hf
  · have hw : ∀ p : Pc, p = s.pc ∨ p = s.pc.wake ∨ (∃ d w, s.pc = .blocked d w) ∧ (∃ d w, p = .blocked d w) → ∀ s', s'.pc = p → todo s' ≤ todo s := by
      intro p hp s' e
      unfold todo; rw [e]
      rcases hp with hp | hp | ⟨⟨d, w, h1⟩, ⟨d', w', h2⟩⟩
      · rw [hp]; exact Nat.le_refl _
      · rw [hp]; cases s.pc <;> exact Nat.le_refl _
      · rw [h1, h2]; exact Nat.le_refl _
    cases a with
    | worker => exact absurd rfl ha
    | tick n => injection hs with hs; subst hs; exact hw _ (Or.inl rfl) _ rfl
    | cancel => injection hs with hs; subst hs; exact hw _ (Or.inr (Or.inl rfl)) _ rfl
    | spurious =>
      simp only [step] at hs
      split at hs
      · rename_i d w hp
        injection hs with hs; subst hs; exact hw _ (Or.inr (Or.inr ⟨⟨d, w, hp⟩, ⟨_, _, rfl⟩⟩)) _ rfl
      · cases hs
    | prepare id t p b =>
      simp only [step, prepare] at hs
      split at hs
      · cases hs
      · injection hs with hs; subst hs; exact hw _ (Or.inl rfl) _ rfl
    | enqueue id =>
      simp only [step, enqueue] at hs
      split at hs
      · injection hs with hs; subst hs; exact hw _ (Or.inr (Or.inl rfl)) _ rfl
      · cases hs
    | erase id =>
      simp only [step, erase] at hs
      split at hs
      · injection hs with hs; subst hs; exact hw _ (Or.inl rfl) _ rfl
      · cases hs
    | release id b =>
      simp only [step, release] at hs
      split at hs
      · injection hs with hs; subst hs; exact hw _ (Or.inl rfl) _ rfl
      · cases hs

/-- C43, destruction: when the worker finishes, the tasks left in the queue are those whose deadline is after the moment at which it noticed its cancellation. -/
theorem drained {as : List Act} {s s' : State} (h : run init as = some s) (hs : step s .worker = some s') (hf : s'.pc = .finished) :
    ∃ c, s'.ct = some c ∧ c ≤ s'.now ∧ ∀ e ∈ s'.queue, c < e.time := by
  have hi := run_inv init_inv h
  have hi' := step_inv hi hs
  simp only [step, worker] at hs
  cases hpc : s.pc with
  | drain =>
    rw [hpc] at hs; simp only [] at hs
    have hct := hi.draining (Or.inl hpc)
    split at hs
    · rename_i e q c hq hc
      split at hs
      · rename_i ht
        injection hs with hs
        have e1 : s'.ct = some c := by rw [← hs]; exact hc
        have e2 : s'.queue = e :: q := by rw [← hs]; exact hq
        refine ⟨c, e1, hi'.ctNow c e1, fun x hx => ?_⟩
        rw [e2, List.mem_cons] at hx
        rcases hx with hx | hx
        · rw [hx]; exact ht
        · have := hi.q.sorted; rw [hq, List.pairwise_cons] at this
          rcases this.1 x hx with h' | h' <;> omega
      · injection hs with hs; rw [← hs] at hf; cases hf
    · rename_i hn
      injection hs with hs
      cases hc : s.ct with
      | none => exact absurd hc hct
      | some c =>
        have e1 : s'.ct = some c := by rw [← hs]; exact hc
        refine ⟨c, e1, hi'.ctNow c e1, fun x hx => ?_⟩
        have e2 : s'.queue = s.queue := by rw [← hs]
        rw [e2] at hx
        cases hq : s.queue with
        | nil => rw [hq] at hx; cases hx
        | cons e q => exact absurd hc (hn e q c hq)
  | _ =>
    simp only [hpc, pop] at hs
    repeat' split at hs
    all_goals first | contradiction | (cases hs; done) | (injection hs with hs; rw [← hs] at hf; cases hf)

/-- A task that was added and not removed is in the queue, in the hands of the worker, or was taken for the last time (because it is not periodic or the timer is being destroyed). -/
def Kept (s : State) (id : Nat) : Prop :=
  (s.infos id).pushed = true → (s.infos id).erased = false → (s.infos id).queued = true ∨ s.pc.holds id ∨ (takesOf s id ≠ [] ∧ ((s.infos id).period = none ∨ s.ct ≠ none))

def Pc.took (id : Nat) : Pc → Prop
  | .guarding k _ _ | .running k _ _ | .after k _ _ => k = id
  | _ => False

def Taken (s : State) : Prop := ∀ id, s.pc.took id → takesOf s id ≠ []

theorem step_taken {s s' : State} {a : Act} (h : Taken s) (hs : step s a = some s') : Taken s' := by
  have key : ∀ s' : State, (∀ id, s'.pc.took id → s.pc.took id) → s'.takes = s.takes → Taken s' := by
    intro s' h1 h2 id hp
    unfold takesOf; rw [h2]; exact h id (h1 id hp)
  have hw : ∀ id, s.pc.wake.took id → s.pc.took id := by intro id; cases s.pc <;> exact fun e => e
  cases a with
  | tick n => injection hs with hs; subst hs; exact key _ (fun _ e => e) rfl
  | cancel => injection hs with hs; subst hs; exact key _ hw rfl
  | spurious =>
    simp only [step] at hs
    split at hs
    · injection hs with hs; subst hs; exact key _ (fun _ e => e.elim) rfl
    · cases hs
  | prepare i t p b =>
    simp only [step, prepare] at hs
    split at hs
    · cases hs
    · injection hs with hs; subst hs; exact key _ (fun _ e => e) rfl
  | enqueue i =>
    simp only [step, enqueue] at hs
    split at hs
    · injection hs with hs; subst hs; exact key _ hw (push_logs _ _).2.1
    · cases hs
  | erase i =>
    simp only [step, erase] at hs
    split at hs
    · injection hs with hs; subst hs; exact key _ (fun _ e => e) rfl
    · cases hs
  | release i b =>
    simp only [step, release] at hs
    split at hs
    · injection hs with hs; subst hs; exact key _ (fun _ e => e) rfl
    · cases hs
  | worker =>
    simp only [step, worker] at hs
    cases hp : s.pc with
    | popped i d =>
      rw [hp] at hs; injection hs with hs; subst hs
      intro id e
      have e : i = id := e
      show takesOf { s with takes := s.takes ++ [⟨i, d, s.now⟩] } id ≠ []
      rw [takesOf_append, if_pos e]; simp
    | guarding i d t =>
      rw [hp] at hs; simp only [] at hs
      split at hs <;> (injection hs with hs; subst hs; exact key _ (fun _ e => by rw [hp]; exact e) rfl)
    | running i d t => rw [hp] at hs; injection hs with hs; subst hs; exact key _ (fun _ e => by rw [hp]; exact e) rfl
    | after i d t =>
      rw [hp] at hs; simp only [] at hs
      repeat' split at hs
      all_goals injection hs with hs; subst hs
      · exact key _ (fun _ e => e.elim) (push_logs _ _).2.1
      all_goals exact key _ (fun _ e => e.elim) rfl
    | _ =>
      simp only [hp, pop] at hs
      repeat' split at hs
      all_goals first | contradiction | (cases hs; done) | (injection hs with hs; subst hs; exact key _ (fun _ e => e.elim) rfl)

theorem step_kept {s s' : State} {a : Act} (hi : Inv s) (ht : Taken s) (h : ∀ id, Kept s id) (hs : step s a = some s') : ∀ id, Kept s' id := by
  intro k
  have h := h k
  have hwk : ∀ s' : State, s'.infos k = s.infos k → (s.pc.holds k → s'.pc.holds k) → s'.takes = s.takes → (s.ct ≠ none → s'.ct ≠ none) → Kept s' k := by
    intro s' e1 e2 e3 e4 hp he
    rw [e1] at hp he ⊢
    rcases h hp he with h | h | ⟨h, h'⟩
    · exact Or.inl h
    · exact Or.inr (Or.inl (e2 h))
    · refine Or.inr (Or.inr ⟨by unfold takesOf; rw [e3]; exact h, ?_⟩)
      rcases h' with h' | h'
      · exact Or.inl h'
      · exact Or.inr (e4 h')
  have hpush : ∀ (id : Nat) (x : Info) (p : Pc), x.queued = false → (k ≠ id → s.pc.holds k → p.holds k) → Kept { push { s with infos := set s.infos id x } id with pc := p } k := by
    intro id x p hx hh
    by_cases ek : k = id
    · subst ek
      intro hp he
      left
      revert hp he
      unfold push
      simp only [set_self]
      split
      · intro hp he; simp only [set_self] at he; rename_i hc; rw [hc] at he; cases he
      · intro hp he; simp only [set_self]
    · refine hwk _ ?_ (hh ek) ?_ (fun e => ?_)
      · unfold push; simp only [set_self]; split
        · exact set_ne _ _ ek
        · simp only [set_set]; exact set_ne _ _ ek
      · exact (push_logs _ _).2.1
      · unfold push; split <;> exact e
  cases a with
  | tick n => injection hs with hs; subst hs; exact hwk _ rfl id rfl id
  | cancel => injection hs with hs; subst hs; exact hwk _ rfl (wake_holds _ _).2 rfl id
  | spurious =>
    simp only [step] at hs
    split at hs
    · rename_i hp
      injection hs with hs; subst hs; exact hwk _ rfl (fun e => by rw [hp] at e; exact e.elim) rfl id
    · cases hs
  | prepare i t p b =>
    simp only [step, prepare] at hs
    split at hs
    · cases hs
    · injection hs with hs; subst hs
      by_cases ek : k = i
      · subst ek; intro hp; simp only [set_self] at hp; cases hp
      · exact hwk _ (set_ne _ _ ek) id rfl id
  | enqueue i =>
    simp only [step, enqueue] at hs
    split at hs
    · rename_i hc
      injection hs with hs; subst hs
      exact hpush i _ _ (hi.unpushed i hc.2.1) (fun _ => (wake_holds _ _).2)
    · cases hs
  | erase i =>
    simp only [step, erase] at hs
    split at hs
    · injection hs with hs; subst hs
      by_cases ek : k = i
      · subst ek; intro _ he; simp only [set_self] at he; cases he
      · exact hwk _ (set_ne _ _ ek) id rfl id
    · cases hs
  | release i b =>
    simp only [step, release] at hs
    split at hs
    · rename_i hc
      injection hs with hs; subst hs
      by_cases ek : k = i
      · subst ek; intro _ he; simp only [set_self] at he; rw [hc.1] at he; cases he
      · exact hwk _ (set_ne _ _ ek) id rfl id
    · cases hs
  | worker =>
    have hpop : ∀ e q, (∀ j, ¬ s.pc.holds j) → Kept (pop s e q) k := by
      intro e q hn
      by_cases ek : k = e.id
      · intro _ _; exact Or.inr (Or.inl ek.symm)
      · exact hwk _ (set_ne _ _ ek) (fun e => absurd e (hn k)) rfl id
    simp only [step, worker] at hs
    cases hp : s.pc with
    | top =>
      have hn : ∀ j, ¬ s.pc.holds j := fun j => by rw [hp]; exact fun e => e
      rw [hp] at hs; simp only [] at hs
      repeat' split at hs
      · injection hs with hs; subst hs; exact hwk _ rfl (fun e => absurd e (hn k)) rfl (fun _ e => nomatch e)
      · injection hs with hs; subst hs; exact hwk _ rfl (fun e => absurd e (hn k)) rfl id
      · injection hs with hs; subst hs; exact hpop _ _ hn
      · injection hs with hs; subst hs; exact hwk _ rfl (fun e => absurd e (hn k)) rfl id
    | drain =>
      have hn : ∀ j, ¬ s.pc.holds j := fun j => by rw [hp]; exact fun e => e
      rw [hp] at hs; simp only [] at hs
      repeat' split at hs
      · injection hs with hs; subst hs; exact hwk _ rfl (fun e => absurd e (hn k)) rfl id
      · injection hs with hs; subst hs; exact hpop _ _ hn
      · injection hs with hs; subst hs; exact hwk _ rfl (fun e => absurd e (hn k)) rfl id
    | popped i d =>
      rw [hp] at hs; injection hs with hs; subst hs
      intro h1 h2
      rcases h h1 h2 with h | h | ⟨h, h'⟩
      · exact Or.inl h
      · rw [hp] at h; exact Or.inr (Or.inl h)
      · refine Or.inr (Or.inr ⟨?_, h'⟩)
        have := takesOf_append s ⟨i, d, s.now⟩ k
        show takesOf { s with takes := s.takes ++ [⟨i, d, s.now⟩] } k ≠ []
        rw [this]; simp [h]
    | guarding i d t =>
      rw [hp] at hs; simp only [] at hs
      split at hs <;> (injection hs with hs; subst hs; exact hwk _ rfl (fun e => by rw [hp] at e; exact e) rfl id)
    | running i d t => rw [hp] at hs; injection hs with hs; subst hs; exact hwk _ rfl (fun e => by rw [hp] at e; exact e) rfl id
    | after i d t =>
      have hb := hi.busy i (by rw [hp]; rfl)
      have htk : takesOf s i ≠ [] := ht i (by rw [hp]; rfl)
      rw [hp] at hs; simp only [] at hs
      have hno : (s.infos i).period = none ∨ s.ct ≠ none → Kept { s with pc := .relock } k := by
        intro hx h1 h2
        rcases h h1 h2 with h | h | h
        · exact Or.inl h
        · rw [hp] at h
          have h : i = k := h
          subst h
          exact Or.inr (Or.inr ⟨htk, hx⟩)
        · exact Or.inr (Or.inr h)
      by_cases hct : s.ct = none
      · rw [if_pos hct] at hs
        split at hs
        · rename_i p _
          injection hs with hs; subst hs
          have := hpush i { s.infos i with time := t + p } .relock hb.1 (fun e1 e2 => by rw [hp] at e2; exact absurd e2.symm e1)
          simp only [hp] at this
          exact this
        · rename_i hpe
          injection hs with hs; subst hs; exact hno (Or.inl hpe)
      · rw [if_neg hct] at hs; injection hs with hs; subst hs; exact hno (Or.inr hct)
    | relock =>
      rw [hp] at hs; simp only [] at hs
      split at hs <;> (injection hs with hs; subst hs; exact hwk _ rfl (fun e => by rw [hp] at e; exact e.elim) rfl id)
    | blocked d w =>
      have : s' = { s with pc := .top } := by
        rw [hp] at hs
        repeat' split at hs
        all_goals first | contradiction | (cases hs; done) | (injection hs with hs; exact hs.symm)
      rw [this]; exact hwk _ rfl (fun e => by rw [hp] at e; exact e.elim) rfl id
    | finished => rw [hp] at hs; cases hs

theorem run_kept : ∀ {as : List Act} {s s' : State}, Inv s → Taken s → (∀ id, Kept s id) → run s as = some s' → ∀ id, Kept s' id
  | [], s, s', _, _, hk, h => by injection h with h; exact h ▸ hk
  | a :: as, s, s', hi, ht, hk, h => by
    rw [run] at h
    cases hs : step s a with
    | none => rw [hs] at h; cases h
    | some t => rw [hs] at h; exact run_kept (step_inv hi hs) (step_taken ht hs) (step_kept hi ht hk hs) h

/-- C43, no task is lost: a task that was added and not removed waits in the queue - with the deadline of `deadlines` -, or is in the hands of the worker, or was taken for the last time. -/
theorem kept {as : List Act} {s : State} (h : run init as = some s) (id : Nat) (hp : (s.infos id).pushed = true) (he : (s.infos id).erased = false) :
    (∃ e ∈ s.queue, e.id = id ∧ Spec.after (s.infos id).period (some (s.infos id).first) (takesOf s id) = some (some e.time)) ∨ s.pc.holds id ∨
      (takesOf s id ≠ [] ∧ ((s.infos id).period = none ∨ s.ct ≠ none)) := by
  have hi := run_inv init_inv h
  rcases run_kept init_inv (fun _ e => e.elim) (fun _ e => nomatch e) h id hp he with hq | hq
  · left
    obtain ⟨e, he, hid⟩ := hi.q.queued id hq
    have hbo : (s.infos id).born = true := by
      cases hx : (s.infos id).born with
      | true => rfl
      | false => have := (hi.unborn id hx).1; rw [this] at hp; cases hp
    obtain ⟨st, h1, h2⟩ := hi.chain id hbo
    have := hi.q.mem e he
    rw [hid] at this
    exact ⟨e, he, hid, by rw [h1, h2.queued (Or.inl hq), this.2]⟩
  · exact Or.inr hq

/-! ### C63 -/

/-- C63: when a task starts its function object exists. -/
theorem starts_with_function {as : List Act} {s s' : State} {id : Nat} {d t : Int} (h : run init as = some s) (hg : s.pc = .guarding id d t) (hs : step s .worker = some s')
    (hr : s'.pc.isRunning id = true) : (s'.infos id).gone = false := by
  have hi := run_inv init_inv h
  simp only [step, worker, hg] at hs
  split at hs
  · rename_i ha
    injection hs with hs; subst hs
    cases hx : (s.infos id).gone with
    | false => rfl
    | true => have := hi.gone id hx; rw [ha] at this; cases this
  · injection hs with hs; subst hs; cases hr

/-- C63, as far as it holds: if no task releases its own token, the function object of a task exists as long as the task runs. -/
theorem function_alive_partial {as : List Act} {s : State} (hn : ∀ id, .release id true ∉ as) (h : run init as = some s) (id : Nat) (hr : s.pc.isRunning id = true) : (s.infos id).gone = false := by
  have key : ∀ (as : List Act) (s s' : State), Inv s → (∀ id, .release id true ∉ as) → (s.pc.isRunning id = true → (s.infos id).gone = false) → run s as = some s' →
      s'.pc.isRunning id = true → (s'.infos id).gone = false := by
    intro as
    induction as with
    | nil => intro s s' _ _ hk h; injection h with h; exact h ▸ hk
    | cons a as ih =>
      intro s s' hi hn hk h
      rw [run] at h
      cases hs : step s a with
      | none => rw [hs] at h; cases h
      | some t =>
        rw [hs] at h
        refine ih t s' (step_inv hi hs) (fun k hm => hn k (List.mem_cons_of_mem _ hm)) (fun hr => ?_) h
        have hw : s.pc.wake.isRunning id = true → s.pc.isRunning id = true := by cases s.pc <;> exact fun e => e
        have hset : ∀ (k : Nat) (x : Info), x.gone = (s.infos k).gone → s.pc.isRunning id = true → (set s.infos k x id).gone = false := by
          intro k x hx hp
          by_cases e : id = k
          · subst e; rw [set_self, hx]; exact hk hp
          · rw [set_ne _ _ e]; exact hk hp
        cases a with
        | tick n => injection hs with hs; subst hs; exact hk hr
        | cancel => injection hs with hs; subst hs; exact hk (hw hr)
        | spurious =>
          simp only [step] at hs
          split at hs
          · injection hs with hs; subst hs; cases hr
          · cases hs
        | prepare k t p b =>
          simp only [step, prepare] at hs
          split at hs
          · cases hs
          · rename_i hb
            injection hs with hs; subst hs
            refine hset k _ ?_ hr
            rw [(hi.unborn k (by simpa using hb)).1]; rfl
        | enqueue k =>
          simp only [step, enqueue] at hs
          split at hs
          · injection hs with hs; subst hs
            have hr := hw hr
            unfold push
            simp only [set_self]
            split
            · exact hset k _ rfl hr
            · simp only [set_set]; exact hset k _ rfl hr
          · cases hs
        | erase k =>
          simp only [step, erase] at hs
          split at hs
          · injection hs with hs; subst hs; exact hset k _ rfl hr
          · cases hs
        | release k b =>
          simp only [step, release] at hs
          split at hs
          · rename_i hc
            injection hs with hs; subst hs
            cases b with
            | true => exact absurd List.mem_cons_self (hn k)
            | false =>
              have hne : id ≠ k := fun e => by subst e; have : s.pc.isRunning id = true := hr; rw [hc.2] at this; cases this
              show (set s.infos k _ id).gone = false
              rw [set_ne _ _ hne]; exact hk hr
          · cases hs
        | worker =>
          cases hp : s.pc with
          | guarding k d u =>
            have e : id = k := by
              simp only [step, worker, hp] at hs
              split at hs
              · injection hs with hs; subst hs; exact (show k = id by simpa [Pc.isRunning] using hr).symm
              · injection hs with hs; subst hs; cases hr
            subst e
            simp only [step, worker, hp] at hs
            split at hs
            · rename_i ha
              injection hs with hs; subst hs
              cases hx : (s.infos id).gone with
              | false => rfl
              | true => have := hi.gone id hx; rw [ha] at this; cases this
            · injection hs with hs; subst hs; cases hr
          | _ =>
            simp only [step, worker, hp, pop] at hs
            repeat' split at hs
            all_goals first | contradiction | (cases hs; done) | (injection hs with hs; subst hs; cases hr)
  exact key as init s init_inv hn (fun e => nomatch e) h hr

/-- C63 refuted for a task that releases its own token: `Release` destroys the function object that is being called. -/
theorem function_alive_violated : ∃ s, run init [.prepare 1 0 (some 10) true, .enqueue 1, .worker, .worker, .worker, .worker, .erase 1, .release 1 true] = some s ∧
    s.pc.isRunning 1 = true ∧ (s.infos 1).gone = true := ⟨_, rfl, rfl, rfl⟩

/-! Non-vacuity: two tasks with the same deadline, in the order of their insertion, a periodic one that is removed by another thread while it waits for its second turn, and the end. -/
def Spec.demo : List Act := [.prepare 1 5 none true, .prepare 2 5 none true, .prepare 3 3 (some 10) true, .enqueue 2, .worker, .worker, .enqueue 1, .enqueue 3, .worker, .tick 4, .worker, .worker,
  .worker, .worker, .worker, .worker, .tick 2, .worker, .worker, .worker, .worker, .worker, .worker, .worker, .worker, .worker, .worker, .worker, .worker, .worker, .erase 3, .release 3 false, .tick 20,
  .cancel, .worker, .worker, .worker]
example : (run init Spec.demo).map (fun s => (s.runs, s.takes, s.pc, s.ct, s.queue)) =
    some ([⟨3, 3, 4⟩, ⟨2, 5, 6⟩, ⟨1, 5, 6⟩], [⟨3, 3, 4⟩, ⟨2, 5, 6⟩, ⟨1, 5, 6⟩], .finished, some 26, []) := rfl
example : ∃ s s', run init [.prepare 1 5 (some 2) true, .enqueue 1, .worker, .worker, .tick 5] = some s ∧ s.pc = .blocked (some 5) false ∧ (∃ e ∈ s.queue, e.time ≤ s.now) ∧
    step s .worker = some s' ∧ s'.pc = .top := ⟨_, _, rfl, rfl, ⟨⟨5, 0, 1⟩, List.mem_cons_self, by decide⟩, rfl, rfl⟩

end Verif.Timer
