import Verif.Holder.Alloc
/-!
Every value that is allocated is held by one holder, or was given to the caller, or was destroyed and deallocated, with its own allocator, once.
-/
namespace Verif.Holder.Alloc

/-- How many holders hold the value. -/
def held (s : State) (a v : Nat) : Nat := s.holders.count (some ⟨a, some v⟩)

structure Inv (s : State) : Prop where
  memory : ∀ a v, s.log.count (.allocate a v) = s.log.count (.deallocate a v) + held s a v + s.log.count (.given a v)
  life : ∀ a v, s.log.count (.construct a v) = s.log.count (.destroy a v) + held s a v + s.log.count (.given a v)
  fresh : ∀ a v, .allocate a v ∈ s.log → v < s.next
  once : ∀ a v, s.log.count (.allocate a v) ≤ 1
  one : ∀ a b v, .allocate a v ∈ s.log → .allocate b v ∈ s.log → a = b

theorem get_some {s : State} {i : Nat} {h : Holder} : get s i = some h ↔ s.holders[i]? = some (some h) := by
  simp only [get]
  split
  · next h' hh => simp [hh]
  · next hh =>
    constructor
    · intro hc; simp at hc
    · intro hc; exact absurd hc (hh h)

/-- How `put` changes the number of holders. -/
theorem held_put {s : State} {i : Nat} {h : Holder} (hg : get s i = some h) (n : Option Holder) (a v : Nat) :
    held (put s i n) a v + (if h = ⟨a, some v⟩ then 1 else 0) = held s a v + (if n = some ⟨a, some v⟩ then 1 else 0) := by
  have hg := get_some.mp hg
  obtain ⟨hlt, he⟩ := List.getElem?_eq_some_iff.mp hg
  simp only [held, put]
  rw [List.count_set hlt, he]
  by_cases hh : h = ⟨a, some v⟩
  · subst hh
    have : 0 < s.holders.count (some ⟨a, some v⟩) := List.count_pos_iff.mpr (List.mem_of_getElem? hg)
    simp; omega
  · simp [hh]

theorem get_put {s : State} {i j : Nat} {h : Holder} (hg : get s i = some h) (n : Option Holder) : get (put s i n) j = if i = j then n else get s j := by
  have hg := get_some.mp hg
  obtain ⟨hlt, he⟩ := List.getElem?_eq_some_iff.mp hg
  simp only [get, put]
  by_cases hij : i = j
  · subst hij
    simp only [List.getElem?_set_self hlt, if_true]
    cases n <;> rfl
  · rw [if_neg hij, List.getElem?_set_ne hij]

/-- An operation that only moves values between holders, or that adds events that balance. -/
theorem inv_of {s s' : State} (h : Inv s) (hn : s'.next = s.next)
    (hl : ∃ l, s'.log = s.log ++ l ∧ (∀ a v, l.count (.allocate a v) = 0) ∧ (∀ a v, l.count (.construct a v) = 0) ∧
      (∀ a v, held s a v = l.count (.deallocate a v) + held s' a v + l.count (.given a v)) ∧ (∀ a v, held s a v = l.count (.destroy a v) + held s' a v + l.count (.given a v))) : Inv s' := by
  obtain ⟨l, hl, ha, hc, hm, hd⟩ := hl
  have hna : ∀ a v, Ev.allocate a v ∈ s'.log → Ev.allocate a v ∈ s.log := by
    intro a v hx
    rw [hl] at hx
    rcases List.mem_append.mp hx with hx | hx
    · exact hx
    · exact absurd (ha a v) (by have := List.count_pos_iff.mpr hx; omega)
  refine ⟨fun a v => ?_, fun a v => ?_, fun a v hx => ?_, fun a v => ?_, fun a b v hx hy => h.one a b v (hna a v hx) (hna b v hy)⟩
  · have := h.memory a v; have := hm a v; have := ha a v; simp only [hl, List.count_append]; omega
  · have := h.life a v; have := hd a v; have := hc a v; simp only [hl, List.count_append]; omega
  · rw [hn]; exact h.fresh a v (hna a v hx)
  · have := h.once a v; have := ha a v; simp only [hl, List.count_append]; omega

theorem freed_count (h : Holder) (a v : Nat) : (freed h).count (.allocate a v) = 0 ∧ (freed h).count (.construct a v) = 0 ∧ (freed h).count (.given a v) = 0 ∧
    (freed h).count (.deallocate a v) = (if h = ⟨a, some v⟩ then 1 else 0) ∧ (freed h).count (.destroy a v) = (if h = ⟨a, some v⟩ then 1 else 0) := by
  obtain ⟨b, w⟩ := h
  cases w with
  | none => simp [freed]
  | some w => simp [freed, List.count_cons]

theorem handed_count (h : Holder) (a v : Nat) : (handed h).count (.allocate a v) = 0 ∧ (handed h).count (.construct a v) = 0 ∧
    (handed h).count (.given a v) = (if h = ⟨a, some v⟩ then 1 else 0) ∧ (handed h).count (.deallocate a v) = 0 ∧ (handed h).count (.destroy a v) = 0 := by
  obtain ⟨b, w⟩ := h
  cases w with
  | none => simp [handed]
  | some w => simp [handed, List.count_cons]

theorem reset_spec {s s' : State} {i : Nat} (h : Inv s) (hs : reset s i = some s') : Inv s' ∧ ∃ a, get s' i = some ⟨a, none⟩ := by
  simp only [reset] at hs
  cases hg : get s i with
  | none => rw [hg] at hs; simp at hs
  | some x =>
    rw [hg] at hs
    simp only [Option.some.injEq] at hs
    subst hs
    refine ⟨inv_of h rfl ⟨freed x, rfl, fun a v => (freed_count x a v).1, fun a v => (freed_count x a v).2.1, fun a v => ?_, fun a v => ?_⟩, x.alloc, ?_⟩
    · have := held_put hg (some ⟨x.alloc, none⟩) a v
      simp at this
      have hc := freed_count x a v
      show held s a v = _ + held (put s i (some ⟨x.alloc, none⟩)) a v + _
      omega
    · have := held_put hg (some ⟨x.alloc, none⟩) a v
      simp at this
      have hc := freed_count x a v
      show held s a v = _ + held (put s i (some ⟨x.alloc, none⟩)) a v + _
      omega
    · have := get_put (j := i) hg (some ⟨x.alloc, none⟩)
      rw [if_pos rfl] at this
      exact this

theorem held_append (s : State) (h : Holder) (a v : Nat) : (s.holders ++ [some h]).count (some ⟨a, some v⟩) = held s a v + if h = ⟨a, some v⟩ then 1 else 0 := by
  simp only [held, List.count_append, List.count_singleton, beq_iff_eq, Option.some.injEq]

theorem inv_step {s s' : State} {act : Act} (h : Inv s) (hs : step s act = some s') : Inv s' := by
  cases act with
  | create a t =>
    have hnew : ∀ b, Ev.allocate b s.next ∉ s.log := fun b hm => by have := h.fresh b s.next hm; omega
    have hz : ∀ b, s.log.count (.allocate b s.next) = 0 := fun b => List.count_eq_zero.mpr (hnew b)
    have common : ∀ (hs' : List (Option Holder)) (e : Ev), (∀ b v, e ≠ .allocate b v) →
        (∀ b v, Ev.allocate b v ∈ s.log ++ [.allocate a s.next, e] → v < s.next + 1) ∧ (∀ b v, (s.log ++ [.allocate a s.next, e]).count (.allocate b v) ≤ 1) ∧
        (∀ b c v, Ev.allocate b v ∈ s.log ++ [.allocate a s.next, e] → Ev.allocate c v ∈ s.log ++ [.allocate a s.next, e] → b = c) := by
      intro _ e he
      have hin : ∀ b v, Ev.allocate b v ∈ s.log ++ [.allocate a s.next, e] → Ev.allocate b v ∈ s.log ∨ (b = a ∧ v = s.next) := by
        intro b v hm
        simp only [List.mem_append, List.mem_cons, List.not_mem_nil, or_false] at hm
        rcases hm with hm | hm | hm
        · exact .inl hm
        · cases hm; exact .inr ⟨rfl, rfl⟩
        · exact absurd hm.symm (he b v)
      refine ⟨fun b v hm => ?_, fun b v => ?_, fun b c v h1 h2 => ?_⟩
      · rcases hin b v hm with hm | ⟨_, rfl⟩
        · have := h.fresh b v hm; omega
        · omega
      · have h1 := h.once b v
        have h2 : (e == Ev.allocate b v) = false := by simpa using he b v
        simp only [List.count_append, List.count_cons, List.count_nil, h2]
        by_cases hx : Ev.allocate a s.next = Ev.allocate b v
        · rw [← hx, hz a]; simp
        · simp [hx]; exact h1
      · rcases hin b v h1 with h3 | ⟨h3, h4⟩
        · rcases hin c v h2 with h5 | ⟨_, h5⟩
          · exact h.one b c v h3 h5
          · exact absurd (h5 ▸ h3) (hnew b)
        · rcases hin c v h2 with h5 | ⟨h5, _⟩
          · exact absurd (h4 ▸ h5) (hnew c)
          · rw [h3, h5]
    cases t with
    | true =>
      simp only [step, Option.some.injEq] at hs
      subst hs
      have hc := common s.holders (.deallocate a s.next) (by simp)
      refine ⟨fun b v => ?_, fun b v => ?_, hc.1, hc.2.1, hc.2.2⟩
      · have := h.memory b v
        have hh : ∀ x, held { s with next := s.next + 1, log := x } b v = held s b v := fun _ => rfl
        simp [List.count_append, List.count_cons, hh]
        omega
      · have := h.life b v
        have hh : ∀ x, held { s with next := s.next + 1, log := x } b v = held s b v := fun _ => rfl
        simp [List.count_append, List.count_cons, hh]
        omega
    | false =>
      simp only [step, Option.some.injEq] at hs
      subst hs
      have hc := common s.holders (.construct a s.next) (by simp)
      have hh : ∀ b v, held ⟨s.holders ++ [some ⟨a, some s.next⟩], s.next + 1, s.log ++ [.allocate a s.next, .construct a s.next]⟩ b v =
        held s b v + if (⟨a, some s.next⟩ : Holder) = ⟨b, some v⟩ then 1 else 0 := fun b v => held_append s _ b v
      refine ⟨fun b v => ?_, fun b v => ?_, hc.1, hc.2.1, hc.2.2⟩
      · have := h.memory b v
        rw [hh]
        simp [List.count_append, List.count_cons]
        omega
      · have := h.life b v
        rw [hh]
        simp [List.count_append, List.count_cons]
        omega
  | moveCtor i =>
    simp only [step] at hs
    cases hg : get s i with
    | none => rw [hg] at hs; simp at hs
    | some x =>
      rw [hg] at hs
      simp only [Option.some.injEq] at hs
      subst hs
      have key : ∀ a v, held { put s i (some (⟨x.alloc, none⟩ : Holder)) with holders := (put s i (some (⟨x.alloc, none⟩ : Holder))).holders ++ [some (⟨x.alloc, x.value⟩ : Holder)] } a v = held s a v := by
        intro a v
        have h1 := held_append (put s i (some ⟨x.alloc, none⟩)) ⟨x.alloc, x.value⟩ a v
        have h2 := held_put hg (some ⟨x.alloc, none⟩) a v
        simp at h2
        show ((put s i (some (⟨x.alloc, none⟩ : Holder))).holders ++ [some (⟨x.alloc, x.value⟩ : Holder)]).count (some (⟨a, some v⟩ : Holder)) = _
        rw [h1, ← h2]
      exact inv_of h rfl ⟨[], by simp [put], by simp, by simp, by simp [key], by simp [key]⟩
  | moveAssign i j =>
    simp only [step] at hs
    cases hr : reset s i with
    | none => rw [hr] at hs; simp at hs
    | some s1 =>
      rw [hr] at hs
      obtain ⟨h1, al, hi⟩ := reset_spec h hr
      simp only [takeFrom, hi] at hs
      cases hg : get s1 j with
      | none => rw [hg] at hs; simp at hs
      | some x =>
        rw [hg] at hs
        simp only [Option.some.injEq] at hs
        subst hs
        have hgi : ∃ al', get (put s1 j (some ⟨x.alloc, none⟩)) i = some ⟨al', none⟩ := by
          rw [get_put hg]
          split
          · exact ⟨_, rfl⟩
          · exact ⟨_, hi⟩
        obtain ⟨al', hgi⟩ := hgi
        have key : ∀ a v, held (put (put s1 j (some ⟨x.alloc, none⟩)) i (some ⟨x.alloc, x.value⟩)) a v = held s1 a v := by
          intro a v
          have e1 := held_put hg (some ⟨x.alloc, none⟩) a v
          have e2 := held_put hgi (some ⟨x.alloc, x.value⟩) a v
          obtain ⟨xa, xv⟩ := x
          simp at e1 e2 ⊢
          omega
        exact inv_of h1 rfl ⟨[], by simp [put], by simp, by simp, by simp [key], by simp [key]⟩
  | release i =>
    simp only [step] at hs
    cases hg : get s i with
    | none => rw [hg] at hs; simp at hs
    | some x =>
      rw [hg] at hs
      simp only [Option.some.injEq] at hs
      subst hs
      refine inv_of h rfl ⟨handed x, rfl, fun a v => (handed_count x a v).1, fun a v => (handed_count x a v).2.1, fun a v => ?_, fun a v => ?_⟩ <;>
      · have := held_put hg (some ⟨x.alloc, none⟩) a v
        simp at this
        have hc := handed_count x a v
        show held s a v = _ + held (put s i (some ⟨x.alloc, none⟩)) a v + _
        omega
  | swap i j =>
    simp only [step] at hs
    cases hg : get s i with
    | none => rw [hg] at hs; simp at hs
    | some x =>
      cases hg2 : get s j with
      | none => rw [hg, hg2] at hs; simp at hs
      | some y =>
        rw [hg, hg2] at hs
        simp only [Option.some.injEq] at hs
        subst hs
        have hgj : get (put s i (some y)) j = some y := by
          rw [get_put hg]
          split
          · rfl
          · exact hg2
        have key : ∀ a v, held (put (put s i (some y)) j (some x)) a v = held s a v := by
          intro a v
          have e1 := held_put hg (some y) a v
          have e2 := held_put hgj (some x) a v
          simp only [Option.some.injEq] at e1 e2
          omega
        exact inv_of h rfl ⟨[], by simp [put], by simp, by simp, by simp [key], by simp [key]⟩
  | destroy i =>
    simp only [step] at hs
    cases hr : reset s i with
    | none => rw [hr] at hs; simp at hs
    | some s1 =>
      rw [hr] at hs
      obtain ⟨h1, al, hi⟩ := reset_spec h hr
      simp only [Option.some.injEq] at hs
      subst hs
      have key : ∀ a v, held (put s1 i none) a v = held s1 a v := by
        intro a v
        have e1 := held_put hi none a v
        simp at e1
        exact e1
      exact inv_of h1 rfl ⟨[], by simp [put], by simp, by simp, by simp [key], by simp [key]⟩

theorem inv_run : ∀ (as : List Act) (s s' : State), Inv s → run s as = some s' → Inv s' := by
  intro as
  induction as with
  | nil => intro s s' h hr; simp only [run, Option.some.injEq] at hr; exact hr ▸ h
  | cons a as ih =>
    intro s s' h hr
    simp only [run] at hr
    cases hs : step s a with
    | none => rw [hs] at hr; simp at hr
    | some s1 => rw [hs] at hr; exact ih s1 s' (inv_step h hs) hr

theorem inv_init : Inv ⟨[], 0, []⟩ := ⟨by simp [held], by simp [held], by simp, by simp, by simp⟩

/-- In every history: an allocated value is in one place only: deallocated, held by one holder, or given away, each with the allocator it came from. -/
theorem one_place {as : List Act} {s : State} (h : run ⟨[], 0, []⟩ as = some s) (a v : Nat) :
    s.log.count (.deallocate a v) + held s a v + s.log.count (.given a v) = s.log.count (.allocate a v) ∧ s.log.count (.allocate a v) ≤ 1 ∧
    s.log.count (.destroy a v) + held s a v + s.log.count (.given a v) = s.log.count (.construct a v) := by
  have hi := inv_run as _ _ inv_init h
  exact ⟨(hi.memory a v).symm, hi.once a v, (hi.life a v).symm⟩

/-- No value has two allocators: so none is freed by another one than it came from. -/
theorem own_allocator {as : List Act} {s : State} (h : run ⟨[], 0, []⟩ as = some s) {a b v : Nat} (ha : .allocate a v ∈ s.log) (hb : .deallocate b v ∈ s.log) : a = b := by
  have hi := inv_run as _ _ inv_init h
  have h1 := hi.memory b v
  have h2 : 0 < s.log.count (.deallocate b v) := List.count_pos_iff.mpr hb
  exact hi.one a b v ha (List.count_pos_iff.mp (by omega))

/-- When all holders are gone, everything that was not given away has been destroyed, if it was constructed, and deallocated. -/
theorem nothing_leaks {as : List Act} {s : State} (h : run ⟨[], 0, []⟩ as = some s) (hn : ∀ x ∈ s.holders, x = none) {a v : Nat} (hg : .given a v ∉ s.log) :
    s.log.count (.deallocate a v) = s.log.count (.allocate a v) ∧ s.log.count (.destroy a v) = s.log.count (.construct a v) := by
  have := one_place h a v
  have h0 : held s a v = 0 := List.count_eq_zero.mpr fun hm => by simpa using hn _ hm
  have h1 := List.count_eq_zero.mpr hg
  omega

/-- A creation whose constructor throws leaves nothing behind. -/
theorem failed_create (s : State) (a : Nat) : ∃ s', step s (.create a true) = some s' ∧ s'.holders = s.holders ∧ s'.log = s.log ++ [.allocate a s.next, .deallocate a s.next] :=
  ⟨_, rfl, rfl, rfl⟩

/-- Move assignment between two holders: the old value is freed, the new one is taken, and the source is empty. -/
theorem move_assign {s : State} {i j : Nat} {x y : Holder} (hij : i ≠ j) (hi : get s i = some x) (hj : get s j = some y) :
    ∃ s', step s (.moveAssign i j) = some s' ∧ get s' i = some y ∧ get s' j = some ⟨y.alloc, none⟩ ∧
      s'.log = s.log ++ (match x.value with | none => [] | some v => [.destroy x.alloc v, .deallocate x.alloc v]) := by
  have hr : reset s i = some { put s i (some ⟨x.alloc, none⟩) with log := s.log ++ freed x } := by simp only [reset, hi]
  have g1 : get { put s i (some ⟨x.alloc, none⟩) with log := s.log ++ freed x } i = some ⟨x.alloc, none⟩ := by
    have := get_put (j := i) hi (some ⟨x.alloc, none⟩); rw [if_pos rfl] at this; exact this
  have g2 : get { put s i (some ⟨x.alloc, none⟩) with log := s.log ++ freed x } j = some y := by
    have := get_put (j := j) hi (some ⟨x.alloc, none⟩); rw [if_neg hij] at this; exact this.trans hj
  generalize hs1 : ({ put s i (some ⟨x.alloc, none⟩) with log := s.log ++ freed x } : State) = s1 at hr g1 g2
  have g3 : get (put s1 j (some ⟨y.alloc, none⟩)) i = some ⟨x.alloc, none⟩ := by rw [get_put g2, if_neg (Ne.symm hij)]; exact g1
  refine ⟨put (put s1 j (some ⟨y.alloc, none⟩)) i (some ⟨y.alloc, y.value⟩), by simp only [step, hr, takeFrom, g1, g2], ?_, ?_, ?_⟩
  · rw [get_put g3, if_pos rfl]
  · rw [get_put g3, if_neg hij, get_put g2, if_pos rfl]
  · show s1.log = _
    rw [← hs1]
    rfl

example : (run ⟨[], 0, []⟩ [.create 7 false, .create 8 false, .moveAssign 0 1, .moveCtor 0, .destroy 2]).map (fun s => (s.holders, s.log)) =
    some ([some ⟨8, none⟩, some ⟨8, none⟩, none], [.allocate 7 0, .construct 7 0, .allocate 8 1, .construct 8 1, .destroy 7 0, .deallocate 7 0, .destroy 8 1, .deallocate 8 1]) := by
  decide

/-- A holder that is moved to itself loses its value: it is destroyed, and the holder is empty. -/
theorem self_move_violated : (run ⟨[], 0, []⟩ [.create 7 false, .moveAssign 0 0]).map (fun s => (s.holders, s.log)) =
    some ([some ⟨7, none⟩], [.allocate 7 0, .construct 7 0, .destroy 7 0, .deallocate 7 0]) := by decide

end Verif.Holder.Alloc
