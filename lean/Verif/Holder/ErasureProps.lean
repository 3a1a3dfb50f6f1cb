import Verif.Holder.Erasure
/-
What a user of TypeErasure relies on: a call applies the concept to the object as the class it was made of; an object is destroyed at most once, as its own class; as long as
erasures are moved, not copied, no erasure refers to an object that was destroyed.
-/
namespace Verif.Holder.Erasure

/-- The index of a concept in the table leads to the concept. -/
theorem forIf_spec (concepts : List Nat) (i : Nat) : ∀ left start, start + left = concepts.length → forIf concepts i left start = if start ≤ i then concepts[i]? else none
  | 0, start, h => by
    simp only [forIf]
    split
    · rw [List.getElem?_eq_none (by omega)]
    · rfl
  | left + 1, start, h => by
    simp only [forIf]
    by_cases hi : i = start
    · subst hi; simp
    · rw [if_pos hi, forIf_spec concepts i left (start + 1) (by omega)]
      split <;> split <;> first | rfl | omega

theorem indexOf_some {c : Nat} : ∀ {l : List Nat} {n : Nat}, indexOf c l = some n → l[n]? = some c
  | [], _, h => by simp [indexOf] at h
  | x :: xs, n, h => by
    simp only [indexOf] at h
    split at h
    · next hx => cases h; simp [hx]
    · cases hn : indexOf c xs with
      | none => rw [hn] at h; simp at h
      | some m => rw [hn] at h; cases h; simpa using indexOf_some hn

theorem indexOf_none {c : Nat} : ∀ {l : List Nat}, indexOf c l = none ↔ c ∉ l
  | [] => by simp [indexOf]
  | x :: xs => by
    simp only [indexOf]
    split
    · next hx => simp [hx]
    · next hx =>
      have ih := indexOf_none (c := c) (l := xs)
      cases hn : indexOf c xs with
      | none => simp [ih.mp hn, Ne.symm hx]
      | some m => rw [hn] at ih; simp at ih; simp [ih]

/-- The function found for a concept is its own, whatever the list of concepts; for a concept that the erasure does not have there is none, and the program ends. -/
theorem dispatch (concepts : List Nat) (c : Nat) : vTable (allConcepts concepts) (indexOf c (allConcepts concepts)) = if c = destructor ∨ c ∈ concepts then some c else none := by
  cases h : indexOf c (allConcepts concepts) with
  | none =>
    have := indexOf_none.mp h
    simp only [allConcepts, List.mem_cons] at this
    simp only [vTable]
    rw [if_neg this]
  | some n =>
    have hn := indexOf_some h
    have hm : c ∈ allConcepts concepts := List.mem_of_getElem? hn
    simp only [allConcepts, List.mem_cons] at hm
    simp only [vTable]
    rw [forIf_spec _ _ _ _ (by omega), if_pos (by omega), hn, if_pos hm]

/-- A call through an erasure of a live object applies the concept to that object, as the class it was made of, with the argument given, and changes nothing else. -/
theorem call_exact {concepts : List Nat} {w : World} {i o k c : Nat} (arg : Nat) (hp : w.vars[i]? = some (some (some o))) (ho : w.objs[o]? = some (k, true)) (hc : c ∈ concepts) (h0 : c ≠ destructor) :
    step concepts w (.call i c arg) = .ok ⟨w.vars, w.objs, w.log ++ [.applied o k c arg]⟩ := by
  simp only [step, call, pointer, hp, ho, dispatch]
  rw [if_pos (.inr hc)]
  simp only [invoke, if_neg h0]

/-- `Free` destroys the object, as the class it was made of, and the erasure is empty then. -/
theorem free_exact {concepts : List Nat} {w : World} {i o k : Nat} (hp : w.vars[i]? = some (some (some o))) (ho : w.objs[o]? = some (k, true)) :
    step concepts w (.free i) = .ok ⟨w.vars.set i (some none), w.objs.set o (k, false), w.log ++ [.destroyed o k]⟩ := by
  simp only [step, call, pointer, hp, ho, dispatch]
  simp [invoke]

def isDestroyed (o : Nat) : Ev → Bool
  | .destroyed p _ => p == o
  | _ => false

/-- In every history whatever: an object is destroyed at most once, and exactly if it is not alive any more. -/
structure Once (w : World) : Prop where
  fresh : ∀ o, w.objs.length ≤ o → w.log.countP (isDestroyed o) = 0
  count : ∀ o k b, w.objs[o]? = some (k, b) → w.log.countP (isDestroyed o) = if b then 0 else 1
  own : ∀ o k, .destroyed o k ∈ w.log → ∃ b, w.objs[o]? = some (k, b)

/-- Every pointer of an erasure is to a live object, and no two are to the same. -/
structure Alone (w : World) : Prop where
  alive : ∀ (i o : Nat), w.vars[i]? = some (some (some o)) → ∃ k, w.objs[o]? = some (k, true)
  apart : ∀ (i j o : Nat), w.vars[i]? = some (some (some o)) → w.vars[j]? = some (some (some o)) → i = j

theorem pointer_some {w : World} {i : Nat} {p : Option Nat} (h : pointer w i = some p) : w.vars[i]? = some (some p) := by
  simp only [pointer] at h
  split at h
  · next hq => cases h; exact hq
  · simp at h

/-- What a call that goes on has done. -/
theorem call_ok {concepts : List Nat} {w w' : World} {i c arg : Nat} (h : call concepts w i c arg = .ok w') :
    ∃ o k, w.vars[i]? = some (some (some o)) ∧ w.objs[o]? = some (k, true) ∧
      ((c = destructor ∧ w' = ⟨w.vars, w.objs.set o (k, false), w.log ++ [.destroyed o k]⟩) ∨ (c ≠ destructor ∧ w' = ⟨w.vars, w.objs, w.log ++ [.applied o k c arg]⟩)) := by
  simp only [call] at h
  cases hp : pointer w i with
  | none => rw [hp] at h; simp at h
  | some p =>
    rw [hp] at h
    cases p with
    | none => simp at h
    | some o =>
      simp only at h
      split at h
      · next k ho =>
        rw [dispatch] at h
        refine ⟨o, k, pointer_some hp, ho, ?_⟩
        split at h
        · simp at h
        · next hd =>
          split at hd
          · next hc =>
            cases hd
            simp only [Res.ok.injEq] at h
            subst h
            by_cases h0 : c = destructor
            · exact .inl ⟨h0, by simp [invoke, h0]⟩
            · exact .inr ⟨h0, by simp [invoke, h0]⟩
          · simp at hd
      · simp at h

theorem once_destroyed {w : World} {o k : Nat} {vs : List (Option (Option Nat))} (h : Once w) (ho : w.objs[o]? = some (k, true)) :
    Once ⟨vs, w.objs.set o (k, false), w.log ++ [.destroyed o k]⟩ := by
  have hlt : o < w.objs.length := by
    rw [List.getElem?_eq_some_iff] at ho; exact ho.1
  refine ⟨fun p hp => ?_, fun p k' b hp => ?_, fun p k' hp => ?_⟩
  · simp only [List.length_set] at hp
    have hne : o ≠ p := by omega
    simp [List.countP_append, h.fresh p hp, isDestroyed, hne]
  · simp only at hp
    by_cases hop : o = p
    · subst hop
      rw [List.getElem?_set_self hlt] at hp
      cases hp
      have := h.count o k true ho
      simp only [if_true] at this
      simp [List.countP_append, this, isDestroyed]
    · rw [List.getElem?_set_ne hop] at hp
      simp [List.countP_append, h.count p k' b hp, isDestroyed, hop]
  · simp only [List.mem_append, List.mem_singleton, Ev.destroyed.injEq] at hp
    by_cases hop : o = p
    · subst hop
      simp only
      rw [List.getElem?_set_self hlt]
      rcases hp with hp | hp
      · obtain ⟨b, hb⟩ := h.own o k' hp
        rw [ho] at hb; cases hb; exact ⟨_, rfl⟩
      · rw [hp.2]; exact ⟨_, rfl⟩
    · simp only
      rw [List.getElem?_set_ne hop]
      rcases hp with hp | hp
      · exact h.own p k' hp
      · exact absurd hp.1.symm hop

theorem once_step {concepts : List Nat} {w w' : World} {a : Act} (h : Once w) (hs : step concepts w a = .ok w') : Once w' := by
  have same : ∀ vs, Once ⟨vs, w.objs, w.log⟩ := fun vs => ⟨h.fresh, h.count, h.own⟩
  cases a with
  | make => cases hs; exact same _
  | copyCtor i => simp only [step] at hs; split at hs <;> cases hs; exact same _
  | moveCtor i => simp only [step] at hs; split at hs <;> cases hs; exact same _
  | copyAssign i j => simp only [step] at hs; split at hs <;> cases hs; exact same _
  | moveAssign i j =>
    simp only [step] at hs
    split at hs
    · split at hs <;> cases hs <;> exact same _
    · simp at hs
  | destroy i => simp only [step] at hs; split at hs <;> cases hs; exact same _
  | allocate i k =>
    simp only [step] at hs
    split at hs
    · simp at hs
    · cases hs
      refine ⟨fun o ho => ?_, fun o k' b ho => ?_, fun o k' ho => ?_⟩
      · simp at ho; exact h.fresh o (by omega)
      · simp only at ho ⊢
        rw [List.getElem?_append] at ho
        split at ho
        · exact h.count o k' b ho
        · next hge =>
          have h0 := h.fresh o (by omega)
          rw [h0]
          cases hi : o - w.objs.length with
          | zero => rw [hi] at ho; simp at ho; simp [ho.2.symm]
          | succ n => rw [hi] at ho; simp at ho
      · obtain ⟨b, hb⟩ := h.own o k' ho
        have hlt : o < w.objs.length := by rw [List.getElem?_eq_some_iff] at hb; exact hb.1
        exact ⟨b, by simp only; rw [List.getElem?_append_left hlt]; exact hb⟩
  | call i c arg =>
    obtain ⟨o, k, _, ho, ⟨_, rfl⟩ | ⟨_, rfl⟩⟩ := call_ok hs
    · exact once_destroyed h ho
    · refine ⟨fun p hp => ?_, fun p k' b hp => ?_, fun p k' hp => ?_⟩
      · simp [List.countP_append, h.fresh p hp, isDestroyed]
      · simp [List.countP_append, h.count p k' b hp, isDestroyed]
      · simp at hp; exact h.own p k' hp
  | free i =>
    simp only [step] at hs
    split at hs
    · next w1 hc =>
      obtain ⟨o, k, _, ho, ⟨_, rfl⟩ | ⟨h0, _⟩⟩ := call_ok hc
      · simp only [Res.ok.injEq] at hs
        subst hs
        exact once_destroyed h ho
      · exact absurd rfl h0
    · next r hr => exact absurd hs (hr w')

theorem once_run {concepts : List Nat} : ∀ {as : List Act} {w w' : World}, Once w → run concepts w as = .ok w' → Once w'
  | [], w, w', h, hr => by cases hr; exact h
  | a :: as, w, w', h, hr => by
    simp only [run] at hr
    split at hr
    · next w1 hs => exact once_run (once_step h hs) hr
    · next r hs => exact absurd hr (hs w')

/-- In every history whose behaviour is defined: an object is destroyed at most once, as the class it was made of; and it is alive exactly until then. -/
theorem destroyed_once {concepts : List Nat} {as : List Act} {w : World} (h : run concepts init as = .ok w) :
    (∀ o k b, w.objs[o]? = some (k, b) → w.log.countP (isDestroyed o) = if b then 0 else 1) ∧ ∀ o k, .destroyed o k ∈ w.log → ∃ b, w.objs[o]? = some (k, b) := by
  have := once_run ⟨fun _ _ => rfl, fun o k b ho => by simp [init] at ho, fun o k ho => by simp [init] at ho⟩ h
  exact ⟨this.count, this.own⟩

/-- A history that does not copy erasures and destroys objects with `Free` only. -/
def Careful : Act → Prop
  | .copyCtor _ => False
  | .copyAssign _ _ => False
  | .call _ c _ => c ≠ destructor
  | _ => True

theorem alone_step {concepts : List Nat} {w w' : World} {a : Act} (ha : Careful a) (h : Alone w) (hs : step concepts w a = .ok w') : Alone w' := by
  cases a with
  | make =>
    cases hs
    have key : ∀ (i o : Nat), (w.vars ++ [some none])[i]? = some (some (some o)) → w.vars[i]? = some (some (some o)) := by
      intro i o hi
      rw [List.getElem?_append] at hi
      split at hi
      · exact hi
      · cases hk : i - w.vars.length with
        | zero => rw [hk] at hi; simp at hi
        | succ n => rw [hk] at hi; simp at hi
    exact ⟨fun i o hi => h.alive i o (key i o hi), fun i j o hi hj => h.apart i j o (key i o hi) (key j o hj)⟩
  | copyCtor i => exact ha.elim
  | copyAssign i j => exact ha.elim
  | moveCtor i =>
    simp only [step] at hs
    split at hs
    · simp at hs
    · next p hp =>
      cases hs
      have hp := pointer_some hp
      have hlt : i < w.vars.length := by rw [List.getElem?_eq_some_iff] at hp; exact hp.1
      have key : ∀ (m o : Nat), (w.vars.set i (some none) ++ [some p])[m]? = some (some (some o)) →
          (m ≠ i ∧ m < w.vars.length ∧ w.vars[m]? = some (some (some o))) ∨ (m = w.vars.length ∧ p = some o) := by
        intro m o hm
        rw [List.getElem?_append] at hm
        simp only [List.length_set] at hm
        split at hm
        · next hl =>
          by_cases him : i = m
          · subst him; rw [List.getElem?_set_self hl] at hm; simp at hm
          · rw [List.getElem?_set_ne him] at hm; exact .inl ⟨Ne.symm him, hl, hm⟩
        · next hl =>
          cases hk : m - w.vars.length with
          | zero => rw [hk] at hm; simp at hm; exact .inr ⟨by omega, hm⟩
          | succ n => rw [hk] at hm; simp at hm
      refine ⟨fun m o hm => ?_, fun m n o hm hn => ?_⟩
      · rcases key m o hm with ⟨_, _, h1⟩ | ⟨_, rfl⟩
        · exact h.alive m o h1
        · exact h.alive i o hp
      · rcases key m o hm with ⟨a1, _, a3⟩ | ⟨a1, a2⟩ <;> rcases key n o hn with ⟨b1, _, b3⟩ | ⟨b1, b2⟩
        · exact h.apart m n o a3 b3
        · subst b2; exact absurd (h.apart m i o a3 hp) a1
        · subst a2; exact absurd (h.apart n i o b3 hp) b1
        · omega
  | moveAssign i j =>
    simp only [step] at hs
    split at hs
    · next q p hq hp =>
      have hp := pointer_some hp
      have hq := pointer_some hq
      have hli : i < w.vars.length := by rw [List.getElem?_eq_some_iff] at hq; exact hq.1
      have hlj : j < w.vars.length := by rw [List.getElem?_eq_some_iff] at hp; exact hp.1
      split at hs
      · cases hs
        have key : ∀ (m o : Nat), (w.vars.set i (some none))[m]? = some (some (some o)) → w.vars[m]? = some (some (some o)) := by
          intro m o hm
          by_cases him : i = m
          · subst him; rw [List.getElem?_set_self hli] at hm; simp at hm
          · rw [List.getElem?_set_ne him] at hm; exact hm
        exact ⟨fun m o hm => h.alive m o (key m o hm), fun m n o hm hn => h.apart m n o (key m o hm) (key n o hn)⟩
      · next hij =>
        cases hs
        have key : ∀ (m o : Nat), ((w.vars.set i (some p)).set j (some none))[m]? = some (some (some o)) →
            (m ≠ i ∧ m ≠ j ∧ w.vars[m]? = some (some (some o))) ∨ (m = i ∧ p = some o) := by
          intro m o hm
          by_cases hjm : j = m
          · subst hjm; rw [List.getElem?_set_self (by simpa using hlj)] at hm; simp at hm
          · rw [List.getElem?_set_ne hjm] at hm
            by_cases him : i = m
            · subst him; rw [List.getElem?_set_self hli] at hm; simp at hm; exact .inr ⟨rfl, hm⟩
            · rw [List.getElem?_set_ne him] at hm; exact .inl ⟨Ne.symm him, Ne.symm hjm, hm⟩
        refine ⟨fun m o hm => ?_, fun m n o hm hn => ?_⟩
        · rcases key m o hm with ⟨_, _, h1⟩ | ⟨_, rfl⟩
          · exact h.alive m o h1
          · exact h.alive j o hp
        · rcases key m o hm with ⟨a1, a2, a3⟩ | ⟨a1, a2⟩ <;> rcases key n o hn with ⟨b1, b2, b3⟩ | ⟨b1, b2⟩
          · exact h.apart m n o a3 b3
          · subst b2; exact absurd (h.apart m j o a3 hp) a2
          · subst a2; exact absurd (h.apart n j o b3 hp) b2
          · omega
    · simp at hs
  | destroy i =>
    simp only [step] at hs
    split at hs
    · simp at hs
    · next p hp =>
      cases hs
      have hp := pointer_some hp
      have hli : i < w.vars.length := by rw [List.getElem?_eq_some_iff] at hp; exact hp.1
      have key : ∀ (m o : Nat), (w.vars.set i none)[m]? = some (some (some o)) → w.vars[m]? = some (some (some o)) := by
        intro m o hm
        by_cases him : i = m
        · subst him; rw [List.getElem?_set_self hli] at hm; simp at hm
        · rw [List.getElem?_set_ne him] at hm; exact hm
      exact ⟨fun m o hm => h.alive m o (key m o hm), fun m n o hm hn => h.apart m n o (key m o hm) (key n o hn)⟩
  | allocate i k =>
    simp only [step] at hs
    split at hs
    · simp at hs
    · next p hp =>
      cases hs
      have hp := pointer_some hp
      have hli : i < w.vars.length := by rw [List.getElem?_eq_some_iff] at hp; exact hp.1
      have key : ∀ (m o : Nat), (w.vars.set i (some (some w.objs.length)))[m]? = some (some (some o)) →
          (m ≠ i ∧ w.vars[m]? = some (some (some o))) ∨ (m = i ∧ o = w.objs.length) := by
        intro m o hm
        by_cases him : i = m
        · subst him; rw [List.getElem?_set_self hli] at hm; simp at hm; exact .inr ⟨rfl, hm.symm⟩
        · rw [List.getElem?_set_ne him] at hm; exact .inl ⟨Ne.symm him, hm⟩
      have lt : ∀ (m o : Nat), w.vars[m]? = some (some (some o)) → o < w.objs.length := by
        intro m o hm
        obtain ⟨k, hk⟩ := h.alive m o hm
        rw [List.getElem?_eq_some_iff] at hk; exact hk.1
      refine ⟨fun m o hm => ?_, fun m n o hm hn => ?_⟩
      · rcases key m o hm with ⟨_, h1⟩ | ⟨_, rfl⟩
        · obtain ⟨k', hk⟩ := h.alive m o h1
          exact ⟨k', by simp only; rw [List.getElem?_append_left (lt m o h1)]; exact hk⟩
        · exact ⟨k, by simp⟩
      · rcases key m o hm with ⟨_, a3⟩ | ⟨a1, a2⟩ <;> rcases key n o hn with ⟨_, b3⟩ | ⟨b1, b2⟩
        · exact h.apart m n o a3 b3
        · have := lt m o a3; omega
        · have := lt n o b3; omega
        · omega
  | call i c arg =>
    obtain ⟨o, k, _, ho, ⟨h0, rfl⟩ | ⟨_, rfl⟩⟩ := call_ok hs
    · exact absurd h0 ha
    · exact ⟨h.alive, h.apart⟩
  | free i =>
    simp only [step] at hs
    split at hs
    · next w1 hc =>
      obtain ⟨o, k, hi, ho, ⟨_, rfl⟩ | ⟨h0, _⟩⟩ := call_ok hc
      · simp only [Res.ok.injEq] at hs
        subst hs
        have hli : i < w.vars.length := by rw [List.getElem?_eq_some_iff] at hi; exact hi.1
        have key : ∀ (m p : Nat), (w.vars.set i (some none))[m]? = some (some (some p)) → m ≠ i ∧ w.vars[m]? = some (some (some p)) := by
          intro m p hm
          by_cases him : i = m
          · subst him; rw [List.getElem?_set_self hli] at hm; simp at hm
          · rw [List.getElem?_set_ne him] at hm; exact ⟨Ne.symm him, hm⟩
        refine ⟨fun m p hm => ?_, fun m n p hm hn => h.apart m n p (key m p hm).2 (key n p hn).2⟩
        obtain ⟨h1, h2⟩ := key m p hm
        obtain ⟨k', hk⟩ := h.alive m p h2
        have hne : o ≠ p := by
          intro he; subst he; exact h1 (h.apart m i o h2 hi)
        exact ⟨k', by simp only; rw [List.getElem?_set_ne hne]; exact hk⟩
      · exact absurd rfl h0
    · next r hr => exact absurd hs (hr w')

theorem alone_run {concepts : List Nat} : ∀ {as : List Act} {w w' : World}, (∀ a ∈ as, Careful a) → Alone w → run concepts w as = .ok w' → Alone w'
  | [], w, w', _, h, hr => by cases hr; exact h
  | a :: as, w, w', ha, h, hr => by
    simp only [run] at hr
    split at hr
    · next w1 hs => exact alone_run (fun b hb => ha b (List.mem_cons_of_mem _ hb)) (alone_step (ha a List.mem_cons_self) h hs) hr
    · next r hs => exact absurd hr (hs w')

/-- If erasures are only moved, an erasure that is not empty refers to a live object of its own: a call of a concept it has is defined. -/
theorem moved_only_partial {concepts : List Nat} {as : List Act} {w : World} (ha : ∀ a ∈ as, Careful a) (h : run concepts init as = .ok w) {i o : Nat}
    (hp : w.vars[i]? = some (some (some o))) :
    (∃ k, w.objs[o]? = some (k, true)) ∧ (∀ j : Nat, w.vars[j]? = some (some (some o)) → j = i) ∧
      ∀ c ∈ concepts, ∀ arg, ∃ w', step concepts w (.call i c arg) = .ok w' := by
  have := alone_run ha ⟨fun i o ho => by simp [init] at ho, fun i j o ho => by simp [init] at ho⟩ h
  obtain ⟨k, hk⟩ := this.alive i o hp
  refine ⟨⟨k, hk⟩, fun j hj => this.apart j i o hj hp, fun c hc arg => ?_⟩
  simp only [step, call, pointer, hp, hk, dispatch, if_pos (Or.inr hc : c = destructor ∨ c ∈ concepts)]
  exact ⟨_, rfl⟩

example : run [7, 9] init [.make, .allocate 0 5, .moveCtor 0, .call 1 9 3, .free 1] =
    .ok ⟨[some none, some none], [(5, false)], [.applied 0 5 9 3, .destroyed 0 5]⟩ := by decide

/-- A copy refers to the same object: freeing both destroys it twice, which is undefined. -/
theorem copy_violated : run [7] init [.make, .allocate 0 5, .copyCtor 0, .free 0, .free 1] = .ub ∧ run [7] init [.make, .allocate 0 5, .copyCtor 0, .free 0, .call 1 7 0] = .ub := by
  decide

/-- An erasure does not destroy its object: without `Free` it is lost, when the erasure is destroyed or assigned to. -/
theorem lost_violated : run [7] init [.make, .allocate 0 5, .destroy 0] = .ok ⟨[none], [(5, true)], []⟩ ∧
    run [7] init [.make, .allocate 0 5, .make, .moveAssign 0 1] = .ok ⟨[some none, some none], [(5, true)], []⟩ := by decide

end Verif.Holder.Erasure
