import Verif.Single.Safe

/-
Properties of `SafeSingleton`, property C122.
-/
namespace Verif.Single.Safe

/-! ## Specification -/

/-- The state is reached from the start of the program. -/
def Reachable (s : St) : Prop := ∃ acts, run init acts = some s

/-- Object `o` has been made and not deleted. -/
def St.Alive (s : St) (o : Nat) : Prop := s.objs[o]? = some 0

/-- A caller has a `shared_ptr` to object `o`. -/
def St.Owned (s : St) (o : Nat) : Prop := Phase.holding o ∈ s.calls

/-- Nothing is going on: every call has returned and nobody has a `shared_ptr`. -/
def St.Quiet (s : St) : Prop := ∀ p ∈ s.calls, p = .null ∨ p = .finished

/-! ## Invariant -/

/-- runs the initialization -/
def Phase.initing : Phase → Bool
  | .creating => true | .created _ => true | .stored => true | _ => false

/-- has a reference -/
def Phase.owns : Phase → Bool
  | .got => true | .holding _ => true | .removing => true | _ => false

/-- will delete -/
def Phase.dels : Phase → Bool
  | .deleting => true | _ => false

structure Inv (s : St) : Prop where
  early : s.once ≠ .done → ∀ p ∈ s.calls, p = .start ∨ p.initing = true
  inits : s.calls.countP Phase.initing = if s.once = .running then 1 else 0
  refs : s.rc = s.calls.countP Phase.owns + s.holder.toNat
  hold : s.holder = true → s.once = .done
  counted : 0 < s.rc → s.inst = some 0 ∧ s.objs = [0]
  dels : s.calls.countP Phase.dels ≤ 1
  del : 0 < s.calls.countP Phase.dels → s.rc = 0 ∧ s.inst = some 0 ∧ s.objs = [0] ∧ s.once = .done
  creating : .creating ∈ s.calls → s.objs = [] ∧ s.inst = none
  created (o : Nat) : Phase.created o ∈ s.calls → s.objs = [0] ∧ o = 0 ∧ s.inst = none
  stored : .stored ∈ s.calls → s.objs = [0] ∧ s.inst = some 0
  fresh : s.once = .fresh → s.objs = [] ∧ s.inst = none ∧ s.attempts = 0
  objs : s.objs = [] ∨ s.objs = [0] ∨ s.objs = [1]
  gone : s.objs = [1] → s.once = .done ∧ s.rc = 0
  holding (o : Nat) : Phase.holding o ∈ s.calls → o = 0
  kept : s.objs = [0] → s.once = .done → 0 < s.rc ∨ 0 < s.calls.countP Phase.dels
  attempts : s.attempts ≤ 1

theorem countP_set (P : Phase → Bool) : ∀ (l : List Phase) (c : Nat) (p q : Phase), l[c]? = some p →
    (l.set c q).countP P + (P p).toNat = l.countP P + (P q).toNat
  | [], _, _, _, h => by simp at h
  | x :: l, 0, p, q, h => by
    simp only [List.getElem?_cons_zero, Option.some.injEq] at h; subst h
    simp only [List.set_cons_zero, List.countP_cons]
    cases P x <;> cases P q <;> simp <;> omega
  | x :: l, c + 1, p, q, h => by
    simp only [List.getElem?_cons_succ] at h
    have := countP_set P l c p q h
    simp only [List.set_cons_succ, List.countP_cons]
    omega

theorem mem_set {l : List Phase} {c : Nat} {q x : Phase} (h : x ∈ l.set c q) : x ∈ l ∨ x = q :=
  List.mem_or_eq_of_mem_set h

theorem countP_pos {P : Phase → Bool} {l : List Phase} {p : Phase} (h : p ∈ l) (hp : P p = true) : 0 < l.countP P :=
  List.countP_pos_iff.mpr ⟨p, h, hp⟩

theorem init_inv : Inv init := by
  constructor <;> simp [init]

/-- In a phase before or in `call_once`, no reference is there. -/
theorem Inv.early_counts {s : St} (h : Inv s) (hd : s.once ≠ .done) :
    s.calls.countP Phase.owns = 0 ∧ s.calls.countP Phase.dels = 0 ∧ s.holder = false := by
  refine ⟨?_, ?_, ?_⟩
  · refine List.countP_eq_zero.mpr fun p hp => ?_
    rcases h.early hd p hp with e | e
    · subst e; decide
    · cases p <;> simp_all [Phase.initing, Phase.owns]
  · refine List.countP_eq_zero.mpr fun p hp => ?_
    rcases h.early hd p hp with e | e
    · subst e; decide
    · cases p <;> simp_all [Phase.initing, Phase.dels]
  · cases hh : s.holder
    · rfl
    · exact absurd (h.hold hh) hd

/-- A step of a call that changes only where the call is. -/
theorem move {s : St} (h : Inv s) {c : Nat} {p q : Phase} (hc : s.calls[c]? = some p) (hd : s.once = .done)
    (hip : p.initing = false) (hi : q.initing = false) (ho : p.owns = q.owns) (hdl : p.dels = q.dels)
    (hh : ∀ o, q = .holding o → o = 0) : Inv (s.at c q) := by
  have ci : (s.at c q).calls.countP Phase.initing = s.calls.countP Phase.initing := by
    have := countP_set Phase.initing s.calls c p q hc
    rw [hip, hi] at this; simp only [St.at]; omega
  have co : (s.at c q).calls.countP Phase.owns = s.calls.countP Phase.owns := by
    have := countP_set Phase.owns s.calls c p q hc
    rw [ho] at this; simp only [St.at]; omega
  have cd : (s.at c q).calls.countP Phase.dels = s.calls.countP Phase.dels := by
    have := countP_set Phase.dels s.calls c p q hc
    rw [hdl] at this; simp only [St.at]; omega
  have hm (x : Phase) (hx : x ∈ (s.at c q).calls) : x ∈ s.calls ∨ x = q := mem_set hx
  have hni (x : Phase) (hx : x ∈ (s.at c q).calls) (hxi : x.initing = true) : x ∈ s.calls := by
    rcases hm x hx with e | e
    · exact e
    · subst e; rw [hi] at hxi; cases hxi
  exact {
    early := fun hn => absurd hd hn
    inits := ci.trans h.inits
    refs := by rw [co]; exact h.refs
    hold := h.hold
    counted := h.counted
    dels := by rw [cd]; exact h.dels
    del := by rw [cd]; exact h.del
    creating := fun hx => h.creating (hni _ hx rfl)
    created := fun o hx => h.created o (hni _ hx rfl)
    stored := fun hx => h.stored (hni _ hx rfl)
    fresh := h.fresh
    objs := h.objs
    gone := h.gone
    holding := fun o hx => (hm _ hx).elim (h.holding o) (fun e => hh o e.symm)
    kept := by rw [cd]; exact h.kept
    attempts := h.attempts }

/-- If some call is in the initialization, the flag says so and it is the only one. -/
theorem Inv.initing_running {s : St} (h : Inv s) {c : Nat} {p : Phase} (hc : s.calls[c]? = some p) (hp : p.initing = true) :
    s.once = .running ∧ s.calls.countP Phase.initing = 1 := by
  have := countP_pos (List.mem_of_getElem? hc) hp
  have hi := h.inits
  by_cases hr : s.once = .running
  · rw [if_pos hr] at hi; exact ⟨hr, hi⟩
  · rw [if_neg hr] at hi; omega

/-- If a call is not in the beginning, the initialization is over. -/
theorem Inv.late {s : St} (h : Inv s) {c : Nat} {p : Phase} (hc : s.calls[c]? = some p) (hp : p.initing = false) (hs : p ≠ .start) :
    s.once = .done := by
  cases ho : s.once with
  | done => rfl
  | _ => exact absurd (h.early (by rw [ho]; exact fun e => nomatch e) p (List.mem_of_getElem? hc)) (by rw [hp]; simp [hs])

/-- A step inside the initialization: what is there afterwards. -/
theorem init_move {s : St} (h : Inv s) {c : Nat} {p q : Phase} (hc : s.calls[c]? = some p)
    (hp : p.initing = true ∨ p = .start ∧ s.once = .fresh) (hqo : q.owns = false) (hqd : q.dels = false) :
    (s.calls.set c q).countP Phase.owns = 0 ∧ (s.calls.set c q).countP Phase.dels = 0 ∧
    (s.calls.set c q).countP Phase.initing = q.initing.toNat ∧ s.holder = false ∧ s.rc = 0 ∧
    (∀ x ∈ s.calls.set c q, x = .start ∨ x = q) := by
  have hnd : s.once ≠ .done := by
    rcases hp with hp | ⟨_, hf⟩
    · rw [(h.initing_running hc hp).1]; exact fun e => nomatch e
    · rw [hf]; exact fun e => nomatch e
  obtain ⟨e1, e2, e3⟩ := h.early_counts hnd
  have po : p.owns = false := by
    rcases hp with hp | ⟨rfl, _⟩
    · cases p <;> simp_all [Phase.initing, Phase.owns]
    · rfl
  have pd : p.dels = false := by
    rcases hp with hp | ⟨rfl, _⟩
    · cases p <;> simp_all [Phase.initing, Phase.dels]
    · rfl
  have c1 := countP_set Phase.owns s.calls c p q hc
  have c2 := countP_set Phase.dels s.calls c p q hc
  have c3 := countP_set Phase.initing s.calls c p q hc
  rw [po, hqo, e1] at c1
  rw [pd, hqd, e2] at c2
  have c3' : (s.calls.set c q).countP Phase.initing = q.initing.toNat := by
    rcases hp with hp | ⟨rfl, hf⟩
    · rw [hp, (h.initing_running hc hp).2] at c3
      simp only [Bool.toNat_true] at c3; omega
    · have hi := h.inits
      rw [hf, if_neg (fun e => nomatch e)] at hi
      rw [hi, show Phase.start.initing = false from rfl] at c3
      simp only [Bool.toNat_false] at c3; omega
  refine ⟨by simpa using c1, by simpa using c2, c3', e3, ?_, ?_⟩
  · have := h.refs; rw [e1, e3] at this; simpa using this
  · intro x hx
    obtain ⟨i, hi, hxi⟩ := List.mem_iff_getElem.mp hx
    by_cases hic : c = i
    · subst hic; rw [List.getElem_set_self] at hxi; exact Or.inr hxi.symm
    · rw [List.getElem_set_ne hic] at hxi
      have hi' : i < s.calls.length := by simpa using hi
      have hxm : x ∈ s.calls := hxi ▸ List.getElem_mem hi'
      rcases h.early hnd x hxm with e | e
      · exact Or.inl e
      · exfalso
        have hpos : 0 < (s.calls.set c .start).countP Phase.initing := by
          refine countP_pos (p := x) ?_ e
          rw [List.mem_iff_getElem]
          exact ⟨i, by simpa using hi', by rw [List.getElem_set_ne hic]; exact hxi⟩
        have c4 := countP_set Phase.initing s.calls c p .start hc
        rcases hp with hp | ⟨rfl, hf⟩
        · rw [hp, (h.initing_running hc hp).2] at c4
          simp only [Phase.initing, Bool.toNat_true, Bool.toNat_false] at c4; omega
        · have hii := h.inits
          rw [hf, if_neg (fun e => nomatch e)] at hii
          have := countP_pos hxm e
          omega

theorem step_call {s : St} (h : Inv s) : Inv { s with calls := s.calls ++ [.start] } := by
  have hm (x : Phase) (hx : x ∈ s.calls ++ [Phase.start]) (hn : x ≠ .start) : x ∈ s.calls := by
    rcases List.mem_append.mp hx with e | e
    · exact e
    · exact absurd (List.mem_singleton.mp e) hn
  have cs (P : Phase → Bool) (hP : P .start = false) : (s.calls ++ [Phase.start]).countP P = s.calls.countP P := by
    rw [List.countP_append]; simp [hP]
  exact {
    early := fun hn p hp => by
      by_cases hs : p = .start
      · exact Or.inl hs
      · exact h.early hn p (hm p hp hs)
    inits := (cs _ rfl).trans h.inits
    refs := by rw [cs _ rfl]; exact h.refs
    hold := h.hold
    counted := h.counted
    dels := by rw [cs _ rfl]; exact h.dels
    del := by rw [cs _ rfl]; exact h.del
    creating := fun hx => h.creating (hm _ hx (fun e => nomatch e))
    created := fun o hx => h.created o (hm _ hx (fun e => nomatch e))
    stored := fun hx => h.stored (hm _ hx (fun e => nomatch e))
    fresh := h.fresh
    objs := h.objs
    gone := h.gone
    holding := fun o hx => h.holding o (hm _ hx (fun e => nomatch e))
    kept := by rw [cs _ rfl]; exact h.kept
    attempts := h.attempts }

theorem step_exit {s : St} (h : Inv s) (hh : s.holder = true) : Inv { s with holder := false, calls := s.calls ++ [.removing] } := by
  have hm (x : Phase) (hx : x ∈ s.calls ++ [Phase.removing]) (hn : x ≠ .removing) : x ∈ s.calls := by
    rcases List.mem_append.mp hx with e | e
    · exact e
    · exact absurd (List.mem_singleton.mp e) hn
  have cs (P : Phase → Bool) (hP : P .removing = false) : (s.calls ++ [Phase.removing]).countP P = s.calls.countP P := by
    rw [List.countP_append]; simp [hP]
  exact {
    early := fun hn => absurd (h.hold hh) hn
    inits := (cs _ rfl).trans h.inits
    refs := by
      rw [List.countP_append]
      have := h.refs
      rw [hh] at this
      exact this
    hold := fun e => nomatch e
    counted := h.counted
    dels := by rw [cs _ rfl]; exact h.dels
    del := by rw [cs _ rfl]; exact h.del
    creating := fun hx => h.creating (hm _ hx (fun e => nomatch e))
    created := fun o hx => h.created o (hm _ hx (fun e => nomatch e))
    stored := fun hx => h.stored (hm _ hx (fun e => nomatch e))
    fresh := h.fresh
    objs := h.objs
    gone := h.gone
    holding := fun o hx => h.holding o (hm _ hx (fun e => nomatch e))
    kept := by rw [cs _ rfl]; exact h.kept
    attempts := h.attempts }

theorem go_start {s : St} (h : Inv s) {c : Nat} (hc : s.calls[c]? = some .start) (hf : s.once = .fresh) :
    Inv ({ s with once := .running, attempts := s.attempts + 1 }.at c .creating) := by
  obtain ⟨e1, e2, e3, e4, e5, e6⟩ := init_move h (q := .creating) hc (Or.inr ⟨rfl, hf⟩) rfl rfl
  have hfr := h.fresh hf
  have hm (x : Phase) (hx : x ∈ s.calls.set c .creating) (h1 : x ≠ .start) (h2 : x ≠ .creating) : False :=
    (e6 x hx).elim h1 h2
  exact {
    early := fun _ p hp => (e6 p hp).imp id (fun e => by rw [e]; rfl)
    inits := e3
    refs := by simp only [St.at]; rw [e1, e4, e5]; rfl
    hold := fun e => by simp only [St.at] at e; rw [e4] at e; cases e
    counted := fun e => by simp only [St.at] at e; omega
    dels := by simp only [St.at]; omega
    del := fun e => by simp only [St.at] at e; omega
    creating := fun _ => ⟨hfr.1, hfr.2.1⟩
    created := fun o hx => (hm _ hx (fun e => nomatch e) (fun e => nomatch e)).elim
    stored := fun hx => (hm _ hx (fun e => nomatch e) (fun e => nomatch e)).elim
    fresh := fun e => nomatch e
    objs := h.objs
    gone := fun e => by simp only [St.at] at e; rw [hfr.1] at e; cases e
    holding := fun o hx => (hm _ hx (fun e => nomatch e) (fun e => nomatch e)).elim
    kept := fun _ e => nomatch e
    attempts := by simp only [St.at]; omega }

theorem go_creating {s : St} (h : Inv s) {c : Nat} (hc : s.calls[c]? = some .creating) :
    Inv ({ s with objs := s.objs ++ [0] }.at c (.created s.objs.length)) := by
  obtain ⟨e1, e2, e3, e4, e5, e6⟩ := init_move h (q := .created s.objs.length) hc (Or.inl rfl) rfl rfl
  have hr := (h.initing_running hc rfl).1
  have hcr := h.creating (List.mem_of_getElem? hc)
  have hm (x : Phase) (hx : x ∈ s.calls.set c (.created s.objs.length)) (h1 : x ≠ .start) : x = .created s.objs.length :=
    (e6 x hx).resolve_left h1
  exact {
    early := fun _ p hp => (e6 p hp).imp id (fun e => by rw [e]; rfl)
    inits := e3.trans (if_pos hr).symm
    refs := by simp only [St.at]; rw [e1, e4, e5]; rfl
    hold := fun e => by simp only [St.at] at e; rw [e4] at e; cases e
    counted := fun e => by simp only [St.at] at e; omega
    dels := by simp only [St.at]; omega
    del := fun e => by simp only [St.at] at e; omega
    creating := fun hx => nomatch hm _ hx (fun e => nomatch e)
    created := fun o hx => by
      have := hm _ hx (fun e => nomatch e)
      rw [hcr.1] at this
      cases this
      exact ⟨by simp only [St.at]; rw [hcr.1]; rfl, rfl, hcr.2⟩
    stored := fun hx => nomatch hm _ hx (fun e => nomatch e)
    fresh := fun e => by simp only [St.at] at e; rw [hr] at e; cases e
    objs := by simp only [St.at]; rw [hcr.1]; simp
    gone := fun e => by simp only [St.at] at e; rw [hcr.1] at e; simp at e
    holding := fun o hx => nomatch hm _ hx (fun e => nomatch e)
    kept := fun _ e => by simp only [St.at] at e; rw [hr] at e; cases e
    attempts := h.attempts }

theorem go_created {s : St} (h : Inv s) {c o : Nat} (hc : s.calls[c]? = some (.created o)) :
    Inv ({ s with inst := some o }.at c .stored) := by
  obtain ⟨e1, e2, e3, e4, e5, e6⟩ := init_move h (q := .stored) hc (Or.inl rfl) rfl rfl
  have hr := (h.initing_running hc rfl).1
  have hcr := h.created o (List.mem_of_getElem? hc)
  have hm (x : Phase) (hx : x ∈ s.calls.set c .stored) (h1 : x ≠ .start) : x = .stored :=
    (e6 x hx).resolve_left h1
  exact {
    early := fun _ p hp => (e6 p hp).imp id (fun e => by rw [e]; rfl)
    inits := e3.trans (if_pos hr).symm
    refs := by simp only [St.at]; rw [e1, e4, e5]; rfl
    hold := fun e => by simp only [St.at] at e; rw [e4] at e; cases e
    counted := fun e => by simp only [St.at] at e; omega
    dels := by simp only [St.at]; omega
    del := fun e => by simp only [St.at] at e; omega
    creating := fun hx => nomatch hm _ hx (fun e => nomatch e)
    created := fun o hx => nomatch hm _ hx (fun e => nomatch e)
    stored := fun _ => ⟨hcr.1, by simp only [St.at]; rw [hcr.2.1]⟩
    fresh := fun e => by simp only [St.at] at e; rw [hr] at e; cases e
    objs := h.objs
    gone := fun e => by simp only [St.at] at e; rw [hcr.1] at e; simp at e
    holding := fun o hx => nomatch hm _ hx (fun e => nomatch e)
    kept := fun _ e => by simp only [St.at] at e; rw [hr] at e; cases e
    attempts := h.attempts }

theorem go_stored {s : St} (h : Inv s) {c : Nat} (hc : s.calls[c]? = some .stored) :
    Inv ({ s with rc := 1, holder := true, once := .done }.at c .ready) := by
  obtain ⟨e1, e2, e3, e4, e5, e6⟩ := init_move h (q := .ready) hc (Or.inl rfl) rfl rfl
  have hcr := h.stored (List.mem_of_getElem? hc)
  have hm (x : Phase) (hx : x ∈ s.calls.set c .ready) (h1 : x ≠ .start) : x = .ready :=
    (e6 x hx).resolve_left h1
  exact {
    early := fun hn => absurd rfl hn
    inits := e3
    refs := by simp only [St.at]; rw [e1]; rfl
    hold := fun _ => rfl
    counted := fun _ => ⟨hcr.2, hcr.1⟩
    dels := by simp only [St.at]; omega
    del := fun e => by simp only [St.at] at e; omega
    creating := fun hx => nomatch hm _ hx (fun e => nomatch e)
    created := fun o hx => nomatch hm _ hx (fun e => nomatch e)
    stored := fun hx => nomatch hm _ hx (fun e => nomatch e)
    fresh := fun e => nomatch e
    objs := h.objs
    gone := fun e => by simp only [St.at] at e; rw [hcr.1] at e; simp at e
    holding := fun o hx => nomatch hm _ hx (fun e => nomatch e)
    kept := fun _ _ => Or.inl (by simp only [St.at]; omega)
    attempts := h.attempts }

theorem step_throw {s : St} (h : Inv s) {c : Nat} (hc : s.calls[c]? = some .creating) :
    Inv ({ s with once := .done }.at c .ready) := by
  obtain ⟨e1, e2, e3, e4, e5, e6⟩ := init_move h (q := .ready) hc (Or.inl rfl) rfl rfl
  have hcr := h.creating (List.mem_of_getElem? hc)
  have hm (x : Phase) (hx : x ∈ s.calls.set c .ready) (h1 : x ≠ .start) : x = .ready :=
    (e6 x hx).resolve_left h1
  exact {
    early := fun hn => absurd rfl hn
    inits := e3
    refs := by simp only [St.at]; rw [e1, e4, e5]; rfl
    hold := fun _ => rfl
    counted := fun e => by simp only [St.at] at e; omega
    dels := by simp only [St.at]; omega
    del := fun e => by simp only [St.at] at e; omega
    creating := fun hx => nomatch hm _ hx (fun e => nomatch e)
    created := fun o hx => nomatch hm _ hx (fun e => nomatch e)
    stored := fun hx => nomatch hm _ hx (fun e => nomatch e)
    fresh := fun e => nomatch e
    objs := h.objs
    gone := fun e => by simp only [St.at] at e; rw [hcr.1] at e; simp at e
    holding := fun o hx => nomatch hm _ hx (fun e => nomatch e)
    kept := fun e => by simp only [St.at] at e; rw [hcr.1] at e; simp at e
    attempts := h.attempts }

/-- A step that changes the counter or deletes. -/
theorem count_move {s : St} (h : Inv s) {c : Nat} {p q : Phase} (hc : s.calls[c]? = some p) (hip : p.initing = false) (hps : p ≠ .start)
    (hi : q.initing = false) (hh : ∀ o, q ≠ .holding o) {rc : Nat} {objs : List Nat}
    (hrc : rc + p.owns.toNat = s.rc + q.owns.toNat)
    (h1 : 0 < rc → s.inst = some 0 ∧ objs = [0])
    (h2 : (s.calls.set c q).countP Phase.dels ≤ 1)
    (h3 : 0 < (s.calls.set c q).countP Phase.dels → rc = 0 ∧ s.inst = some 0 ∧ objs = [0])
    (h4 : objs = s.objs ∨ objs = [1]) (h5 : objs = [1] → rc = 0)
    (h6 : objs = [0] → 0 < rc ∨ 0 < (s.calls.set c q).countP Phase.dels) :
    Inv ({ s with rc := rc, objs := objs }.at c q) := by
  have hd := h.late hc hip hps
  have ci := countP_set Phase.initing s.calls c p q hc
  rw [hip, hi] at ci
  have co := countP_set Phase.owns s.calls c p q hc
  have hni (x : Phase) (hx : x ∈ s.calls.set c q) (hxi : x.initing = true) : x ∈ s.calls := by
    rcases mem_set hx with e | e
    · exact e
    · subst e; rw [hi] at hxi; cases hxi
  have hno (x : Phase) (hx : x ∈ s.calls) : x.initing = false := by
    cases hx' : x.initing
    · rfl
    · have := countP_pos hx hx'
      have hi := h.inits
      rw [hd, if_neg (fun e => nomatch e)] at hi
      omega
  exact {
    early := fun hn => absurd hd hn
    inits := (show (s.calls.set c q).countP Phase.initing = s.calls.countP Phase.initing by omega).trans h.inits
    refs := by have := h.refs; simp only [St.at]; omega
    hold := h.hold
    counted := h1
    dels := h2
    del := fun e => ⟨(h3 e).1, (h3 e).2.1, (h3 e).2.2, hd⟩
    creating := fun hx => nomatch hno _ (hni _ hx rfl)
    created := fun o hx => nomatch hno _ (hni _ hx rfl)
    stored := fun hx => nomatch hno _ (hni _ hx rfl)
    fresh := fun e => by simp only [St.at] at e; rw [hd] at e; cases e
    objs := by
      simp only [St.at]
      rcases h4 with e | e
      · rw [e]; exact h.objs
      · exact Or.inr (Or.inr e)
    gone := fun e => ⟨hd, h5 e⟩
    holding := fun o hx => by
      rcases mem_set hx with e | e
      · exact h.holding o e
      · exact absurd e.symm (hh o)
    kept := fun e _ => h6 e
    attempts := h.attempts }

theorem go_inv {s s' : St} (h : Inv s) {c : Nat} {p : Phase} (hc : s.calls[c]? = some p) (hs : go s c p = some s') : Inv s' := by
  cases p with
  | start =>
    simp only [go] at hs
    cases ho : s.once with
    | fresh => rw [ho] at hs; cases hs; exact go_start h hc ho
    | running => rw [ho] at hs; cases hs
    | done => rw [ho] at hs; cases hs; exact move h hc ho rfl rfl rfl rfl (fun _ e => nomatch e)
  | creating => cases hs; exact go_creating h hc
  | created o => cases hs; exact go_created h hc
  | stored => cases hs; exact go_stored h hc
  | ready => cases hs; exact move h hc (h.late hc rfl (fun e => nomatch e)) rfl rfl rfl rfl (fun _ e => nomatch e)
  | loaded r =>
    have hd := h.late hc rfl (fun e => nomatch e)
    simp only [go] at hs
    by_cases hr : r = 0
    · rw [if_pos hr] at hs; cases hs
      exact move h hc hd rfl rfl rfl rfl (fun _ e => nomatch e)
    · rw [if_neg hr] at hs
      by_cases hrc : s.rc = r
      · rw [if_pos hrc] at hs; cases hs
        have hpos : 0 < s.rc := by omega
        have cd := countP_set Phase.dels s.calls c _ .got hc
        have hdel := h.del
        have hdls := h.dels
        simp only [Phase.dels, Bool.toNat_false] at cd
        have hz : s.calls.countP Phase.dels = 0 := by
          rcases Nat.eq_zero_or_pos (s.calls.countP Phase.dels) with e | e
          · exact e
          · have := (hdel e).1; omega
        have cd' : (s.calls.set c .got).countP Phase.dels = 0 := by
          have := countP_set Phase.dels s.calls c _ .got hc
          rw [show (Phase.loaded r).dels = false from rfl, show Phase.got.dels = false from rfl, hz] at this
          simpa using this
        have := count_move (rc := r + 1) (objs := s.objs) h (q := .got) hc rfl (fun e => nomatch e) rfl (fun _ e => nomatch e)
          (by simp only [Phase.owns, Bool.toNat_false, Bool.toNat_true]; omega)
          (fun _ => h.counted hpos) (by omega) (fun e => by omega) (Or.inl rfl)
          (fun e => by have := (h.counted hpos).2; rw [this] at e; simp at e) (fun _ => Or.inl (by omega))
        exact this
      · rw [if_neg hrc] at hs; cases hs
        exact move h hc hd rfl rfl rfl rfl (fun _ e => nomatch e)
  | got =>
    have hd := h.late hc rfl (fun e => nomatch e)
    simp only [go] at hs
    have hpos : 0 < s.rc := by
      have := countP_pos (P := Phase.owns) (List.mem_of_getElem? hc) rfl
      have := h.refs; omega
    rw [(h.counted hpos).1] at hs
    cases hs
    exact move h hc hd rfl rfl rfl rfl (fun o e => by cases e; rfl)
  | holding o => cases hs
  | null => cases hs
  | removing =>
    simp only [go, Option.some.injEq] at hs
    subst hs
    have hpos : 0 < s.rc := by
      have := countP_pos (P := Phase.owns) (List.mem_of_getElem? hc) rfl
      have := h.refs; omega
    have hco := h.counted hpos
    have hz : s.calls.countP Phase.dels = 0 := by
      rcases Nat.eq_zero_or_pos (s.calls.countP Phase.dels) with e | e
      · exact e
      · have := (h.del e).1; omega
    by_cases hone : s.rc - 1 = 0
    · rw [if_pos hone]
      have cd := countP_set Phase.dels s.calls c _ .deleting hc
      rw [show Phase.removing.dels = false from rfl, show Phase.deleting.dels = true from rfl, hz] at cd
      simp only [Bool.toNat_false, Bool.toNat_true] at cd
      exact count_move (rc := s.rc - 1) (objs := s.objs) h (q := .deleting) hc rfl (fun e => nomatch e) rfl (fun _ e => nomatch e)
        (by simp only [Phase.owns, Bool.toNat_false, Bool.toNat_true]; omega)
        (fun e => by omega) (by omega) (fun _ => ⟨hone, hco⟩) (Or.inl rfl) (fun _ => hone) (fun _ => Or.inr (by omega))
    · rw [if_neg hone]
      have cd := countP_set Phase.dels s.calls c _ .finished hc
      rw [show Phase.removing.dels = false from rfl, show Phase.finished.dels = false from rfl, hz] at cd
      simp only [Bool.toNat_false] at cd
      exact count_move (rc := s.rc - 1) (objs := s.objs) h (q := .finished) hc rfl (fun e => nomatch e) rfl (fun _ e => nomatch e)
        (by simp only [Phase.owns, Bool.toNat_false, Bool.toNat_true]; omega)
        (fun _ => hco) (by omega) (fun e => by omega) (Or.inl rfl)
        (fun e => by rw [hco.2] at e; simp at e) (fun _ => Or.inl (by omega))
  | deleting =>
    simp only [go, Option.some.injEq] at hs
    subst hs
    have hpd := countP_pos (P := Phase.dels) (List.mem_of_getElem? hc) rfl
    have hdl := h.dels
    obtain ⟨d1, d2, d3, d4⟩ := h.del hpd
    have cd := countP_set Phase.dels s.calls c _ .finished hc
    rw [show Phase.deleting.dels = true from rfl, show Phase.finished.dels = false from rfl] at cd
    simp only [Bool.toNat_false, Bool.toNat_true] at cd
    have hob : delete s.objs s.inst = [1] := by rw [d2, d3]; rfl
    have := count_move (rc := s.rc) (objs := delete s.objs s.inst) h (q := .finished) hc rfl (fun e => nomatch e) rfl (fun _ e => nomatch e)
      (by simp only [Phase.owns, Bool.toNat_false])
      (fun e => by omega) (by omega) (fun e => by omega) (Or.inr hob) (fun _ => d1) (fun e => by rw [hob] at e; simp at e)
    exact this
  | finished => cases hs

theorem step_inv {s s' : St} {a : Act} (h : Inv s) (hs : step s a = some s') : Inv s' := by
  cases a with
  | call => cases hs; exact step_call h
  | go c =>
    simp only [step] at hs
    cases hc : s.calls[c]? with
    | none => rw [hc] at hs; cases hs
    | some p => rw [hc] at hs; exact go_inv h hc hs
  | throw c =>
    simp only [step] at hs
    split at hs
    · next hc => cases hs; exact step_throw h hc
    · cases hs
  | release c =>
    simp only [step] at hs
    split at hs
    · next hc => cases hs; exact move h hc (h.late hc rfl (fun e => nomatch e)) rfl rfl rfl rfl (fun _ e => nomatch e)
    · cases hs
  | exit =>
    simp only [step] at hs
    by_cases hh : s.holder = true
    · rw [if_pos hh] at hs; cases hs; exact step_exit h hh
    · rw [if_neg hh] at hs; cases hs

theorem run_inv {s s' : St} {acts : List Act} (h : Inv s) (hr : run s acts = some s') : Inv s' := by
  induction acts generalizing s with
  | nil => cases hr; exact h
  | cons a as ih =>
    simp only [run] at hr
    cases hs : step s a with
    | none => rw [hs] at hr; cases hr
    | some s1 => rw [hs] at hr; exact ih (step_inv h hs) hr

theorem Reachable.inv {s : St} (h : Reachable s) : Inv s := by
  obtain ⟨acts, hr⟩ := h
  exact run_inv init_inv hr

/-! ## C122 -/

/-- C122: for every interleaving of any number of calls, releases and the static destructor: the constructor runs at most once, and at most
one object is ever made. -/
theorem safe_one_object {s : St} (h : Reachable s) : s.attempts ≤ 1 ∧ s.objs.length ≤ 1 := by
  have hi := h.inv
  refine ⟨hi.attempts, ?_⟩
  rcases hi.objs with e | e | e <;> rw [e] <;> simp

/-- C122: whoever has a `shared_ptr` has a living object: it is never used after its deletion; all have the same one. -/
theorem safe_owned_alive {s : St} (h : Reachable s) {o : Nat} (ho : s.Owned o) : s.Alive o ∧ o = 0 := by
  have hi := h.inv
  have h0 := hi.holding o ho
  have hpos : 0 < s.rc := by
    have := countP_pos (P := Phase.owns) ho rfl
    have := hi.refs; omega
  refine ⟨?_, h0⟩
  show s.objs[o]? = some 0
  rw [h0, (hi.counted hpos).2]; rfl

/-- C122: until the static destructor has begun, the object stays. -/
theorem safe_alive_before_exit {s : St} (h : Reachable s) (hh : s.holder = true) : s.Alive 0 := by
  have hi := h.inv
  have hpos : 0 < s.rc := by have := hi.refs; rw [hh] at this; simp only [Bool.toNat_true] at this; omega
  show s.objs[0]? = some 0
  rw [(hi.counted hpos).2]; rfl

/-- C122: the object is deleted at most once. -/
theorem safe_deleted_once {s : St} (h : Reachable s) : ∀ n ∈ s.objs, n ≤ 1 := by
  rcases h.inv.objs with e | e | e <;> rw [e] <;> simp

/-- C122: it is not forgotten: once the static destructor and every call are finished and every `shared_ptr` is gone, every object made has been
deleted (exactly once). -/
theorem safe_no_leak {s : St} (h : Reachable s) (hq : s.Quiet) (hd : s.once = .done) (hh : s.holder = false) : ∀ n ∈ s.objs, n = 1 := by
  have hi := h.inv
  have z1 : s.calls.countP Phase.owns = 0 := List.countP_eq_zero.mpr fun p hp => by
    rcases hq p hp with e | e <;> rw [e] <;> decide
  have z2 : s.calls.countP Phase.dels = 0 := List.countP_eq_zero.mpr fun p hp => by
    rcases hq p hp with e | e <;> rw [e] <;> decide
  rcases hi.objs with e | e | e
  · rw [e]; simp
  · exfalso
    have hr := hi.refs
    rw [z1, hh] at hr
    rcases hi.kept e hd with k | k
    · simp at hr; omega
    · omega
  · rw [e]; simp

/-- The counter, once 0 after the initialization, stays 0. -/
theorem zero_step {s s' : St} {a : Act} (hi : Inv s) (hd : s.once = .done) (hz : s.rc = 0) (hs : step s a = some s') :
    s'.once = .done ∧ s'.rc = 0 := by
  have no (c : Nat) (p : Phase) (hc : s.calls[c]? = some p) (hp : p.owns = true) : False := by
    have := countP_pos (P := Phase.owns) (List.mem_of_getElem? hc) hp
    have := hi.refs; omega
  have ni (c : Nat) (p : Phase) (hc : s.calls[c]? = some p) (hp : p.initing = true) : False := by
    have := (hi.initing_running hc hp).1
    rw [hd] at this; cases this
  cases a with
  | call => cases hs; exact ⟨hd, hz⟩
  | go c =>
    simp only [step] at hs
    cases hc : s.calls[c]? with
    | none => rw [hc] at hs; cases hs
    | some p =>
      rw [hc] at hs
      cases p with
      | start => simp only [go] at hs; rw [hd] at hs; cases hs; exact ⟨hd, hz⟩
      | creating => exact (ni _ _ hc rfl).elim
      | created o => exact (ni _ _ hc rfl).elim
      | stored => exact (ni _ _ hc rfl).elim
      | ready => cases hs; exact ⟨hd, hz⟩
      | loaded r =>
        simp only [go] at hs
        by_cases hr : r = 0
        · rw [if_pos hr] at hs; cases hs; exact ⟨hd, hz⟩
        · rw [if_neg hr, if_neg (by omega)] at hs; cases hs; exact ⟨hd, hz⟩
      | got => exact (no _ _ hc rfl).elim
      | holding o => cases hs
      | null => cases hs
      | removing => exact (no _ _ hc rfl).elim
      | deleting => cases hs; exact ⟨hd, hz⟩
      | finished => cases hs
  | throw c =>
    simp only [step] at hs
    split at hs
    · next hc => exact (ni _ _ hc rfl).elim
    · cases hs
  | release c =>
    simp only [step] at hs
    split at hs
    · next hc => exact (no _ _ hc rfl).elim
    · cases hs
  | exit =>
    simp only [step] at hs
    by_cases hh : s.holder = true
    · have := hi.refs; rw [hh] at this; simp at this; omega
    · rw [if_neg hh] at hs; cases hs

theorem zero_run {s s' : St} {acts : List Act} (hi : Inv s) (hd : s.once = .done) (hz : s.rc = 0) (hr : run s acts = some s') :
    s'.once = .done ∧ s'.rc = 0 ∧ Inv s' := by
  induction acts generalizing s with
  | nil => cases hr; exact ⟨hd, hz, hi⟩
  | cons a as ih =>
    simp only [run] at hr
    cases hs : step s a with
    | none => rw [hs] at hr; cases hr
    | some s1 =>
      rw [hs] at hr
      obtain ⟨d, z⟩ := zero_step hi hd hz hs
      exact ih (step_inv hi hs) d z hr

/-- A call that has read 0 or has returned null. -/
def Phase.nothing : Phase → Bool
  | .loaded 0 => true | .null => true | _ => false

/-- Whoever has read 0 or returned null was right and still is. -/
def NullOk (s : St) : Prop := ∀ p ∈ s.calls, p.nothing = true → s.once = .done ∧ s.rc = 0

theorem nullOk_at {s s1 : St} (hi : Inv s) (h : NullOk s) {c : Nat} {p q : Phase} (hc : s.calls[c]? = some p) (hcs : s1.calls = s.calls.set c q)
    (hst : s.once = .done → s.rc = 0 → s1.once = .done ∧ s1.rc = 0)
    (hq : q.nothing = true → s1.once = .done ∧ s1.rc = 0) : NullOk s1 := by
  have _ := hi
  have _ := hc
  intro x hx hn
  rw [hcs] at hx
  rcases mem_set hx with e | e
  · obtain ⟨d, z⟩ := h x e hn
    exact hst d z
  · subst e; exact hq hn

theorem nullOk_step {s s' : St} {a : Act} (hi : Inv s) (h : NullOk s) (hs : step s a = some s') : NullOk s' := by
  have hst (d : s.once = .done) (z : s.rc = 0) := zero_step hi d z hs
  cases a with
  | call =>
    cases hs
    intro x hx hn
    rcases List.mem_append.mp hx with e | e
    · exact h x e hn
    · rw [List.mem_singleton.mp e] at hn; cases hn
  | exit =>
    simp only [step] at hs
    by_cases hh : s.holder = true
    · rw [if_pos hh] at hs; cases hs
      intro x hx hn
      rcases List.mem_append.mp hx with e | e
      · exact h x e hn
      · rw [List.mem_singleton.mp e] at hn; cases hn
    · rw [if_neg hh] at hs; cases hs
  | throw c =>
    simp only [step] at hs
    split at hs
    · next hc => cases hs; exact nullOk_at hi h hc rfl hst (fun e => nomatch e)
    · cases hs
  | release c =>
    simp only [step] at hs
    split at hs
    · next hc => cases hs; exact nullOk_at hi h hc rfl hst (fun e => nomatch e)
    · cases hs
  | go c =>
    simp only [step] at hs
    cases hc : s.calls[c]? with
    | none => rw [hc] at hs; cases hs
    | some p =>
      rw [hc] at hs
      have hin := List.mem_of_getElem? hc
      have rd (hp : p.initing = false) (hps : p ≠ .start) (hn : (Phase.loaded s.rc).nothing = true) : s.once = .done ∧ s.rc = 0 := by
        refine ⟨hi.late hc hp hps, ?_⟩
        cases hz : s.rc with
        | zero => rfl
        | succ n => rw [hz] at hn; cases hn
      cases p with
      | start =>
        simp only [go] at hs
        cases ho : s.once with
        | fresh => rw [ho] at hs; cases hs; exact nullOk_at hi h hc rfl hst (fun e => nomatch e)
        | running => rw [ho] at hs; cases hs
        | done => rw [ho] at hs; cases hs; exact nullOk_at hi h hc rfl hst (fun e => nomatch e)
      | creating => cases hs; exact nullOk_at hi h hc rfl hst (fun e => nomatch e)
      | created o => cases hs; exact nullOk_at hi h hc rfl hst (fun e => nomatch e)
      | stored => cases hs; exact nullOk_at hi h hc rfl hst (fun e => nomatch e)
      | ready => cases hs; exact nullOk_at hi h hc rfl hst (rd rfl (fun e => nomatch e))
      | loaded r =>
        simp only [go] at hs
        by_cases hr : r = 0
        · subst hr; rw [if_pos rfl] at hs; cases hs; exact nullOk_at hi h hc rfl hst (fun _ => h _ hin rfl)
        · rw [if_neg hr] at hs
          by_cases hr2 : s.rc = r
          · rw [if_pos hr2] at hs; cases hs; exact nullOk_at hi h hc rfl hst (fun e => nomatch e)
          · rw [if_neg hr2] at hs; cases hs; exact nullOk_at hi h hc rfl hst (rd rfl (fun e => nomatch e))
      | got =>
        simp only [go] at hs
        cases ho : s.inst with
        | some o => rw [ho] at hs; cases hs; exact nullOk_at hi h hc rfl hst (fun e => nomatch e)
        | none => rw [ho] at hs; cases hs; exact nullOk_at hi h hc rfl hst (fun e => nomatch e)
      | holding o => cases hs
      | null => cases hs
      | removing =>
        simp only [go, Option.some.injEq] at hs
        subst hs
        refine nullOk_at hi h hc rfl hst (fun e => ?_)
        by_cases h1 : s.rc - 1 = 0
        · rw [if_pos h1] at e; cases e
        · rw [if_neg h1] at e; cases e
      | deleting => cases hs; exact nullOk_at hi h hc rfl hst (fun e => nomatch e)
      | finished => cases hs

theorem nullOk_run {s s' : St} {acts : List Act} (hi : Inv s) (h : NullOk s) (hr : run s acts = some s') : NullOk s' := by
  induction acts generalizing s with
  | nil => cases hr; exact h
  | cons a as ih =>
    simp only [run] at hr
    cases hs : step s a with
    | none => rw [hs] at hr; cases hr
    | some s1 => rw [hs] at hr; exact ih (step_inv hi hs) (nullOk_step hi h hs) hr

/-- C122: a call returns null only if there is nothing to return: if any call has returned null, the initialization is over, the static holder
is not there and nobody has the object. -/
theorem safe_null_means_gone {s : St} (h : Reachable s) (hn : .null ∈ s.calls) :
    s.once = .done ∧ s.holder = false ∧ ∀ o, ¬ s.Owned o := by
  have hi := h.inv
  obtain ⟨acts, hr⟩ := h
  have hno : NullOk s := nullOk_run init_inv (fun p hp => by simp [init] at hp) hr
  obtain ⟨d, z⟩ := hno _ hn rfl
  have hrf := hi.refs
  refine ⟨d, ?_, fun o ho => ?_⟩
  · cases hh : s.holder
    · rfl
    · rw [hh, z] at hrf; simp at hrf
  · have := countP_pos (P := Phase.owns) ho rfl
    omega

/-- C122: after the deletion, or after the constructor has thrown, nobody gets the object any more, whatever happens: no later call returns
a pointer, no second object is made. -/
theorem safe_gone_for_ever {s s' : St} {acts : List Act} (h : Reachable s)
    (hg : s.objs = [1] ∨ s.objs = [] ∧ s.once = .done) (hr : run s acts = some s') (o : Nat) :
    ¬ s'.Owned o ∧ ¬ s'.Alive o := by
  have hi := h.inv
  have hz : s.once = .done ∧ s.rc = 0 := by
    rcases hg with e | ⟨e, d⟩
    · exact hi.gone e
    · refine ⟨d, ?_⟩
      rcases Nat.eq_zero_or_pos s.rc with z | z
      · exact z
      · have := (hi.counted z).2; rw [e] at this; cases this
  obtain ⟨d, z, hi'⟩ := zero_run hi hz.1 hz.2 hr
  have keep : s'.objs ≠ [0] := by
    have aux : ∀ (acts : List Act) (s : St), Inv s → s.once = .done → s.rc = 0 → s.objs ≠ [0] → run s acts = some s' → s'.objs ≠ [0] := by
      intro acts
      induction acts with
      | nil => intro s _ _ _ hn hr; cases hr; exact hn
      | cons a as ih =>
        intro s hi hd hz hn hr
        simp only [run] at hr
        cases hs : step s a with
        | none => rw [hs] at hr; cases hr
        | some s1 =>
          rw [hs] at hr
          obtain ⟨d1, z1⟩ := zero_step hi hd hz hs
          refine ih s1 (step_inv hi hs) d1 z1 ?_ hr
          intro e0
          -- a state with the object there and nobody counted has somebody about to delete it; the step before it had, too
          have nd : s.calls.countP Phase.dels = 0 := by
            rcases Nat.eq_zero_or_pos (s.calls.countP Phase.dels) with e | e
            · exact e
            · exact absurd (hi.del e).2.2.1 hn
          have same : s1.objs = s.objs := by
            cases a with
            | call => cases hs; rfl
            | go c =>
              simp only [step] at hs
              cases hc : s.calls[c]? with
              | none => rw [hc] at hs; cases hs
              | some p =>
                rw [hc] at hs
                cases p with
                | start => simp only [go] at hs; rw [hd] at hs; cases hs; rfl
                | creating =>
                  have := (hi.initing_running hc rfl).1
                  rw [hd] at this; cases this
                | created o => cases hs; rfl
                | stored => cases hs; rfl
                | ready => cases hs; rfl
                | loaded r =>
                  simp only [go] at hs
                  by_cases hr : r = 0
                  · rw [if_pos hr] at hs; cases hs; rfl
                  · rw [if_neg hr] at hs
                    by_cases hr2 : s.rc = r
                    · rw [if_pos hr2] at hs; cases hs; rfl
                    · rw [if_neg hr2] at hs; cases hs; rfl
                | got =>
                  simp only [go] at hs
                  split at hs <;> (cases hs; rfl)
                | holding o => cases hs
                | null => cases hs
                | removing => cases hs; rfl
                | deleting =>
                  have := countP_pos (P := Phase.dels) (List.mem_of_getElem? hc) rfl
                  omega
                | finished => cases hs
            | throw c =>
              simp only [step] at hs
              split at hs
              · cases hs; rfl
              · cases hs
            | release c =>
              simp only [step] at hs
              split at hs
              · cases hs; rfl
              · cases hs
            | exit =>
              simp only [step] at hs
              by_cases hh : s.holder = true
              · rw [if_pos hh] at hs; cases hs; rfl
              · rw [if_neg hh] at hs; cases hs
          exact hn (same ▸ e0)
    refine aux acts s hi hz.1 hz.2 ?_ hr
    rcases hg with e | ⟨e, _⟩ <;> rw [e] <;> simp
  refine ⟨?_, ?_⟩
  · intro ho
    have := countP_pos (P := Phase.owns) ho rfl
    have := hi'.refs
    omega
  · intro ha
    rcases hi'.objs with e | e | e
    · rw [St.Alive, e] at ha; simp at ha
    · exact keep e
    · rw [St.Alive, e] at ha
      cases o with
      | zero => simp at ha
      | succ o => simp at ha

/-- C122: a call made while the object is there and that is not disturbed returns it; one made when it is gone returns null. -/
theorem safe_call_returns {s : St} (h : Reachable s) (hd : s.once = .done) :
    ∃ s', run s [.call, .go s.calls.length, .go s.calls.length, .go s.calls.length] = some s' ∧
      if s.rc = 0 then s'.calls = s.calls ++ [.null] ∧ s'.objs = s.objs
      else ∃ s'', run s' [.go s.calls.length] = some s'' ∧ s''.calls = s.calls ++ [.holding 0] ∧ s''.Alive 0 := by
  have hi := h.inv
  have hg (x : Phase) : (s.calls ++ [x])[s.calls.length]? = some x := by simp
  have hset (x y : Phase) : (s.calls ++ [x]).set s.calls.length y = s.calls ++ [y] := by simp
  by_cases hz : s.rc = 0
  · refine ⟨{ s with calls := s.calls ++ [.null] }, ?_, ?_⟩
    · simp only [run, step, hg, go, hd, St.at, hset, hz]
      simp
    · rw [if_pos hz]; exact ⟨rfl, rfl⟩
  · refine ⟨{ s with rc := s.rc + 1, calls := s.calls ++ [.got] }, ?_, ?_⟩
    · simp only [run, step, hg, go, hd, St.at, hset]
      rw [if_neg hz, if_pos trivial]
    · rw [if_neg hz]
      have hc := hi.counted (Nat.pos_of_ne_zero hz)
      refine ⟨{ s with rc := s.rc + 1, calls := s.calls ++ [.holding 0] }, ?_, rfl, ?_⟩
      · simp only [run, step, hg, go, hc.1, St.at, hset]
      · show s.objs[0]? = some 0
        rw [hc.2]; rfl

/-- C122: no deadlock: as long as some call is under way, some call can go on (while a call waits in `call_once`, the one that runs the
initialization can). -/
theorem safe_progress {s : St} (h : Reachable s) {c : Nat} {p : Phase} (hc : s.calls[c]? = some p)
    (hp : p ≠ .null ∧ p ≠ .finished ∧ ∀ o, p ≠ .holding o) : ∃ c' s', step s (.go c') = some s' := by
  have hi := h.inv
  have any (c : Nat) (p : Phase) (hc : s.calls[c]? = some p) (hg : (go s c p).isSome = true) : ∃ c' s', step s (.go c') = some s' := by
    obtain ⟨s', hs'⟩ := Option.isSome_iff_exists.mp hg
    exact ⟨c, s', by simp only [step, hc]; exact hs'⟩
  have fin (c : Nat) (p : Phase) (hc : s.calls[c]? = some p) (hpi : p.initing = true) : ∃ c' s', step s (.go c') = some s' := by
    refine any c p hc ?_
    cases p <;> first | rfl | (cases hpi; done)
  cases p with
  | start =>
    cases ho : s.once with
    | fresh => exact any c _ hc (by simp [go, ho])
    | running =>
      have hi1 := hi.inits
      rw [if_pos ho] at hi1
      obtain ⟨x, hx, hxi⟩ := List.countP_pos_iff.mp (show 0 < s.calls.countP Phase.initing by omega)
      obtain ⟨k, hk⟩ := List.mem_iff_getElem?.mp hx
      exact fin k x hk hxi
    | done => exact any c _ hc (by simp [go, ho])
  | creating => exact any c _ hc rfl
  | created o => exact any c _ hc rfl
  | stored => exact any c _ hc rfl
  | ready => exact any c _ hc rfl
  | loaded r =>
    refine any c _ hc ?_
    simp only [go]
    by_cases h1 : r = 0
    · rw [if_pos h1]; rfl
    · rw [if_neg h1]
      by_cases h2 : s.rc = r
      · rw [if_pos h2]; rfl
      · rw [if_neg h2]; rfl
  | got =>
    refine any c _ hc ?_
    simp only [go]
    cases s.inst <;> rfl
  | holding o => exact absurd rfl (hp.2.2 o)
  | null => exact absurd rfl hp.1
  | removing => exact any c _ hc rfl
  | deleting => exact any c _ hc rfl
  | finished => exact absurd rfl hp.2.1

/-- C122: the loop in which a reference is added is lock-free: a failed exchange means that somebody else has changed the counter since this
call has read it. -/
theorem safe_retry_means_change {s : St} {c r : Nat} {s' : St} (hs : go s c (.loaded r) = some s') (hr : r ≠ 0)
    (hf : s'.calls = s.calls.set c (.loaded s.rc)) (hc : c < s.calls.length) : s.rc ≠ r := by
  intro e
  simp only [go] at hs
  rw [if_neg hr, if_pos e] at hs
  cases hs
  have h1 : ((s.calls.set c Phase.got)[c]? : Option Phase) = (s.calls.set c (.loaded s.rc))[c]? := congrArg (fun l => l[c]?) hf
  rw [List.getElem?_set_self hc, List.getElem?_set_self hc] at h1
  cases h1

/-! ### Examples -/

/-- Two calls, the first makes the object; the static destructor runs while both have it; the second release deletes. -/
def demo : List Act :=
  [.call, .call, .go 0, .go 0, .go 0, .go 0, .go 1, .go 0, .go 1, .go 0, .go 1, .go 0, .go 1, .go 1]

example : (run init demo).map (fun s => (s.calls, s.rc, s.objs)) = some ([.holding 0, .holding 0], 3, [0]) := by decide +kernel

example : (run init (demo ++ [.exit, .go 2, .release 0, .go 0, .release 1, .go 1, .go 1])).map
    (fun s => (s.calls, s.rc, s.objs, s.holder)) = some ([.finished, .finished, .finished], 0, [1], false) := by decide +kernel

/-- afterwards a call returns null -/
example : (run init (demo ++ [.exit, .go 2, .release 0, .go 0, .release 1, .go 1, .go 1, .call, .go 3, .go 3, .go 3])).map
    (fun s => (s.calls.getLast?, s.objs)) = some (some .null, [1]) := by decide +kernel

/-- the constructor throws: null for ever -/
example : (run init [.call, .go 0, .throw 0, .go 0, .go 0, .call, .go 1, .go 1, .go 1]).map
    (fun s => (s.calls, s.objs, s.attempts)) = some ([.null, .null], [], 1) := by decide +kernel

end Verif.Single.Safe
