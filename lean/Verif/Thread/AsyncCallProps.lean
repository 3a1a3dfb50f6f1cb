import Verif.Thread.AsyncCall
import Verif.Thread.FutureProps
/-
C131: asynchronous calls.
-/
namespace Verif.Thread.AsyncCall

open Verif.Thread.Future (set set_self set_ne Res)

/-! ### Specification -/

/-- How a call ended, if the operation ends it. -/
inductive Spec.End where
  | done (o : Outcome)
  | dropped
deriving DecidableEq

def Spec.endBy (i : Nat) : Op → Option Spec.End
  | .finish j o => if j = i then some (.done o) else none
  | .cancel j => if j = i then some .dropped else none
  | _ => none

/-- How the call number i ended. -/
def Spec.ended (ops : List Op) (i : Nat) : Option Spec.End := ops.findSome? (Spec.endBy i)

/-- What the future of the call number i shows. -/
def Spec.shown (ops : List Op) (i : Nat) : Option Res :=
  match Spec.ended ops i with
  | none => none
  | some (.done (.returns v)) => some (.value v)
  | some (.done (.throwsStd e)) => some (.exception e)
  | some (.done .throwsOther) => if .ret i ∈ ops then some .brokenPromise else none
  | some .dropped => if .ret i ∈ ops then some .brokenPromise else none

/-! ### Invariant -/

structure Inv (ops : List Op) (s : State) : Prop where
  len : s.calls.length = ops.count .call
  created : s.fut.created = s.calls.length
  fresh : ∀ i, s.calls.length ≤ i → s.fut.promises i = none ∧ s.fut.cells i = none ∧ Spec.ended ops i = none ∧ .ret i ∉ ops
  call : ∀ (i : Nat) (c : Call), s.calls[i]? = some c → c.task = (Spec.ended ops i).isNone ∧ c.caller = decide (.ret i ∉ ops) ∧
    s.fut.promises i = (if c.task || c.caller then some ⟨i, !c.caller⟩ else none) ∧ s.fut.cells i = Spec.shown ops i

theorem ended_snoc (ops : List Op) (op : Op) (i : Nat) : Spec.ended (ops ++ [op]) i = (Spec.ended ops i).or (Spec.endBy i op) := by
  unfold Spec.ended
  rw [List.findSome?_append]
  simp [List.findSome?]
  cases Spec.endBy i op <;> rfl

theorem ended_other {ops : List Op} {op : Op} {i : Nat} (h : Spec.endBy i op = none) : Spec.ended (ops ++ [op]) i = Spec.ended ops i := by
  rw [ended_snoc, h]; cases Spec.ended ops i <;> rfl

theorem shown_other {ops : List Op} {op : Op} {i : Nat} (h : Spec.endBy i op = none) (hr : op ≠ .ret i) : Spec.shown (ops ++ [op]) i = Spec.shown ops i := by
  have hm : (Op.ret i ∈ ops ++ [op]) ↔ (Op.ret i ∈ ops) := by
    simp only [List.mem_append, List.mem_singleton]
    exact ⟨fun h => h.elim id (fun e => absurd e.symm hr), Or.inl⟩
  unfold Spec.shown
  rw [ended_other h]
  simp only [hm]

theorem init_inv : Inv [] State.init := by
  refine ⟨rfl, rfl, fun i _ => ⟨rfl, rfl, rfl, by simp⟩, ?_⟩
  intro i c h
  simp [State.init] at h

theorem client_inv {ops : List Op} {s s' : State} {a : Future.Act} {op : Op} (i : Inv ops s) (h : client s a = some s')
    (ha : (∃ t k, a = .get t k) ∨ (∃ t k, a = .wait t k) ∨ (∃ t k, a = .share t k) ∨ (∃ t, a = .resume t) ∨ (∃ t, a = .spurious t) ∨ (∃ t b, a = .abort t b))
    (h1 : op ≠ .call) (h2 : ∀ j, Spec.endBy j op = none) (h3 : ∀ j, op ≠ .ret j) : Inv (ops ++ [op]) s' := by
  have key : ∀ o f, Future.step s.fut a = some (o, f) → f.promises = s.fut.promises ∧ f.cells = s.fut.cells ∧ f.created = s.fut.created := by
    intro o f hf
    rcases ha with ⟨t, k, rfl⟩ | ⟨t, k, rfl⟩ | ⟨t, k, rfl⟩ | ⟨t, rfl⟩ | ⟨t, rfl⟩ | ⟨t, b, rfl⟩
    · simp only [Future.step, Future.get] at hf
      split at hf
      · cases hf; exact ⟨rfl, rfl, rfl⟩
      · split at hf <;> (cases hf; exact ⟨rfl, rfl, rfl⟩)
      · cases hf
    · simp only [Future.step, Future.wait] at hf
      split at hf
      · cases hf; exact ⟨rfl, rfl, rfl⟩
      · split at hf <;> (cases hf; exact ⟨rfl, rfl, rfl⟩)
      · cases hf
    · simp only [Future.step, Future.share] at hf
      split at hf
      · cases hf; exact ⟨rfl, rfl, rfl⟩
      · cases hf
    · simp only [Future.step, Future.resume] at hf
      split at hf
      · split at hf <;> (cases hf; exact ⟨rfl, rfl, rfl⟩)
      · cases hf
    · simp only [Future.step, Future.spurious] at hf
      split at hf
      · cases hf; exact ⟨rfl, rfl, rfl⟩
      · cases hf
    · simp only [Future.step, Future.abort] at hf
      split at hf
      · cases hf; exact ⟨rfl, rfl, rfl⟩
      · cases hf
  simp only [client] at h
  obtain ⟨⟨o, f⟩, hf, rfl⟩ := Option.map_eq_some_iff.mp h
  obtain ⟨k1, k2, k3⟩ := key o f hf
  have hret : ∀ j, (Op.ret j ∈ ops ++ [op]) ↔ (Op.ret j ∈ ops) := by
    intro j
    simp only [List.mem_append, List.mem_singleton]
    exact ⟨fun h => h.elim id (fun e => absurd e.symm (h3 j)), Or.inl⟩
  refine ⟨?_, by rw [k3]; exact i.created, ?_, ?_⟩
  · rw [List.count_append, List.count_singleton]
    have hb : (op == Op.call) = false := by simpa using h1
    simp only [hb, Bool.false_eq_true, if_false]; exact i.len
  · intro j hj
    obtain ⟨a1, a2, a3, a4⟩ := i.fresh j hj
    exact ⟨by rw [k1]; exact a1, by rw [k2]; exact a2, by rw [ended_other (h2 j)]; exact a3, fun h => a4 ((hret j).mp h)⟩
  · intro j c hc
    obtain ⟨a1, a2, a3, a4⟩ := i.call j c hc
    refine ⟨by rw [ended_other (h2 j)]; exact a1, ?_, by rw [k1]; exact a3, by rw [k2, shown_other (h2 j) (h3 j)]; exact a4⟩
    rw [a2]; simp only [hret]

theorem inv_at {ops : List Op} {op : Op} {s s' : State} {i : Nat} {c' : Call} (inv : Inv ops s) (hi : i < s.calls.length) (hc : op ≠ .call)
    (hend : ∀ j, j ≠ i → Spec.endBy j op = none) (hret : ∀ j, j ≠ i → op ≠ .ret j) (calls : s'.calls = s.calls.set i c') (cr : s'.fut.created = s.fut.created)
    (fr : ∀ j, j ≠ i → s'.fut.promises j = s.fut.promises j ∧ s'.fut.cells j = s.fut.cells j)
    (own : c'.task = (Spec.ended (ops ++ [op]) i).isNone ∧ c'.caller = decide (.ret i ∉ ops ++ [op]) ∧
      s'.fut.promises i = (if c'.task || c'.caller then some ⟨i, !c'.caller⟩ else none) ∧ s'.fut.cells i = Spec.shown (ops ++ [op]) i) : Inv (ops ++ [op]) s' := by
  have hm : ∀ j, j ≠ i → ((Op.ret j ∈ ops ++ [op]) ↔ (Op.ret j ∈ ops)) := by
    intro j hj
    simp only [List.mem_append, List.mem_singleton]
    exact ⟨fun h => h.elim id (fun e => absurd e.symm (hret j hj)), Or.inl⟩
  refine ⟨?_, ?_, ?_, ?_⟩
  · rw [List.count_append, List.count_singleton, calls, List.length_set]
    have hb : (op == Op.call) = false := by simpa using hc
    simp only [hb, Bool.false_eq_true, if_false]; exact inv.len
  · rw [cr, calls, List.length_set]; exact inv.created
  · intro j hj
    rw [calls, List.length_set] at hj
    have hji : j ≠ i := by omega
    obtain ⟨a1, a2, a3, a4⟩ := inv.fresh j hj
    obtain ⟨b1, b2⟩ := fr j hji
    exact ⟨by rw [b1]; exact a1, by rw [b2]; exact a2, by rw [ended_other (hend j hji)]; exact a3, fun h => a4 ((hm j hji).mp h)⟩
  · intro j c hj
    rw [calls] at hj
    by_cases hji : j = i
    · subst hji
      rw [List.getElem?_set_self hi] at hj; injection hj with hj; subst hj
      exact own
    · rw [List.getElem?_set_ne (Ne.symm hji)] at hj
      obtain ⟨a1, a2, a3, a4⟩ := inv.call j c hj
      obtain ⟨b1, b2⟩ := fr j hji
      refine ⟨by rw [ended_other (hend j hji)]; exact a1, ?_, by rw [b1]; exact a3, by rw [b2, shown_other (hend j hji) (hret j hji)]; exact a4⟩
      rw [a2]; simp only [hm j hji]

theorem letGo_spec {f : Future.State} {i : Nat} {r : Bool} (h : f.promises i = some ⟨i, r⟩) (last : Bool) : ∃ f', letGo f i last = some f' ∧ f'.created = f.created ∧
    (∀ j, j ≠ i → f'.promises j = f.promises j ∧ f'.cells j = f.cells j) ∧ f'.promises i = (if last then none else some ⟨i, r⟩) ∧
    f'.cells i = (match f.cells i with | some x => some x | none => if last then some .brokenPromise else none) ∧ f'.handles = f.handles := by
  cases last with
  | false =>
    refine ⟨f, rfl, rfl, fun j _ => ⟨rfl, rfl⟩, by simpa using h, ?_, rfl⟩
    cases f.cells i <;> rfl
  | true =>
    cases hc : f.cells i with
    | some x =>
      refine ⟨{ f with promises := set f.promises i none }, by simp [letGo, Future.destroy, h, hc], rfl, fun j hj => ⟨set_ne _ _ hj, rfl⟩, by simp [set_self], by simp [hc], rfl⟩
    | none =>
      refine ⟨{ Future.assign f i .brokenPromise with promises := set f.promises i none }, by simp [letGo, Future.destroy, h, hc], rfl,
        fun j hj => ⟨set_ne _ _ hj, set_ne _ _ hj⟩, by simp [set_self], by simp [Future.assign, set_self], rfl⟩

/-- What a result of the function becomes. -/
def cellOf : Outcome → Option Res
  | .returns v => some (.value v)
  | .throwsStd e => some (.exception e)
  | .throwsOther => none

theorem body_spec {f : Future.State} {i : Nat} {r : Bool} (h : f.promises i = some ⟨i, r⟩) (hc : f.cells i = none) (o : Outcome) : ∃ f', body f i o = some f' ∧ f'.created = f.created ∧
    f'.promises = f.promises ∧ (∀ j, j ≠ i → f'.cells j = f.cells j) ∧ f'.cells i = cellOf o := by
  cases o with
  | returns v => exact ⟨Future.assign f i (.value v), by simp [body, Future.setValue, h, hc], rfl, rfl, fun j hj => set_ne _ _ hj, by simp [Future.assign, set_self, cellOf]⟩
  | throwsStd e => exact ⟨Future.assign f i (.exception e), by simp [body, Future.setException, h, hc], rfl, rfl, fun j hj => set_ne _ _ hj, by simp [Future.assign, set_self, cellOf]⟩
  | throwsOther => exact ⟨f, rfl, rfl, rfl, fun j _ => rfl, hc⟩

theorem step_inv {ops : List Op} {s s' : State} {op : Op} (inv : Inv ops s) (h : step s op = some s') : Inv (ops ++ [op]) s' := by
  cases op with
  | call =>
    simp only [step] at h
    obtain ⟨⟨o, f⟩, hf, rfl⟩ := Option.map_eq_some_iff.mp h
    obtain ⟨p1, p2, p3, p4⟩ := inv.fresh s.calls.length (Nat.le_refl _)
    simp only [Future.create, p1, if_true] at hf
    cases hf
    have hm : ∀ j, (Op.ret j ∈ ops ++ [Op.call]) ↔ (Op.ret j ∈ ops) := by intro j; simp
    refine ⟨by simp [inv.len], by simp [inv.created], ?_, ?_⟩
    · intro j hj
      simp only [List.length_append, List.length_singleton] at hj
      obtain ⟨a1, a2, a3, a4⟩ := inv.fresh j (by omega)
      refine ⟨?_, a2, by rw [ended_other rfl]; exact a3, fun h => a4 ((hm j).mp h)⟩
      show set s.fut.promises s.calls.length _ j = none
      rw [set_ne _ _ (by omega)]; exact a1
    · intro j c hj
      simp only [] at hj
      rcases Nat.lt_or_ge j s.calls.length with hl | hl
      · rw [List.getElem?_append_left hl] at hj
        obtain ⟨a1, a2, a3, a4⟩ := inv.call j c hj
        refine ⟨by rw [ended_other rfl]; exact a1, by rw [a2]; simp only [hm], ?_, by rw [shown_other rfl (by simp)]; exact a4⟩
        show set s.fut.promises s.calls.length _ j = _
        rw [set_ne _ _ (by omega)]; exact a3
      · have hjl := (List.getElem?_eq_some_iff.mp hj).1
        simp only [List.length_append, List.length_singleton] at hjl
        have hje : j = s.calls.length := by omega
        subst hje
        rw [List.getElem?_append_right (Nat.le_refl _)] at hj
        simp at hj; subst hj
        refine ⟨by rw [ended_other rfl, p3]; rfl, ?_, ?_, ?_⟩
        · simp only [hm, p4, not_false_eq_true, decide_true]
        · show set s.fut.promises s.calls.length _ s.calls.length = _
          rw [set_self, inv.created]; rfl
        · rw [shown_other rfl (by simp)]
          show s.fut.cells s.calls.length = _
          rw [p2]; unfold Spec.shown; rw [p3]
  | ret i =>
    simp only [step] at h
    split at h
    · next t hi =>
      obtain ⟨a1, a2, a3, a4⟩ := inv.call i _ hi
      have hil := (List.getElem?_eq_some_iff.mp hi).1
      simp only [Bool.or_true, if_true, Bool.not_true] at a3
      have hnr : Op.ret i ∉ ops := by simpa using a2.symm
      simp only [Future.getFuture, a3, Bool.false_eq_true, if_false] at h
      obtain ⟨f', h1, rfl⟩ := Option.map_eq_some_iff.mp h
      obtain ⟨f2, g1, g2, g3, g4, g5, _⟩ := letGo_spec (f := { s.fut with promises := set s.fut.promises i (some ⟨i, true⟩), handles := set s.fut.handles i (some ⟨some i, false⟩), futures := s.fut.futures ++ [i] })
        (i := i) (r := true) (set_self _ _ _) (!t)
      rw [g1] at h1; injection h1 with h1; subst h1
      refine inv_at inv hil (by simp) (fun j _ => rfl) (fun j hj => by simp [Ne.symm hj]) rfl g2 ?_ ?_
      · intro j hj
        obtain ⟨b1, b2⟩ := g3 j hj
        exact ⟨by rw [b1]; exact set_ne _ _ hj, b2⟩
      · simp only [] at a1
        refine ⟨by rw [ended_other rfl]; exact a1, by simp, ?_, ?_⟩
        · rw [g4]; cases t <;> rfl
        · rw [g5]
          simp only []
          rw [a4]
          unfold Spec.shown
          rw [ended_other rfl]
          cases hE : Spec.ended ops i with
          | none => rw [hE] at a1; simp at a1; simp [a1]
          | some e =>
            rw [hE] at a1; simp at a1
            cases e with
            | done o => cases o <;> simp [a1, hnr]
            | dropped => simp [a1, hnr]
    · cases h
  | finish i o =>
    simp only [step] at h
    split at h
    · next c hi =>
      obtain ⟨a1, a2, a3, a4⟩ := inv.call i _ hi
      have hil := (List.getElem?_eq_some_iff.mp hi).1
      simp only [Bool.true_or, if_true] at a3
      have hE : Spec.ended ops i = none := by simpa using a1.symm
      have hcn : s.fut.cells i = none := by rw [a4]; unfold Spec.shown; rw [hE]
      obtain ⟨f1, b1, b2, b3, b4, b5⟩ := body_spec a3 hcn o
      obtain ⟨f2, g1, g2, g3, g4, g5, _⟩ := letGo_spec (f := f1) (i := i) (r := !c) (by rw [b3]; exact a3) (!c)
      rw [b1, Option.bind_some, g1] at h
      simp only [Option.map_some] at h
      cases h
      refine inv_at inv hil (by simp) (fun j hj => by simp [Spec.endBy, Ne.symm hj]) (fun j hj => by simp) rfl (by rw [g2, b2]) ?_ ?_
      · intro j hj
        obtain ⟨q1, q2⟩ := g3 j hj
        exact ⟨by rw [q1, b3], by rw [q2]; exact b4 j hj⟩
      · have hE' : Spec.ended (ops ++ [.finish i o]) i = some (.done o) := by rw [ended_snoc, hE]; simp [Spec.endBy]
        have hm : (Op.ret i ∈ ops ++ [.finish i o]) ↔ (Op.ret i ∈ ops) := by simp
        refine ⟨by rw [hE']; rfl, by rw [decide_eq_decide.mpr (not_congr hm)]; exact a2, ?_, ?_⟩
        · rw [g4]; cases c <;> rfl
        · rw [g5, b5]
          unfold Spec.shown
          rw [hE']
          simp only [] at a2
          cases o with
          | returns v => rfl
          | throwsStd e => rfl
          | throwsOther => simp only [cellOf, hm]; rw [a2]; by_cases hr : Op.ret i ∈ ops <;> simp [hr]
    · cases h
  | cancel i =>
    simp only [step] at h
    split at h
    · next c hi =>
      obtain ⟨a1, a2, a3, a4⟩ := inv.call i _ hi
      have hil := (List.getElem?_eq_some_iff.mp hi).1
      simp only [Bool.true_or, if_true] at a3
      have hE : Spec.ended ops i = none := by simpa using a1.symm
      have hcn : s.fut.cells i = none := by rw [a4]; unfold Spec.shown; rw [hE]
      obtain ⟨f2, g1, g2, g3, g4, g5, _⟩ := letGo_spec (f := s.fut) (i := i) (r := !c) a3 (!c)
      rw [g1] at h
      simp only [Option.map_some] at h
      cases h
      refine inv_at inv hil (by simp) (fun j hj => by simp [Spec.endBy, Ne.symm hj]) (fun j hj => by simp) rfl g2 (fun j hj => g3 j hj) ?_
      · have hE' : Spec.ended (ops ++ [.cancel i]) i = some .dropped := by rw [ended_snoc, hE]; simp [Spec.endBy]
        have hm : (Op.ret i ∈ ops ++ [.cancel i]) ↔ (Op.ret i ∈ ops) := by simp
        refine ⟨by rw [hE']; rfl, by rw [decide_eq_decide.mpr (not_congr hm)]; exact a2, ?_, ?_⟩
        · rw [g4]; cases c <;> rfl
        · rw [g5, hcn]
          unfold Spec.shown
          rw [hE']
          simp only [hm]
          simp only [] at a2
          rw [a2]; by_cases hr : Op.ret i ∈ ops <;> simp [hr]
    · cases h
  | get t k => exact client_inv inv h (Or.inl ⟨t, k, rfl⟩) (by simp) (fun _ => rfl) (by simp)
  | wait t k => exact client_inv inv h (Or.inr (Or.inl ⟨t, k, rfl⟩)) (by simp) (fun _ => rfl) (by simp)
  | share t k => exact client_inv inv h (Or.inr (Or.inr (Or.inl ⟨t, k, rfl⟩))) (by simp) (fun _ => rfl) (by simp)
  | resume t => exact client_inv inv h (Or.inr (Or.inr (Or.inr (Or.inl ⟨t, rfl⟩)))) (by simp) (fun _ => rfl) (by simp)
  | spurious t => exact client_inv inv h (Or.inr (Or.inr (Or.inr (Or.inr (Or.inl ⟨t, rfl⟩))))) (by simp) (fun _ => rfl) (by simp)
  | abort t b => exact client_inv inv h (Or.inr (Or.inr (Or.inr (Or.inr (Or.inr ⟨t, b, rfl⟩))))) (by simp) (fun _ => rfl) (by simp)

theorem run_inv : ∀ {bs as : List Op} {s s' : State}, Inv as s → run s bs = some s' → Inv (as ++ bs) s' := by
  intro bs
  induction bs with
  | nil => intro as s s' i h; simp only [run] at h; cases h; simpa using i
  | cons b r ih =>
    intro as s s' i h
    simp only [run] at h
    split at h
    · cases h
    · next s1 h1 => simpa using ih (step_inv i h1) h

/-! ### Properties -/

/-- **C131.**  In every history of calls, tasks run or dropped, and uses of the futures by any threads: what is in the future of a call is the result of its own function:
the value, the exception, "broken promise" if the task was dropped or left with a foreign exception, and nothing before that. -/
theorem result_of_call {ops : List Op} {s : State} (h : run State.init ops = some s) (i : Nat) : s.fut.cells i = Spec.shown ops i := by
  have inv := run_inv init_inv h
  simp only [List.nil_append] at inv
  rcases Nat.lt_or_ge i s.calls.length with hl | hl
  · exact (inv.call i _ (List.getElem?_eq_getElem hl)).2.2.2
  · obtain ⟨_, a2, a3, _⟩ := inv.fresh i hl
    rw [a2]; unfold Spec.shown; rw [a3]

/-- **C131.**  The call can always return, with a future that shows the result of this call; a task not finished can always be finished or dropped (no exception gets out of
the wrapper unless the function threw a foreign one). -/
theorem call_progress {ops : List Op} {s : State} (h : run State.init ops = some s) {i : Nat} (hi : i < ops.count .call) :
    (.ret i ∉ ops → ∃ s', step s (.ret i) = some s' ∧ s'.fut.handles i = some ⟨some i, false⟩) ∧
    (Spec.ended ops i = none → (∀ o, ∃ s', step s (.finish i o) = some s') ∧ ∃ s', step s (.cancel i) = some s') ∧
    (Spec.ended ops i ≠ none → (∀ o, step s (.finish i o) = none) ∧ step s (.cancel i) = none) := by
  have inv := run_inv init_inv h
  simp only [List.nil_append] at inv
  have hl : i < s.calls.length := by rw [inv.len]; exact hi
  have he := List.getElem?_eq_getElem hl
  obtain ⟨a1, a2, a3, a4⟩ := inv.call i _ he
  cases hc : s.calls[i] with
  | mk t c =>
  rw [hc] at a1 a2 a3 he
  simp only [] at a1 a2 a3
  refine ⟨?_, ?_, ?_⟩
  · intro hr
    have hct : c = true := by simpa [hr] using a2
    subst hct
    simp only [Bool.or_true, if_true, Bool.not_true] at a3
    obtain ⟨f2, g1, _, _, _, _, g6⟩ := letGo_spec (f := { s.fut with promises := set s.fut.promises i (some ⟨i, true⟩), handles := set s.fut.handles i (some ⟨some i, false⟩), futures := s.fut.futures ++ [i] })
        (i := i) (r := true) (set_self _ _ _) (!t)
    refine ⟨⟨f2, s.calls.set i ⟨t, false⟩⟩, ?_, ?_⟩
    · simp only [step, he, Future.getFuture, a3, Bool.false_eq_true, if_false, g1, Option.map_some]
    · show f2.handles i = _
      rw [g6]; exact set_self _ _ _
  · intro hE
    have ht : t = true := by rw [a1, hE]; rfl
    subst ht
    simp only [Bool.true_or, if_true] at a3
    have hcn : s.fut.cells i = none := by rw [a4]; unfold Spec.shown; rw [hE]
    constructor
    · intro o
      obtain ⟨f1, b1, b2, b3, b4, b5⟩ := body_spec a3 hcn o
      obtain ⟨f2, g1, _⟩ := letGo_spec (f := f1) (i := i) (r := !c) (by rw [b3]; exact a3) (!c)
      exact ⟨⟨f2, s.calls.set i ⟨false, c⟩⟩, by simp only [step, he, b1, Option.bind_some, g1, Option.map_some]⟩
    · obtain ⟨f2, g1, _⟩ := letGo_spec (f := s.fut) (i := i) (r := !c) a3 (!c)
      exact ⟨⟨f2, s.calls.set i ⟨false, c⟩⟩, by simp only [step, he, g1, Option.map_some]⟩
  · intro hE
    have ht : t = false := by
      rw [a1]; cases hx : Spec.ended ops i with
      | none => exact absurd hx hE
      | some _ => rfl
    subst ht
    exact ⟨fun o => by simp only [step, he], by simp only [step, he]⟩

/-- **C131.**  Once the call has returned and its task is finished or dropped, the future is ready: no reader waits for ever. -/
theorem ready_in_the_end {ops : List Op} {s : State} (h : run State.init ops = some s) {i : Nat} (hr : .ret i ∈ ops) (he : Spec.ended ops i ≠ none) : s.fut.cells i ≠ none := by
  rw [result_of_call h i]
  unfold Spec.shown
  split
  · next hn => exact absurd hn he
  all_goals simp [hr]

/-- **C131, violated**: the exception of the function is not given to the caller if it is not derived from `std::exception`. -/
theorem foreign_exception_violated : ∃ s, run State.init [.call, .ret 0, .finish 0 .throwsOther] = some s ∧ s.fut.cells 0 = some .brokenPromise := by
  refine ⟨_, rfl, rfl⟩

/-- Two calls, the second one finished before the first call returned. -/
example : ∃ s, run State.init [.call, .call, .finish 1 (.returns 7), .ret 1, .ret 0, .get 5 0, .finish 0 (.throwsStd 3)] = some s ∧ s.fut.cells 1 = some (.value 7) ∧ s.fut.cells 0 = some (.exception 3) ∧
    s.fut.threads 5 = .waiting 0 true true := ⟨_, rfl, rfl, rfl, rfl⟩

end Verif.Thread.AsyncCall
