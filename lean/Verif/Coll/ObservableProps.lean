import Verif.Coll.ObservableSpec
import Verif.Coll.ListProps
import Verif.Coll.MultiProps
/-
Observers of observable collections.
-/
namespace Verif.Coll.Obs
open Verif.Order
variable {S E O R L : Type}

/-- No observer calls back. -/
def Quiet (w : Observed S E O) : Prop := ∀ ob ∈ w.observers, ∀ e s, ob.react e s = []

/-- What an invocation adds. -/
def told (e : E) (s : S) (ob : Observer S E O) : Observer S E O :=
  if ob.connected then { ob with log := ob.log ++ [⟨e, s, false⟩] } else ob

theorem deliver_quiet (call : Observed S E O → O → Observed S E O) (e : E) (w : Observed S E O) (hq : Quiet w) : ∀ k, k ≤ w.observers.length →
    (List.range k).foldl (deliver call e) w = { w with observers := (w.observers.take k).map (told e w.contents) ++ w.observers.drop k } := by
  intro k
  induction k with
  | zero => intro _; rfl
  | succ k ih =>
    intro hk
    rw [List.range_succ, List.foldl_append, ih (by omega)]
    have hlen : ((w.observers.take k).map (told e w.contents)).length = k := by simp; omega
    have hd : w.observers.drop k = w.observers[k] :: w.observers.drop (k + 1) := List.drop_eq_getElem_cons (by omega)
    have hget : ((w.observers.take k).map (told e w.contents) ++ w.observers.drop k)[k]? = some w.observers[k] := by
      rw [List.getElem?_append_right (by omega), hlen, Nat.sub_self, hd]; rfl
    have ht : w.observers.take (k + 1) = w.observers.take k ++ [w.observers[k]] := by
      rw [List.take_succ, List.getElem?_eq_getElem (by omega)]; rfl
    simp only [List.foldl_cons, List.foldl_nil, deliver, hget]
    by_cases hc : w.observers[k].connected = true
    · rw [if_pos hc, hq _ (List.getElem_mem _)]
      simp only [List.foldl_nil]
      congr 1
      rw [List.set_append_right _ _ (by omega), hlen, Nat.sub_self, hd, ht, List.map_append, List.append_assoc]
      have : told e w.contents w.observers[k] = { w.observers[k] with log := w.observers[k].log ++ [⟨e, w.contents, false⟩] } := if_pos hc
      rw [List.map_singleton, this]; rfl
    · rw [if_neg hc]
      congr 1
      have : told e w.contents w.observers[k] = w.observers[k] := if_neg hc
      rw [hd, ht, List.map_append, List.append_assoc, List.map_singleton, this]; rfl

theorem change_quiet (call : Observed S E O → O → Observed S E O) (w : Observed S E O) (hq : Quiet w) (p : (S → S) × E) :
    change call w p = ⟨p.1 w.contents, w.observers.map (told p.2 (p.1 w.contents))⟩ := by
  unfold change
  have := deliver_quiet call p.2 { w with contents := p.1 w.contents } hq w.observers.length (Nat.le_refl _)
  simp only [] at this
  rw [this]
  simp

theorem told_quiet {w : Observed S E O} (hq : Quiet w) (e : E) (s s' : S) : Quiet ⟨s', w.observers.map (told e s)⟩ := by
  intro ob hob
  simp only [List.mem_map] at hob
  obtain ⟨o, ho, rfl⟩ := hob
  unfold told
  by_cases hc : o.connected = true
  · rw [if_pos hc]; exact hq o ho
  · rw [if_neg hc]; exact hq o ho

/-- The contents after a sequence of elementary changes. -/
def final (s : S) (ps : List ((S → S) × E)) : S := ps.foldl (fun s p => p.1 s) s

/-- Every elementary change is reported in a way that makes sense. -/
def Chain (follow : L → E → Option L) (Rel : S → L → Prop) : S → List ((S → S) × E) → Prop
  | _, [] => True
  | s, p :: ps => (∀ l, Rel s l → ∃ l', follow l p.2 = some l' ∧ Rel (p.1 s) l') ∧ Chain follow Rel (p.1 s) ps

/-- The observer, following the reports, has the contents; and at each report it has what the collection contains then. -/
structure Follows (follow : L → E → Option L) (l0 : L) (Rel : S → L → Prop) (s : S) (ob : Observer S E O) : Prop where
  now : ob.connected = true → ∃ l, Spec.replay follow l0 (ob.log.map Note.ev) = some l ∧ Rel s l
  always : ∀ pre n post, ob.log = pre ++ n :: post → n.pop = false → ∃ l, Spec.replay follow l0 ((pre ++ [n]).map Note.ev) = some l ∧ Rel n.seen l

theorem replay_append (follow : L → E → Option L) : ∀ (a b : List E) (l : L),
    Spec.replay follow l (a ++ b) = (Spec.replay follow l a).bind fun l' => Spec.replay follow l' b
  | [], _, _ => rfl
  | e :: a, b, l => by
    simp only [List.cons_append, Spec.replay]
    cases follow l e with
    | none => rfl
    | some l' => exact replay_append follow a b l'

section
variable {follow : L → E → Option L} {l0 : L} {Rel : S → L → Prop}

theorem told_follows {s : S} {ob : Observer S E O} (h : Follows follow l0 Rel s ob) {p : (S → S) × E}
    (hp : ∀ l, Rel s l → ∃ l', follow l p.2 = some l' ∧ Rel (p.1 s) l') : Follows follow l0 Rel (p.1 s) (told p.2 (p.1 s) ob) := by
  unfold told
  by_cases hc : ob.connected = true
  · rw [if_pos hc]
    obtain ⟨l, h1, h2⟩ := h.now hc
    obtain ⟨l', h3, h4⟩ := hp l h2
    have hr : Spec.replay follow l0 ((ob.log ++ [(⟨p.2, p.1 s, false⟩ : Note S E)]).map Note.ev) = some l' := by
      rw [List.map_append, replay_append, h1]
      simp [Spec.replay, h3]
    refine ⟨fun _ => ⟨l', hr, h4⟩, ?_⟩
    intro pre n post heq hn
    simp only [] at heq
    rcases List.eq_nil_or_concat post with rfl | ⟨post', x, rfl⟩
    · have := List.append_inj' heq (by simp)
      obtain ⟨e1, e2⟩ := this
      injection e2 with e2 _
      subst e1; subst e2
      exact ⟨l', hr, h4⟩
    · have heq' : ob.log ++ [⟨p.2, p.1 s, false⟩] = (pre ++ n :: post') ++ [x] := by rw [heq]; simp
      exact h.always pre n post' (List.append_inj_left' heq' rfl) hn
  · rw [if_neg hc]
    exact ⟨fun h' => absurd h' hc, h.always⟩

theorem plan_follows (call : Observed S E O → O → Observed S E O) : ∀ (ps : List ((S → S) × E)) (w : Observed S E O), Quiet w →
    (∃ l, Rel w.contents l) → (∀ ob ∈ w.observers, Follows follow l0 Rel w.contents ob) → Chain follow Rel w.contents ps →
    Quiet (ps.foldl (change call) w) ∧ (ps.foldl (change call) w).contents = final w.contents ps ∧ (∃ l, Rel (final w.contents ps) l) ∧
      ∀ ob ∈ (ps.foldl (change call) w).observers, Follows follow l0 Rel (final w.contents ps) ob
  | [], w, hq, hl, hf, _ => ⟨hq, rfl, hl, hf⟩
  | p :: ps, w, hq, ⟨l, hl⟩, hf, hc => by
    simp only [List.foldl_cons, final]
    rw [change_quiet call w hq p]
    obtain ⟨l', _, hl'⟩ := hc.1 l hl
    exact plan_follows call ps _ (told_quiet hq _ _ _) ⟨l', hl'⟩ (by
      intro ob hob
      simp only [List.mem_map] at hob
      obtain ⟨o, ho, rfl⟩ := hob
      exact told_follows (hf o ho) hc.1) hc.2

/-- What a program is assumed to do: it connects only observers that do not call back. -/
def QuietActs (as : List (Act S E O)) : Prop := ∀ react, Act.connect react ∈ as → ∀ e s, react e s = []

theorem replay_prefix {a b : List E} {l m : L} (h : Spec.replay follow l (a ++ b) = some m) : ∃ m', Spec.replay follow l a = some m' := by
  rw [replay_append] at h
  cases ha : Spec.replay follow l a with
  | none => rw [ha] at h; cases h
  | some m' => exact ⟨m', rfl⟩

theorem run_follows (m : Machine S E O R) (n : Nat) (hplan : ∀ s l o, Rel s l → Chain follow Rel s (m.plan s o).1)
    (hpop : ∀ s l, Rel s l → ∃ l', Spec.replay follow l0 (m.populate s) = some l' ∧ Rel s l') :
    ∀ (as : List (Act S E O)) (w : Observed S E O), QuietActs as → Quiet w → (∃ l, Rel w.contents l) → (∀ ob ∈ w.observers, Follows follow l0 Rel w.contents ob) →
      Quiet (run m (n + 1) w as).1 ∧ (∃ l, Rel (run m (n + 1) w as).1.contents l) ∧
      ∀ ob ∈ (run m (n + 1) w as).1.observers, Follows follow l0 Rel (run m (n + 1) w as).1.contents ob
  | [], w, _, hq, hl, hf => ⟨hq, hl, hf⟩
  | a :: as, w, ha, hq, ⟨l, hl⟩, hf => by
    simp only [run]
    have ha' : QuietActs as := fun r hr => ha r (by simp [hr])
    cases a with
    | call o =>
      simp only [step, exec]
      obtain ⟨h1, h2, h3, h4⟩ := plan_follows (exec m n) (m.plan w.contents o).1 w hq ⟨l, hl⟩ hf (hplan _ l o hl)
      exact run_follows m n hplan hpop as _ ha' h1 (by rw [h2]; exact h3) (by rw [h2]; exact h4)
    | connect react =>
      simp only [step]
      refine run_follows m n hplan hpop as _ ha' ?_ ⟨l, hl⟩ ?_
      · intro ob hob
        simp only [List.mem_append, List.mem_singleton] at hob
        rcases hob with hob | rfl
        · exact hq ob hob
        · exact ha react (by simp)
      · intro ob hob
        simp only [List.mem_append, List.mem_singleton] at hob
        rcases hob with hob | rfl
        · exact hf ob hob
        · obtain ⟨l', h1, h2⟩ := hpop _ l hl
          refine ⟨fun _ => ⟨l', by simpa [Function.comp_def] using h1, h2⟩, ?_⟩
          intro pre x post heq hx
          have : x ∈ (m.populate w.contents).map fun e => (⟨e, w.contents, true⟩ : Note S E) := by
            simp only [] at heq; rw [heq]; simp
          simp only [List.mem_map] at this
          obtain ⟨e, _, rfl⟩ := this
          cases hx
    | disconnect i =>
      simp only [step]
      cases hi : w.observers[i]? with
      | none => exact run_follows m n hplan hpop as _ ha' hq ⟨l, hl⟩ hf
      | some ob =>
        simp only []
        have hm := List.mem_of_getElem? hi
        refine run_follows m n hplan hpop as _ ha' ?_ ⟨l, hl⟩ ?_
        · intro x hx
          rcases List.mem_or_eq_of_mem_set hx with hx | rfl
          · exact hq x hx
          · exact hq ob hm
        · intro x hx
          rcases List.mem_or_eq_of_mem_set hx with hx | rfl
          · exact hf x hx
          · exact ⟨fun h => by simp at h, (hf ob hm).always⟩

/-- The calls of a program. -/
def calls : List (Act S E O) → List O
  | [] => []
  | .call o :: as => o :: calls as
  | .connect _ :: as => calls as
  | .disconnect _ :: as => calls as

/-- Contents and results are those of the plain collection. -/
theorem run_contents (m : Machine S E O R) (n : Nat) (plain : S → O → S × R) (hplan : ∀ s l o, Rel s l → Chain follow Rel s (m.plan s o).1)
    (hpop : ∀ s l, Rel s l → ∃ l', Spec.replay follow l0 (m.populate s) = some l' ∧ Rel s l') (ok : O → Prop)
    (hplain : ∀ s l o, Rel s l → ok o → (final s (m.plan s o).1, (m.plan s o).2) = plain s o) (plainRun : S → List O → S × List R)
    (hr0 : ∀ s, plainRun s [] = (s, [])) (hr1 : ∀ s o os, plainRun s (o :: os) = ((plainRun (plain s o).1 os).1, (plain s o).2 :: (plainRun (plain s o).1 os).2)) :
    ∀ (as : List (Act S E O)) (w : Observed S E O), QuietActs as → Quiet w → (∃ l, Rel w.contents l) → (∀ ob ∈ w.observers, Follows follow l0 Rel w.contents ob) →
      (∀ o ∈ calls as, ok o) →
      (run m (n + 1) w as).1.contents = (plainRun w.contents (calls as)).1 ∧ (run m (n + 1) w as).2.filterMap id = (plainRun w.contents (calls as)).2
  | [], w, _, _, _, _, _ => by simp [run, calls, hr0]
  | a :: as, w, ha, hq, ⟨l, hl⟩, hf, hok => by
    have ha' : QuietActs as := fun r hr => ha r (by simp [hr])
    have hone := run_follows (l0 := l0) m n hplan hpop [a] w (fun r hr => ha r (by
      simp only [List.mem_singleton] at hr; rw [hr]; simp)) hq ⟨l, hl⟩ hf
    simp only [run] at hone
    have ih := run_contents m n plain hplan hpop ok hplain plainRun hr0 hr1 as (step m (n + 1) w a).1 ha' hone.1 hone.2.1 hone.2.2 (by
      intro o ho; refine hok o ?_; cases a <;> simp [calls, ho])
    simp only [run]
    cases a with
    | call o =>
      obtain ⟨_, h2, _, _⟩ := plan_follows (exec m n) (m.plan w.contents o).1 w hq ⟨l, hl⟩ hf (hplan _ l o hl)
      have hp := hplain _ l o hl (hok o (by simp [calls]))
      simp only [calls, hr1]
      rw [← hp]
      simp only [step, exec] at ih ⊢
      rw [h2] at ih
      refine ⟨ih.1, ?_⟩
      simp only [List.filterMap_cons, id]
      rw [ih.2]
    | connect react => exact ⟨ih.1, ih.2⟩
    | disconnect i =>
      simp only [calls]
      have hc : (step m (n + 1) w (.disconnect i)).1.contents = w.contents ∧ (step m (n + 1) w (.disconnect i)).2 = none := by
        simp only [step]; cases w.observers[i]? <;> exact ⟨rfl, rfl⟩
      rw [hc.1] at ih
      refine ⟨ih.1, ?_⟩
      rw [hc.2]
      simpa using ih.2
end

end Verif.Coll.Obs
