import Verif.Coll.Derived
import Verif.Coll.ObservableDictProps
/-
Views of one key and of the keys of observable dictionaries and sets.
-/
namespace Verif.Coll.Obs
open Verif.Order

section
variable {S E O R : Type}

theorem told_log (e : E) (s : S) (ob : Observer S E O) : ∃ rest, (told e s ob).log = ob.log ++ rest ∧ (∀ n ∈ rest, n.pop = false ∧ n.ev = e) ∧
    (told e s ob).connected = ob.connected := by
  unfold told
  by_cases hc : ob.connected = true
  · rw [if_pos hc]; exact ⟨[⟨e, s, false⟩], rfl, by simp, rfl⟩
  · rw [if_neg hc]; exact ⟨[], by simp, by simp, rfl⟩

/-- An observer keeps what it was told, and is told only events of the calls made. -/
theorem plan_log (call : Observed S E O → O → Observed S E O) (P : E → Prop) : ∀ (ps : List ((S → S) × E)) (w : Observed S E O), Quiet w → (∀ p ∈ ps, P p.2) →
    Quiet (ps.foldl (change call) w) ∧ (ps.foldl (change call) w).observers.length = w.observers.length ∧
    ∀ (i : Nat) (ob : Observer S E O), w.observers[i]? = some ob → ∃ ob' rest, (ps.foldl (change call) w).observers[i]? = some ob' ∧ ob'.log = ob.log ++ rest ∧
      (∀ n ∈ rest, n.pop = false ∧ P n.ev) ∧ ob'.connected = ob.connected
  | [], w, hq, _ => ⟨hq, rfl, fun i ob h => ⟨ob, [], h, by simp, by simp, rfl⟩⟩
  | p :: ps, w, hq, hp => by
    simp only [List.foldl_cons]
    rw [change_quiet call w hq p]
    obtain ⟨h0, h1, h2⟩ := plan_log call P ps _ (told_quiet hq p.2 (p.1 w.contents) (p.1 w.contents)) (fun q hqq => hp q (by simp [hqq]))
    refine ⟨h0, by rw [h1]; simp, ?_⟩
    intro i ob hi
    obtain ⟨r1, g1, g2, g3⟩ := told_log p.2 (p.1 w.contents) ob
    obtain ⟨ob', rest, k1, k2, k3, k4⟩ := h2 i (told p.2 (p.1 w.contents) ob) (by simp [hi])
    refine ⟨ob', r1 ++ rest, k1, by rw [k2, g1, List.append_assoc], ?_, by rw [k4, g3]⟩
    intro n hn
    rcases List.mem_append.mp hn with hn | hn
    · exact ⟨(g2 n hn).1, by rw [(g2 n hn).2]; exact hp p (by simp)⟩
    · exact k3 n hn

theorem run_log (m : Machine S E O R) (n : Nat) (P : E → Prop) : ∀ (as : List (Act S E O)) (w : Observed S E O), QuietActs as → Quiet w →
    (∀ o ∈ calls as, ∀ s, ∀ p ∈ (m.plan s o).1, P p.2) →
    ∀ (i : Nat) (ob : Observer S E O), w.observers[i]? = some ob → Act.disconnect i ∉ as →
      ∃ ob' rest, (run m (n + 1) w as).1.observers[i]? = some ob' ∧ ob'.log = ob.log ++ rest ∧ (∀ x ∈ rest, x.pop = false ∧ P x.ev) ∧ ob'.connected = ob.connected
  | [], w, _, _, _, i, ob, hi, _ => ⟨ob, [], hi, by simp, by simp, rfl⟩
  | a :: as, w, ha, hq, hP, i, ob, hi, hd => by
    simp only [run]
    have ha' : QuietActs as := fun r hr => ha r (by simp [hr])
    have hd' : Act.disconnect i ∉ as := fun hc => hd (by simp [hc])
    cases a with
    | call o =>
      simp only [step, exec]
      obtain ⟨h0, _, h2⟩ := plan_log (exec m n) P (m.plan w.contents o).1 w hq (hP o (by simp [calls]) w.contents)
      obtain ⟨ob1, r1, g1, g2, g3, g4⟩ := h2 i ob hi
      obtain ⟨ob', rest, k1, k2, k3, k4⟩ := run_log m n P as _ ha' h0 (fun o ho => hP o (by simp [calls, ho])) i ob1 g1 hd'
      exact ⟨ob', r1 ++ rest, k1, by rw [k2, g2, List.append_assoc], List.forall_mem_append.mpr ⟨g3, k3⟩, by rw [k4, g4]⟩
    | connect react =>
      simp only [step]
      refine run_log m n P as _ ha' ?_ (fun o ho => hP o (by simp [calls, ho])) i ob ?_ hd'
      · intro x hx
        simp only [List.mem_append, List.mem_singleton] at hx
        rcases hx with hx | rfl
        · exact hq x hx
        · exact ha react (by simp)
      · simp only []
        rw [List.getElem?_append_left]
        · exact hi
        · exact (List.getElem?_eq_some_iff.mp hi).1
    | disconnect j =>
      have hij : j ≠ i := fun e => hd (by simp [e])
      simp only [step]
      cases hj : w.observers[j]? with
      | none => exact run_log m n P as _ ha' hq (fun o ho => hP o (by simp [calls, ho])) i ob hi hd'
      | some x =>
        simp only []
        refine run_log m n P as _ ha' ?_ (fun o ho => hP o (by simp [calls, ho])) i ob ?_ hd'
        · intro y hy
          rcases List.mem_or_eq_of_mem_set hy with hy | rfl
          · exact hq y hy
          · exact hq x (List.mem_of_getElem? hj)
        · simp only []
          rw [List.getElem?_set_ne hij]
          exact hi

theorem run_append (m : Machine S E O R) (n : Nat) : ∀ (a b : List (Act S E O)) (w : Observed S E O),
    (run m n w (a ++ b)).1 = (run m n (run m n w a).1 b).1
  | [], _, _ => rfl
  | x :: a, b, w => by
    simp only [List.cons_append, run]
    exact run_append m n a b _
end

variable {κ ν : Type} {lt : κ → κ → Bool}

theorem followDict_uniq (h : StrictWeak lt) [DecidableEq ν] {l l' : List (κ × ν)} (hu : Uniq lt l) {e : Event κ ν} (hf : Spec.followDict lt l e = some l') : Uniq lt l' := by
  unfold Spec.followDict at hf
  cases hop : e.op with
  | added =>
    rw [hop] at hf
    simp only [] at hf
    by_cases hh : Spec.has lt l e.key = true
    · rw [if_pos hh] at hf; cases hf
    · rw [if_neg hh] at hf
      injection hf with hf; subst hf
      have := has_false.mp (by simpa using hh)
      unfold Uniq
      rw [List.pairwise_append]
      exact ⟨hu, by simp, by intro a ha b hb; simp only [List.mem_singleton] at hb; subst hb; exact this a ha⟩
  | updated =>
    rw [hop] at hf
    simp only [] at hf
    by_cases hh : Spec.has lt l e.key = true
    · rw [if_pos hh] at hf
      injection hf with hf; subst hf
      unfold Uniq
      rw [List.pairwise_map]
      refine List.Pairwise.imp ?_ hu
      intro a b hab
      by_cases h1 : equiv lt a.1 e.key = true <;> by_cases h2 : equiv lt b.1 e.key = true <;> simp [h1, h2, hab]
    · rw [if_neg hh] at hf; cases hf
  | removed =>
    rw [hop] at hf
    simp only [] at hf
    by_cases hh : Spec.value lt l e.key = some e.value
    · rw [if_pos hh] at hf
      injection hf with hf; subst hf
      exact List.Pairwise.filter _ hu
    · rw [if_neg hh] at hf; cases hf

theorem equiv_congr (h : StrictWeak lt) {a b c : κ} (hab : equiv lt a b = true) : equiv lt a c = equiv lt b c := by
  rw [Bool.eq_iff_iff]
  constructor
  · intro hac; exact equiv_trans h (by rw [equiv_comm]; exact hab) hac
  · intro hbc; exact equiv_trans h hab hbc

/-- What a report says about a key is the value that the key has for whoever follows the reports, and the others say nothing about it. -/
theorem followDict_value (h : StrictWeak lt) [DecidableEq ν] {ceq : κ → κ → Bool} {key : κ} (hc : ∀ k, ceq key k = equiv lt key k) {l l' : List (κ × ν)} {e : Event κ ν}
    (hf : Spec.followDict lt l e = some l') :
    Spec.value lt l' key = (valueReport ceq key e).getD (Spec.value lt l key) := by
  unfold valueReport
  rw [hc]
  unfold Spec.followDict at hf
  by_cases hk : equiv lt key e.key = true
  · rw [if_pos hk, Option.getD_some]
    have hk' : equiv lt e.key key = true := by rw [equiv_comm]; exact hk
    cases hop : e.op with
    | added =>
      rw [hop] at hf
      simp only [] at hf
      by_cases hh : Spec.has lt l e.key = true
      · rw [if_pos hh] at hf; cases hf
      · rw [if_neg hh] at hf
        injection hf with hf; subst hf
        have hn := has_false.mp (by simpa using hh)
        have : l.filter (fun x => equiv lt x.1 key) = [] := by
          rw [List.filter_eq_nil_iff]
          intro a ha hc
          have := equiv_trans h hc hk
          rw [hn a ha] at this; cases this
        simp [Spec.value, Spec.all, this, hk']
    | updated =>
      rw [hop] at hf
      simp only [] at hf
      by_cases hh : Spec.has lt l e.key = true
      · rw [if_pos hh] at hf
        injection hf with hf; subst hf
        simp only [Spec.has, List.any_eq_true] at hh
        obtain ⟨x, hx, hxk⟩ := hh
        simp only [Spec.value, Spec.all]
        have key' : ∀ l : List (κ × ν), (l.map fun x => if equiv lt x.1 e.key = true then (x.1, e.value) else x).filter (fun x => equiv lt x.1 key) =
            (l.filter fun x => equiv lt x.1 key).map fun x => (x.1, e.value) := by
          intro l
          induction l with
          | nil => rfl
          | cons y ys ih =>
            simp only [List.map_cons]
            by_cases hy : equiv lt y.1 key = true
            · have hy2 : equiv lt y.1 e.key = true := equiv_trans h hy hk
              rw [if_pos hy2, List.filter_cons_of_pos (by simpa using hy), List.filter_cons_of_pos (by simpa using hy), ih]; rfl
            · have hy2 : ¬ equiv lt y.1 e.key = true := fun hc => hy (equiv_trans h hc hk')
              rw [if_neg hy2, List.filter_cons_of_neg (by simpa using hy), List.filter_cons_of_neg (by simpa using hy), ih]
        rw [key' l]
        have hm : x ∈ l.filter (fun x => equiv lt x.1 key) := List.mem_filter.mpr ⟨hx, equiv_trans h hxk hk'⟩
        cases hl : l.filter (fun x => equiv lt x.1 key) with
        | nil => rw [hl] at hm; cases hm
        | cons y ys => simp
      · rw [if_neg hh] at hf; cases hf
    | removed =>
      rw [hop] at hf
      simp only [] at hf
      by_cases hh : Spec.value lt l e.key = some e.value
      · rw [if_pos hh] at hf
        injection hf with hf; subst hf
        simp only [Spec.value, Spec.all, List.filter_filter]
        have : l.filter (fun x => equiv lt x.1 key && !equiv lt x.1 e.key) = [] := by
          rw [List.filter_eq_nil_iff]
          intro a _ hc
          simp only [Bool.and_eq_true, Bool.not_eq_true'] at hc
          rw [equiv_trans h hc.1 hk] at hc
          exact absurd hc.2 (by simp)
        rw [this]; rfl
      · rw [if_neg hh] at hf; cases hf
  · rw [if_neg hk, Option.getD_none]
    have hk' : equiv lt e.key key = false := by rw [equiv_comm]; simpa using hk
    cases hop : e.op with
    | added =>
      rw [hop] at hf
      simp only [] at hf
      by_cases hh : Spec.has lt l e.key = true
      · rw [if_pos hh] at hf; cases hf
      · rw [if_neg hh] at hf
        injection hf with hf; subst hf
        simp [Spec.value, Spec.all, hk']
    | updated =>
      rw [hop] at hf
      simp only [] at hf
      by_cases hh : Spec.has lt l e.key = true
      · rw [if_pos hh] at hf
        injection hf with hf; subst hf
        simp only [Spec.value, Spec.all]
        congr 2
        clear hh
        induction l with
        | nil => rfl
        | cons y ys ih =>
          simp only [List.map_cons]
          by_cases hy : equiv lt y.1 e.key = true
          · have hyk : equiv lt y.1 key = false := by rw [equiv_congr h hy]; exact hk'
            rw [if_pos hy, List.filter_cons_of_neg (by simp [hyk]), List.filter_cons_of_neg (by simp [hyk]), ih]
          · rw [if_neg hy]
            simp only [List.filter_cons]
            rw [ih]
      · rw [if_neg hh] at hf; cases hf
    | removed =>
      rw [hop] at hf
      simp only [] at hf
      by_cases hh : Spec.value lt l e.key = some e.value
      · rw [if_pos hh] at hf
        injection hf with hf; subst hf
        simp only [Spec.value, Spec.all, List.filter_filter]
        congr 2
        apply List.filter_congr
        intro x _
        by_cases hx : equiv lt x.1 key = true
        · have : equiv lt x.1 e.key = false := by
            rw [equiv_congr h hx, equiv_comm]; exact hk'
          rw [hx, this]; rfl
        · simp [hx]
      · rw [if_neg hh] at hf; cases hf

theorem replay_value (h : StrictWeak lt) [DecidableEq ν] {ceq : κ → κ → Bool} {key : κ} (hc : ∀ k, ceq key k = equiv lt key k) :
    ∀ (es : List (Event κ ν)) (l l' : List (κ × ν)), Spec.replay (Spec.followDict lt) l es = some l' →
      (Spec.value lt l key :: es.filterMap (valueReport ceq key)).getLast? = some (Spec.value lt l' key)
  | [], l, l', hr => by
    simp only [Spec.replay, Option.some.injEq] at hr; subst hr; rfl
  | e :: es, l, l', hr => by
    simp only [Spec.replay] at hr
    cases hf : Spec.followDict lt l e with
    | none => rw [hf] at hr; cases hr
    | some l1 =>
      rw [hf] at hr
      have ih := replay_value h hc es l1 l' hr
      have hv := followDict_value h hc hf
      rw [List.filterMap_cons]
      cases hrep : valueReport ceq key e with
      | none => simp only []; rw [hrep] at hv; simp only [Option.getD_none] at hv; rw [← hv]; exact ih
      | some r =>
        simp only []
        rw [hrep] at hv; simp only [Option.getD_some] at hv
        rw [List.getLast?_cons_cons, ← hv]; exact ih

/-- The view's own connection: its log is the population and then the later events. -/
theorem view_log (h : StrictWeak lt) [DecidableEq ν] (kind : Kind) (n : Nat) (before after : List (Act (List (κ × ν)) (Event κ ν) (Dict.Op κ ν)))
    (hq : QuietActs (before ++ after)) (hd : Act.disconnect (run (dict kind lt) (n + 1) ⟨[], []⟩ before).1.observers.length ∉ after) (P : Event κ ν → Prop)
    (hP : ∀ o ∈ calls after, ∀ s, ∀ p ∈ (dictPlan kind lt s o).1, P p.2) :
    let w1 := (run (dict kind lt) (n + 1) ⟨[], []⟩ before).1
    let w2 := (run (dict kind lt) (n + 1) ⟨[], []⟩ (before ++ .connect passOn :: after)).1
    ∃ l1 l2, Spec.replay (Spec.followDict lt) [] ((dict kind lt).populate w1.contents) = some l1 ∧ Good kind lt w1.contents l1 ∧
      Spec.replay (Spec.followDict lt) l1 (later w2 w1.observers.length) = some l2 ∧ Good kind lt w2.contents l2 ∧
      ∀ e ∈ later w2 w1.observers.length, P e := by
  intro w1 w2
  have hq1 : QuietActs before := fun r hr => hq r (by simp [hr])
  have hq2 : QuietActs (.connect passOn :: after) := by
    intro r hr
    rcases List.mem_cons.mp hr with hr | hr
    · injection hr with hr; subst hr; intros; rfl
    · exact hq r (by simp [hr])
  obtain ⟨k1, ⟨lx, k2⟩, k3⟩ := run_follows (follow := Spec.followDict lt) (l0 := []) (Rel := Good kind lt) (dict kind lt) n (fun s l o hg => (dict_plan h hg o).1) (fun s l hg => dict_populate h hg)
    before ⟨[], []⟩ hq1 (by intro ob hob; cases hob) ⟨[], good_nil kind⟩ (by intro ob hob; cases hob)
  obtain ⟨l1, p1, p2⟩ := dict_populate h k2
  obtain ⟨_, _, g3⟩ := run_follows (follow := Spec.followDict lt) (l0 := []) (Rel := Good kind lt) (dict kind lt) n (fun s l o hg => (dict_plan h hg o).1) (fun s l hg => dict_populate h hg)
    (.connect passOn :: after) w1 hq2 k1 ⟨lx, k2⟩ k3
  have hw2 : (run (dict kind lt) (n + 1) w1 (.connect passOn :: after)).1 = w2 := (run_append _ _ _ _ _).symm
  rw [hw2] at g3
  obtain ⟨ob', rest, q1, q2, q3, q4⟩ := run_log (dict kind lt) n P after
    (step (dict kind lt) (n + 1) w1 (.connect passOn)).1 (fun r hr => hq r (by simp [hr])) (by
      intro x hx
      simp only [step, List.mem_append, List.mem_singleton] at hx
      rcases hx with hx | rfl
      · exact k1 x hx
      · intros; rfl) hP w1.observers.length ⟨((dict kind lt).populate w1.contents).map fun e => ⟨e, w1.contents, true⟩, passOn, true⟩ (by simp [step]) hd
  have hw2' : (run (dict kind lt) (n + 1) (step (dict kind lt) (n + 1) w1 (.connect passOn)).1 after).1 = w2 := by rw [← hw2]; rfl
  rw [hw2'] at q1
  have hlater : later w2 w1.observers.length = rest.map Note.ev := by
    unfold later
    rw [q1]
    simp only []
    rw [q2, List.filter_append, List.map_append]
    have e1 : (((dict kind lt).populate w1.contents).map fun e => (⟨e, w1.contents, true⟩ : Note _ _)).filter (fun n => !n.pop) = [] := by
      rw [List.filter_eq_nil_iff]
      intro x hx
      simp only [List.mem_map] at hx
      obtain ⟨e, _, rfl⟩ := hx
      simp
    have e2 : rest.filter (fun n => !n.pop) = rest := by
      rw [List.filter_eq_self]
      intro x hx
      rw [(q3 x hx).1]; rfl
    rw [e1, e2]; rfl
  obtain ⟨l2, r1, r2⟩ := (g3 ob' (List.mem_of_getElem? q1)).now q4
  rw [q2, List.map_append, replay_append] at r1
  have e3 : ((((dict kind lt).populate w1.contents).map fun e => (⟨e, w1.contents, true⟩ : Note (List (κ × ν)) (Event κ ν)))).map Note.ev = (dict kind lt).populate w1.contents := by
    simp [Function.comp_def]
  rw [e3, p1] at r1
  refine ⟨l1, l2, p1, p2, by rw [hlater]; exact r1, r2, ?_⟩
  rw [hlater]
  intro e he
  simp only [List.mem_map] at he
  obtain ⟨x, hx, rfl⟩ := he
  exact (q3 x hx).2

theorem good_value (h : StrictWeak lt) {kind : Kind} {xs l : List (κ × ν)} (hg : Good kind lt xs l) (k : κ) : Dict.get kind lt xs k = Spec.value lt l k :=
  by
  rcases get_good h hg k with ⟨h1, h2⟩ | ⟨e, h1, h2, h3⟩
  · rw [h1]
    unfold Spec.value Spec.all
    rw [List.filter_eq_nil_iff.mpr (by intro a ha; rw [h2 a (hg.perm.mem_iff.mpr ha)]; simp)]; rfl
  · rw [h3, value_mem h hg.luniq (hg.perm.mem_iff.mp h1) h2]

/-- Whoever observes the value of a key is told the value on connecting, and at every later moment the last report is the value that `Get` returns; provided the comparer given to the view finds two keys
    equal exactly if the dictionary does, and no observer changes the dictionary itself. -/
theorem key_value_partial (h : StrictWeak lt) [DecidableEq ν] (kind : Kind) (ceq : κ → κ → Bool) (key : κ) (hc : ∀ k, ceq key k = equiv lt key k) (n : Nat)
    (before after : List (Act (List (κ × ν)) (Event κ ν) (Dict.Op κ ν)))
    (hq : ∀ react, Act.connect react ∈ before ++ after → ∀ e s, react e s = [])
    (hd : Act.disconnect (run (dict kind lt) (n + 1) ⟨[], []⟩ before).1.observers.length ∉ after) :
    (valueLog kind lt ceq (n + 1) key before after).head? = some (Dict.get kind lt (run (dict kind lt) (n + 1) ⟨[], []⟩ before).1.contents key) ∧
    (valueLog kind lt ceq (n + 1) key before after).getLast? = some (Dict.get kind lt (run (dict kind lt) (n + 1) ⟨[], []⟩ (before ++ .connect passOn :: after)).1.contents key) := by
  refine ⟨rfl, ?_⟩
  obtain ⟨l1, l2, -, g1, r, g2, -⟩ := view_log h kind n before after hq hd (fun _ => True) (by intros; trivial)
  unfold valueLog
  rw [good_value h g1, good_value h g2]
  exact replay_value h hc _ _ _ r

theorem plan_no_update (kind : Kind) (s : List (κ × ν)) (o : Dict.Op κ ν) (ho : ∀ k v, o ≠ .set k v) : ∀ p ∈ (dictPlan kind lt s o).1, p.2.op ≠ .updated := by
  intro p hp
  cases o with
  | add k v =>
    simp only [dictPlan] at hp
    cases hx : Dict.add kind lt s k v <;> rw [hx] at hp <;> simp at hp
    subst hp; simp
  | set k v => exact absurd rfl (ho k v)
  | remove k =>
    simp only [dictPlan] at hp
    cases hx : Dict.get kind lt s k <;> rw [hx] at hp <;> simp at hp
    subst hp; simp [dictRemoval]
  | removeWhere q =>
    simp only [dictPlan, List.mem_map] at hp
    obtain ⟨x, _, rfl⟩ := hp; simp [dictRemoval]
  | clear =>
    simp only [dictPlan, List.mem_map] at hp
    obtain ⟨x, _, rfl⟩ := hp; simp [dictRemoval]

theorem filterMap_ext {A B : Type} {f g : A → Option B} : ∀ {l : List A}, (∀ a ∈ l, f a = g a) → l.filterMap f = l.filterMap g
  | [], _ => rfl
  | a :: l, h => by rw [List.filterMap_cons, List.filterMap_cons, h a (by simp), filterMap_ext (fun x hx => h x (by simp [hx]))]

/-- The same for the membership of an element of an observable set. -/
theorem set_entry_partial (h : StrictWeak lt) (kind : Kind) (ceq : κ → κ → Bool) (key : κ) (hc : ∀ k, ceq key k = equiv lt key k) (n : Nat)
    (before after : List (Act (List (κ × Unit)) (Event κ Unit) (Dict.Op κ Unit)))
    (hset : ∀ k v, Dict.Op.set k v ∉ calls after)
    (hq : ∀ react, Act.connect react ∈ before ++ after → ∀ e s, react e s = [])
    (hd : Act.disconnect (run (dict kind lt) (n + 1) ⟨[], []⟩ before).1.observers.length ∉ after) :
    (memberLog kind lt ceq (n + 1) key before after).head? = some (Dict.contains kind lt (run (dict kind lt) (n + 1) ⟨[], []⟩ before).1.contents key) ∧
    (memberLog kind lt ceq (n + 1) key before after).getLast? = some (Dict.contains kind lt (run (dict kind lt) (n + 1) ⟨[], []⟩ (before ++ .connect passOn :: after)).1.contents key) := by
  refine ⟨rfl, ?_⟩
  obtain ⟨l1, l2, -, g1, r, g2, hP⟩ := view_log h kind n before after hq hd (fun e => e.op ≠ .updated) (by
    intro o ho s p hp
    exact plan_no_update kind s o (fun k v e => hset k v (e ▸ ho)) p hp)
  have hv := replay_value h hc _ _ _ r
  have hcont : ∀ xs l : List (κ × Unit), Good kind lt xs l → Dict.contains kind lt xs key = (Spec.value lt l key).isSome := by
    intro xs l hg
    rw [← good_value h hg]
    unfold Dict.contains Dict.get
    rcases find_cases h hg key with ⟨h1, _⟩ | ⟨i, x, h1, h2, _⟩
    · rw [h1]; rfl
    · rw [h1]; simp [h2]
  unfold memberLog
  rw [hcont _ _ g1, hcont _ _ g2]
  have hm : (later (run (dict kind lt) (n + 1) ⟨[], []⟩ (before ++ .connect passOn :: after)).1 (run (dict kind lt) (n + 1) ⟨[], []⟩ before).1.observers.length).filterMap (memberReport ceq key) =
      ((later (run (dict kind lt) (n + 1) ⟨[], []⟩ (before ++ .connect passOn :: after)).1 (run (dict kind lt) (n + 1) ⟨[], []⟩ before).1.observers.length).filterMap (valueReport ceq key)).map Option.isSome := by
    rw [List.map_filterMap]
    apply filterMap_ext
    intro e he
    unfold memberReport valueReport
    by_cases hk : ceq key e.key = true
    · rw [if_pos hk, if_pos hk]
      have := hP e he
      cases hop : e.op with
      | added => simp
      | updated => exact absurd hop this
      | removed => simp
    · rw [if_neg hk, if_neg hk]; rfl
  rw [hm]
  have : (Spec.value lt l1 key).isSome :: (((later (run (dict kind lt) (n + 1) ⟨[], []⟩ (before ++ .connect passOn :: after)).1 (run (dict kind lt) (n + 1) ⟨[], []⟩ before).1.observers.length).filterMap (valueReport ceq key)).map Option.isSome)
      = (Spec.value lt l1 key :: ((later (run (dict kind lt) (n + 1) ⟨[], []⟩ (before ++ .connect passOn :: after)).1 (run (dict kind lt) (n + 1) ⟨[], []⟩ before).1.observers.length).filterMap (valueReport ceq key))).map Option.isSome := rfl
  rw [this, List.getLast?_map, hv]; rfl

/-- The keys of a dictionary. -/
def keysOf (l : List (κ × ν)) : List (κ × Unit) := l.map fun e => (e.1, ())

theorem has_keys (l : List (κ × ν)) (k : κ) : Spec.has lt (keysOf l) k = Spec.has lt l k := by
  unfold Spec.has keysOf
  rw [List.any_map]; rfl

theorem all_keys (l : List (κ × ν)) (k : κ) : Spec.all lt (keysOf l) k = keysOf (Spec.all lt l k) := by
  unfold Spec.all keysOf
  rw [List.filter_map]; rfl

theorem follow_keys [DecidableEq ν] {l l' : List (κ × ν)} {e : Event κ ν} (hf : Spec.followDict lt l e = some l') :
    Spec.replay (Spec.followDict lt) (keysOf l) (keysReport e).toList = some (keysOf l') := by
  unfold Spec.followDict at hf
  unfold keysReport
  cases hop : e.op with
  | added =>
    rw [hop] at hf
    simp only [] at hf
    by_cases hh : Spec.has lt l e.key = true
    · rw [if_pos hh] at hf; cases hf
    · rw [if_neg hh] at hf
      injection hf with hf; subst hf
      rw [if_pos (by simp)]
      simp only [Option.toList_some, Spec.replay, Spec.followDict, has_keys, hh]
      simp [keysOf]
  | updated =>
    rw [hop] at hf
    simp only [] at hf
    by_cases hh : Spec.has lt l e.key = true
    · rw [if_pos hh] at hf
      injection hf with hf; subst hf
      rw [if_neg (by simp)]
      simp only [Option.toList_none, Spec.replay, Option.some.injEq, keysOf, List.map_map]
      apply List.map_congr_left
      intro x _
      simp only [Function.comp_apply]
      by_cases hx : equiv lt x.1 e.key = true <;> simp [hx]
    · rw [if_neg hh] at hf; cases hf
  | removed =>
    rw [hop] at hf
    simp only [] at hf
    by_cases hh : Spec.value lt l e.key = some e.value
    · rw [if_pos hh] at hf
      injection hf with hf; subst hf
      rw [if_pos (by simp)]
      have hv : Spec.value lt (keysOf l) e.key = some () := by
        unfold Spec.value at hh ⊢
        rw [all_keys]
        cases ha : Spec.all lt l e.key with
        | nil => rw [ha] at hh; cases hh
        | cons x xs => rfl
      simp only [Option.toList_some, Spec.replay, Spec.followDict, hv, if_true, Option.bind_some, Option.some.injEq]
      unfold keysOf
      rw [List.filter_map]; rfl
    · rw [if_neg hh] at hf; cases hf

theorem replay_keys [DecidableEq ν] : ∀ (es : List (Event κ ν)) (l l' : List (κ × ν)), Spec.replay (Spec.followDict lt) l es = some l' →
    Spec.replay (Spec.followDict lt) (keysOf l) (es.filterMap keysReport) = some (keysOf l')
  | [], l, l', hr => by
    simp only [Spec.replay, Option.some.injEq] at hr; subst hr; rfl
  | e :: es, l, l', hr => by
    simp only [Spec.replay] at hr
    cases hf : Spec.followDict lt l e with
    | none => rw [hf] at hr; cases hr
    | some l1 =>
      rw [hf] at hr
      have ih := replay_keys es l1 l' hr
      have hk := follow_keys hf
      have : (e :: es).filterMap keysReport = (keysReport e).toList ++ es.filterMap keysReport := by
        rw [List.filterMap_cons]; cases keysReport e <;> rfl
      rw [this, replay_append, hk]
      exact ih

theorem arranged_keys {kind : Kind} {xs l : List (κ × ν)} (hg : Spec.Arranged kind lt xs l) : Spec.Arranged kind lt (keysOf xs) (keysOf l) := by
  cases kind with
  | insertion => exact congrArg keysOf hg
  | sorted =>
    refine ⟨hg.1.map _, ?_⟩
    have := hg.2
    unfold keysOf
    rw [List.pairwise_map]
    exact this

/-- Whoever observes the set of keys of an observable dictionary is told a sequence of additions and removals which makes sense for a set (nothing is added twice, nothing absent is removed, nothing is
    updated), and at every moment what it has is the keys of the dictionary. -/
theorem keys_set_partial (h : StrictWeak lt) [DecidableEq ν] (kind : Kind) (n : Nat) (before after : List (Act (List (κ × ν)) (Event κ ν) (Dict.Op κ ν)))
    (hq : ∀ react, Act.connect react ∈ before ++ after → ∀ e s, react e s = [])
    (hd : Act.disconnect (run (dict kind lt) (n + 1) ⟨[], []⟩ before).1.observers.length ∉ after) :
    ∃ l, Spec.replay (Spec.followDict lt) [] (keysLog kind lt (n + 1) before after) = some l ∧ (∀ e ∈ keysLog kind lt (n + 1) before after, e.op ≠ .updated) ∧
      Spec.Arranged kind lt ((run (dict kind lt) (n + 1) ⟨[], []⟩ (before ++ .connect passOn :: after)).1.contents.map fun e => (e.1, ())) l := by
  obtain ⟨l1, l2, p, g1, r, g2, -⟩ := view_log h kind n before after hq hd (fun _ => True) (by intros; trivial)
  refine ⟨keysOf l2, ?_, ?_, arranged_keys g2.arr⟩
  · unfold keysLog
    have e1 : (((dict kind lt).populate (run (dict kind lt) (n + 1) ⟨[], []⟩ before).1.contents).map fun e => (⟨e.op, e.key, ()⟩ : Event κ Unit)) =
        (((dict kind lt).populate (run (dict kind lt) (n + 1) ⟨[], []⟩ before).1.contents)).filterMap keysReport := by
      rw [← List.filterMap_eq_map]
      apply filterMap_ext
      intro e he
      simp only [dict, List.mem_map] at he
      obtain ⟨x, _, rfl⟩ := he
      simp [keysReport]
    rw [e1, replay_append]
    have := replay_keys _ _ _ p
    simp only [keysOf, List.map_nil] at this
    rw [this]
    exact replay_keys _ _ _ r
  · intro e he
    unfold keysLog at he
    rcases List.mem_append.mp he with he | he
    · simp only [dict, List.map_map, List.mem_map] at he
      obtain ⟨x, _, rfl⟩ := he
      simp
    · simp only [List.mem_filterMap] at he
      obtain ⟨x, _, hx⟩ := he
      unfold keysReport at hx
      by_cases hu : x.op ≠ .updated
      · rw [if_pos hu] at hx; injection hx with hx; subst hx; exact hu
      · rw [if_neg hu] at hx; cases hx

/-- Setting the value through the view: the key has that value (or is gone), all other keys keep theirs. -/
theorem key_value_set (h : StrictWeak lt) (kind : Kind) (ops : List (Dict.Op κ ν)) (key : κ) (v : Option ν) :
    Dict.get kind lt (Dict.run kind lt [] (ops ++ [valueSet key v])).1 key = v ∧
    ∀ k, equiv lt k key = false → Dict.get kind lt (Dict.run kind lt [] (ops ++ [valueSet key v])).1 k = Dict.get kind lt (Dict.run kind lt [] ops).1 k := by
  classical
  have hr : ∀ ops2, (Dict.run kind lt [] (ops ++ ops2)).1 = (Dict.run kind lt (Dict.run kind lt [] ops).1 ops2).1 := by
    intro ops2
    generalize ([] : List (κ × ν)) = xs
    induction ops generalizing xs with
    | nil => rfl
    | cons o os ih => simp only [List.cons_append, Dict.run]; exact ih _
  rw [hr]
  obtain ⟨hg, _⟩ := dict_run h (kind := kind) ops (good_nil kind)
  generalize (Dict.run kind lt [] ops).1 = xs at hg ⊢
  generalize (Spec.dictRun lt [] ops).1 = l at hg
  simp only [Dict.run]
  obtain ⟨hs, _⟩ := dict_step h hg (valueSet key v)
  have hk : ∀ k, Spec.value lt (Spec.dictStep lt l (valueSet key v)).1 k = if equiv lt k key = true then v else Spec.value lt l k := by
    intro k
    cases v with
    | some x =>
      have hf : Spec.followDict lt l ⟨if Spec.has lt l key then .updated else .added, key, x⟩ = some (Spec.dictStep lt l (valueSet key (some x))).1 := by
        unfold Spec.followDict valueSet Spec.dictStep
        by_cases hh : Spec.has lt l key = true <;> simp [hh]
      rw [followDict_value (ceq := equiv lt) h (fun _ => rfl) hf]
      unfold valueReport
      by_cases hk : equiv lt k key = true
      · simp only [hk, if_true, Option.getD_some]
        by_cases hh : Spec.has lt l key = true <;> simp [hh]
      · simp only [hk]; rfl
    | none =>
      cases hv : Spec.value lt l key with
      | some y =>
        have hf : Spec.followDict lt l ⟨.removed, key, y⟩ = some (Spec.dictStep lt l (valueSet key none)).1 := by
          unfold Spec.followDict
          simp only [hv, if_true]
          rfl
        rw [followDict_value (ceq := equiv lt) h (fun _ => rfl) hf]
        unfold valueReport
        by_cases hk : equiv lt k key = true
        · simp only [hk, if_true, Option.getD_some]
        · simp only [hk]; rfl
      | none =>
        have ha : Spec.all lt l key = [] := by
          unfold Spec.value at hv
          cases hl : Spec.all lt l key with
          | nil => rfl
          | cons a as => rw [hl] at hv; cases hv
        unfold Spec.all at ha
        rw [List.filter_eq_nil_iff] at ha
        have hf : (Spec.dictStep lt l (valueSet key none)).1 = l := by
          simp only [valueSet, Spec.dictStep]
          rw [List.filter_eq_self]
          intro a hal
          have := ha a hal
          simpa using this
        rw [hf]
        by_cases hk : equiv lt k key = true
        · rw [if_pos hk, ← hv]
          unfold Spec.value Spec.all
          congr 2
          apply List.filter_congr
          intro x _
          rw [Bool.eq_iff_iff]
          exact ⟨fun h1 => equiv_trans h h1 hk, fun h1 => equiv_trans h h1 (by rw [equiv_comm]; exact hk)⟩
        · rw [if_neg hk]
  refine ⟨?_, fun k hne => ?_⟩
  · rw [good_value h hs, hk, if_pos (equiv_refl h key)]
  · rw [good_value h hs, good_value h hg, hk, if_neg (by rw [hne]; simp)]

/-- Setting the membership through the view: the element is there or not as asked, all others as before. -/
theorem set_entry_set (h : StrictWeak lt) (kind : Kind) (ops : List (Dict.Op κ Unit)) (key : κ) (b : Bool) :
    Dict.contains kind lt (Dict.run kind lt [] (ops ++ [memberSet key b])).1 key = b ∧
    ∀ k, equiv lt k key = false → Dict.contains kind lt (Dict.run kind lt [] (ops ++ [memberSet key b])).1 k = Dict.contains kind lt (Dict.run kind lt [] ops).1 k := by
  have hr : ∀ o, (Spec.dictRun lt [] (ops ++ [o])).1 = (Spec.dictStep lt (Spec.dictRun lt [] ops).1 o).1 := by
    intro o
    generalize ([] : List (κ × Unit)) = xs
    induction ops generalizing xs with
    | nil => rfl
    | cons o os ih => simp only [List.cons_append, Spec.dictRun]; exact ih _
  have hc : ∀ ops k, Dict.contains kind lt (Dict.run kind lt [] ops).1 k = Spec.has lt (Spec.dictRun lt ([] : List (κ × Unit)) ops).1 k :=
    fun ops k => (dictionary_lookup h kind ops k).1
  simp only [hc, hr]
  generalize (Spec.dictRun lt [] ops).1 = l
  have hk : ∀ k, Spec.has lt (Spec.dictStep lt l (memberSet key b)).1 k = if equiv lt k key = true then b else Spec.has lt l k := by
    intro k
    cases b with
    | true =>
      simp only [memberSet, if_true, Spec.dictStep]
      by_cases hh : Spec.has lt l key = true
      · rw [if_pos hh]
        simp only []
        by_cases hk : equiv lt k key = true
        · rw [if_pos hk]
          obtain ⟨e, he, hek⟩ := has_iff.mp hh
          exact has_iff.mpr ⟨e, he, equiv_trans h hek (by rw [equiv_comm]; exact hk)⟩
        · rw [if_neg hk]
      · rw [if_neg hh]
        simp only [Spec.has, List.any_append, List.any_cons, List.any_nil, Bool.or_false]
        rw [equiv_comm (a := key) (b := k)]
        by_cases hk : equiv lt k key = true <;> simp [hk]
    | false =>
      simp only [memberSet, Spec.dictStep, Bool.false_eq_true, if_false]
      by_cases hk : equiv lt k key = true
      · rw [if_pos hk, has_false]
        intro e he
        have := (List.mem_filter.mp he).2
        simp only [Bool.not_eq_true'] at this
        by_cases hc : equiv lt e.1 k = true
        · rw [equiv_trans h hc hk] at this; cases this
        · simpa using hc
      · rw [if_neg hk, Bool.eq_iff_iff, has_iff, has_iff]
        constructor
        · rintro ⟨e, he, hek⟩; exact ⟨e, (List.mem_filter.mp he).1, hek⟩
        · rintro ⟨e, he, hek⟩
          refine ⟨e, List.mem_filter.mpr ⟨he, ?_⟩, hek⟩
          simp only [Bool.not_eq_true']
          by_cases hc : equiv lt e.1 key = true
          · exact absurd (equiv_trans h (by rw [equiv_comm]; exact hek) hc) hk
          · simpa using hc
  refine ⟨?_, fun k hne => ?_⟩
  · rw [hk, if_pos (equiv_refl h key)]
  · rw [hk, if_neg (by rw [hne]; simp)]

/-- A view made with the default comparer, of a dictionary whose order does not tell 3 and 13 apart: `Get` changes from 'a' to 'b' and nobody is told. -/
theorem finer_comparer_violated :
    valueLog .sorted (fun a b : Nat => decide (a % 10 < b % 10)) (fun a b => decide (a = b)) 1 3 [.call (.set 3 'a')] [.call (.set 13 'b')] = [some 'a'] ∧
    Dict.get .sorted (fun a b : Nat => decide (a % 10 < b % 10)) (run (dict .sorted (fun a b : Nat => decide (a % 10 < b % 10))) 1 ⟨[], []⟩
      ([.call (.set 3 'a')] ++ .connect passOn :: [.call (.set 13 'b')])).1.contents 3 = some 'b' := by
  decide +kernel

example : StrictWeak (fun a b : Nat => decide (a < b)) ∧ ∀ k, (fun a b : Nat => decide (a = b)) 3 k = equiv (fun a b : Nat => decide (a < b)) 3 k := by
  refine ⟨strictWeak_nat, ?_⟩
  intro k
  simp only [equiv]
  rw [Bool.eq_iff_iff]
  simp only [Bool.and_eq_true, Bool.not_eq_true', decide_eq_true_eq, decide_eq_false_iff_not]
  omega

/-- The reports about key 3 and about the keys, of a dictionary in order of insertion. -/
example : valueLog .insertion (fun a b : Nat => decide (a < b)) (fun a b => decide (a = b)) 1 3 [.call (.add 3 'a'), .call (.add 7 'x')]
      [.call (.set 3 'b'), .call (.set 7 'y'), .call (.remove 3), .call (.add 5 'd'), .call (.add 3 'e'), .call .clear] = [some 'a', some 'b', none, some 'e', none] := by
  decide +kernel

example : keysLog .insertion (fun a b : Nat => decide (a < b)) 1 [.call (.add 3 'a'), .call (.add 7 'x')]
      [.call (.set 3 'b'), .call (.set 7 'y'), .call (.remove 3), .call (.set 5 'd')] = [⟨.added, 3, ()⟩, ⟨.added, 7, ()⟩, ⟨.removed, 3, ()⟩, ⟨.added, 5, ()⟩] := by
  decide +kernel

example : memberLog .sorted (fun a b : Nat => decide (a < b)) (fun a b => decide (a = b)) 1 3 [.call (.add 3 ())]
      [.call (.remove 4), .call (.remove 3), .call (.add 4 ()), .call (.add 3 ())] = [true, false, true] := by
  decide +kernel

end Verif.Coll.Obs
