import Verif.Thread.Local
/-
What a user of a thread local variable relies on: every thread has one value of its own, from its first use until its destructors run; it is destroyed once; the key of
pthread lives as long as values need it and no longer.
-/
namespace Verif.Thread.Local

structure Inv (s : State) : Prop where
  val : ∀ (t : Nat) (th : Thread) (v : Nat), s.threads[t]? = some th → th.value = some v → ∃ h, s.holders[v]? = some h ∧ h.owner = t ∧
    ((h.alive = true ∧ th.specific = some (h.key, v)) ∨ (h.alive = false ∧ th.specific = none ∧ th.phase = .ending))
  noval : ∀ (t : Nat) (th : Thread), s.threads[t]? = some th → th.value = none → th.specific = none
  own : ∀ (v : Nat) (h : Holder), s.holders[v]? = some h → ∃ th, s.threads[h.owner]? = some th ∧ (th.value = some v ∨ (th.phase = .gone ∧ h.alive = false))
  once : ∀ (v w : Nat) (g h : Holder), s.holders[v]? = some g → s.holders[w]? = some h → g.owner = h.owner → v = w
  gone : ∀ (t : Nat) (th : Thread), s.threads[t]? = some th → th.phase = .gone → th.value = none
  key : ∀ (v : Nat) (h : Holder), s.holders[v]? = some h → h.alive = true → s.keys[h.key]? = some true
  single : ∀ k, s.single = some (some k) → s.keys[k]? = some true
  used : ∀ k : Nat, s.keys[k]? = some true → s.single = some (some k) ∨ ∃ (v : Nat) (h : Holder), s.holders[v]? = some h ∧ h.alive = true ∧ h.key = k
  gets : ∀ t v, (t, v) ∈ s.gets → ∃ h, s.holders[v]? = some h ∧ h.owner = t

theorem inv_init : Inv init := by
  constructor <;> intros <;> simp_all [init]

theorem collect_get (single : Option (Option Nat)) (holders : List Holder) (keys : List Bool) (k : Nat) :
    (collect single holders keys)[k]? = some true ↔
      keys[k]? = some true ∧ (single = some (some k) ∨ ∃ (v : Nat) (h : Holder), holders[v]? = some h ∧ h.alive = true ∧ h.key = k) := by
  have hu : unreferenced single holders k = false ↔ (single = some (some k) ∨ ∃ (v : Nat) (h : Holder), holders[v]? = some h ∧ h.alive = true ∧ h.key = k) := by
    simp only [unreferenced, Bool.and_eq_false_iff, bne_eq_false_iff_eq, List.all_eq_false, Bool.not_eq_true, Bool.not_eq_false', Bool.and_eq_true, beq_iff_eq]
    apply or_congr Iff.rfl
    constructor
    · rintro ⟨h, hm, ha, hk⟩
      obtain ⟨v, hv⟩ := List.mem_iff_getElem?.mp hm
      exact ⟨v, h, hv, ha, hk⟩
    · rintro ⟨v, h, hv, ha, hk⟩
      exact ⟨h, List.mem_of_getElem? hv, ha, hk⟩
  rw [← hu]
  simp only [collect, List.getElem?_mapIdx, Option.map_eq_some_iff, Bool.and_eq_true, Bool.not_eq_true']
  constructor
  · rintro ⟨b, hb, rfl, h⟩; exact ⟨hb, h⟩
  · rintro ⟨hb, h⟩; exact ⟨true, hb, rfl, h⟩

theorem lt_of {α : Type} {l : List α} {i : Nat} {a : α} (h : l[i]? = some a) : i < l.length := (List.getElem?_eq_some_iff.mp h).1

theorem get_set {α : Type} {l : List α} {i j : Nat} {a b : α} (h : (l.set i a)[j]? = some b) : (i = j ∧ b = a) ∨ (i ≠ j ∧ l[j]? = some b) := by
  by_cases hij : i = j
  · subst hij
    have := lt_of h
    simp only [List.length_set] at this
    rw [List.getElem?_set_self this] at h
    exact .inl ⟨rfl, (Option.some.inj h).symm⟩
  · rw [List.getElem?_set_ne hij] at h
    exact .inr ⟨hij, h⟩

theorem get_append {α : Type} {l : List α} {j : Nat} {a b : α} (h : (l ++ [a])[j]? = some b) : (j = l.length ∧ b = a) ∨ l[j]? = some b := by
  rw [List.getElem?_append] at h
  split at h
  · exact .inr h
  · cases hk : j - l.length with
    | zero => rw [hk] at h; simp at h; exact .inl ⟨by omega, h.symm⟩
    | succ n => rw [hk] at h; simp at h

theorem append_keep {α : Type} {l : List α} {j : Nat} {a b : α} (h : l[j]? = some b) : (l ++ [a])[j]? = some b := by
  rw [List.getElem?_append_left (lt_of h)]; exact h

theorem inv_start {s : State} (h : Inv s) : Inv { s with threads := s.threads ++ [⟨.running, none, none⟩] } := by
  refine ⟨fun t th v ht hv => ?_, fun t th ht hv => ?_, fun v g hg => ?_, h.once, fun t th ht hv => ?_, h.key, h.single, h.used, h.gets⟩
  · rcases get_append ht with ⟨_, rfl⟩ | ht
    · simp at hv
    · exact h.val t th v ht hv
  · rcases get_append ht with ⟨_, rfl⟩ | ht
    · rfl
    · exact h.noval t th ht hv
  · obtain ⟨th, h1, h2⟩ := h.own v g hg
    exact ⟨th, append_keep h1, h2⟩
  · rcases get_append ht with ⟨_, rfl⟩ | ht
    · rfl
    · exact h.gone t th ht hv

theorem inv_exit {s : State} {t : Nat} {th : Thread} (h : Inv s) (ht : s.threads[t]? = some th) (hp : th.phase = .running) :
    Inv { s with threads := s.threads.set t ⟨.ending, th.value, th.specific⟩ } := by
  have hlt := lt_of ht
  refine ⟨fun u uh v hu hv => ?_, fun u uh hu hv => ?_, fun v g hg => ?_, h.once, fun u uh hu hv => ?_, h.key, h.single, h.used, h.gets⟩
  · rcases get_set hu with ⟨rfl, rfl⟩ | ⟨_, hu⟩
    · obtain ⟨g, h1, h2, h3⟩ := h.val t th v ht hv
      refine ⟨g, h1, h2, ?_⟩
      rcases h3 with h3 | ⟨_, _, h3⟩
      · exact .inl h3
      · rw [hp] at h3; cases h3
    · exact h.val u uh v hu hv
  · rcases get_set hu with ⟨rfl, rfl⟩ | ⟨_, hu⟩
    · exact h.noval t th ht hv
    · exact h.noval u uh hu hv
  · obtain ⟨uh, h1, h2⟩ := h.own v g hg
    by_cases he : t = g.owner
    · rw [← he] at h1 ⊢
      rw [ht] at h1; cases h1
      refine ⟨_, List.getElem?_set_self hlt, ?_⟩
      rcases h2 with h2 | ⟨h2, _⟩
      · exact .inl h2
      · rw [hp] at h2; cases h2
    · exact ⟨uh, by rw [List.getElem?_set_ne he]; exact h1, h2⟩
  · rcases get_set hu with ⟨rfl, rfl⟩ | ⟨_, hu⟩
    · cases hv
    · exact h.gone u uh hu hv

theorem inv_finish {s : State} {t : Nat} {th : Thread} (h : Inv s) (ht : s.threads[t]? = some th) (hs : th.specific = none) :
    Inv { s with threads := s.threads.set t ⟨.gone, none, none⟩ } := by
  have hlt := lt_of ht
  refine ⟨fun u uh v hu hv => ?_, fun u uh hu hv => ?_, fun v g hg => ?_, h.once, fun u uh hu hv => ?_, h.key, h.single, h.used, h.gets⟩
  · rcases get_set hu with ⟨rfl, rfl⟩ | ⟨_, hu⟩
    · cases hv
    · exact h.val u uh v hu hv
  · rcases get_set hu with ⟨rfl, rfl⟩ | ⟨_, hu⟩
    · rfl
    · exact h.noval u uh hu hv
  · obtain ⟨uh, h1, h2⟩ := h.own v g hg
    by_cases he : t = g.owner
    · rw [← he] at h1 ⊢
      rw [ht] at h1; cases h1
      refine ⟨_, List.getElem?_set_self hlt, .inr ⟨rfl, ?_⟩⟩
      rcases h2 with h2 | ⟨_, h2⟩
      · obtain ⟨g', h3, _, h4⟩ := h.val t th v ht h2
        rw [hg] at h3; cases h3
        rcases h4 with ⟨_, h4⟩ | ⟨h4, _⟩
        · rw [hs] at h4; cases h4
        · exact h4
      · exact h2
    · exact ⟨uh, by rw [List.getElem?_set_ne he]; exact h1, h2⟩
  · rcases get_set hu with ⟨rfl, rfl⟩ | ⟨_, hu⟩
    · rfl
    · exact h.gone u uh hu hv

theorem inv_kill {s : State} (h : Inv s) : Inv { s with single := some none, keys := collect (some none) s.holders s.keys } := by
  refine ⟨h.val, h.noval, h.own, h.once, h.gone, fun v g hg ha => ?_, fun k hk => by simp at hk, fun k hk => ?_, h.gets⟩
  · exact (collect_get _ _ _ _).mpr ⟨h.key v g hg ha, .inr ⟨v, g, hg, ha, rfl⟩⟩
  · exact ((collect_get _ _ _ _).mp hk).2

theorem inv_kill_none {s : State} (h : Inv s) (hs : ∀ k, s.single ≠ some (some k)) : Inv { s with single := some none } := by
  refine ⟨h.val, h.noval, h.own, h.once, h.gone, h.key, fun k hk => by simp at hk, fun k hk => ?_, h.gets⟩
  rcases h.used k hk with h1 | h1
  · exact absurd h1 (hs k)
  · exact .inr h1

theorem inv_dtor {s s' : State} {t k v : Nat} {th : Thread} (h : Inv s) (ht : s.threads[t]? = some th) (hp : th.phase = .ending) (hsp : th.specific = some (k, v))
    (hs : dtor s t th k v = .ok s') : Inv s' := by
  have hlt := lt_of ht
  simp only [dtor] at hs
  split at hs
  · next o k' hk hv =>
    cases hs
    have hvl := lt_of hv
    have hval : th.value = some v := by
      cases hth : th.value with
      | none => rw [h.noval t th ht hth] at hsp; cases hsp
      | some w =>
        obtain ⟨g, _, _, h3⟩ := h.val t th w ht hth
        rcases h3 with ⟨_, h3⟩ | ⟨_, h3, _⟩
        · rw [hsp] at h3; cases h3; rfl
        · rw [hsp] at h3; cases h3
    obtain ⟨g, hg, hgo, _⟩ := h.val t th v ht hval
    rw [hv] at hg; cases hg
    simp only at hgo
    subst hgo
    have used : ∀ (w : Nat) (g : Holder), (s.holders.set v ⟨o, k', false⟩)[w]? = some g → g.alive = true → s.holders[w]? = some g := by
      intro w g hw ha
      rcases get_set hw with ⟨_, rfl⟩ | ⟨_, hw⟩
      · cases ha
      · exact hw
    refine ⟨fun u uh w hu hw => ?_, fun u uh hu hw => ?_, fun w g hg => ?_, fun w x g g' hg hg' he => ?_, fun u uh hu hw => ?_, fun w g hg ha => ?_, fun j hj => ?_, fun j hj => ?_, fun u w hm => ?_⟩
    · rcases get_set hu with ⟨rfl, rfl⟩ | ⟨hne, hu⟩
      · simp only at hw
        rw [hval] at hw; cases hw
        exact ⟨_, List.getElem?_set_self hvl, rfl, .inr ⟨rfl, rfl, hp⟩⟩
      · obtain ⟨g, h1, h2, h3⟩ := h.val u uh w hu hw
        have : v ≠ w := by
          intro he; subst he; rw [hv] at h1; cases h1; exact hne h2
        exact ⟨g, by simp only; rw [List.getElem?_set_ne this]; exact h1, h2, h3⟩
    · rcases get_set hu with ⟨rfl, rfl⟩ | ⟨_, hu⟩
      · rfl
      · exact h.noval u uh hu hw
    · have old : ∃ g', s.holders[w]? = some g' ∧ g'.owner = g.owner ∧ (g'.alive = false → g.alive = false) ∧ (v = w → g.owner = o) := by
        rcases get_set hg with ⟨rfl, rfl⟩ | ⟨hne, hg⟩
        · exact ⟨_, hv, rfl, fun _ => rfl, fun _ => rfl⟩
        · exact ⟨g, hg, rfl, id, fun he => absurd he hne⟩
      obtain ⟨g', h1, h2, h3, h4⟩ := old
      obtain ⟨uh, h5, h6⟩ := h.own w g' h1
      rw [h2] at h5
      by_cases he : o = g.owner
      · rw [← he] at h5 ⊢
        rw [ht] at h5; cases h5
        refine ⟨_, List.getElem?_set_self hlt, ?_⟩
        rcases h6 with h6 | ⟨h6, _⟩
        · exact .inl h6
        · rw [hp] at h6; cases h6
      · refine ⟨uh, by simp only; rw [List.getElem?_set_ne he]; exact h5, ?_⟩
        rcases h6 with h6 | ⟨h6, h7⟩
        · exact .inl h6
        · exact .inr ⟨h6, h3 h7⟩
    · have old : ∀ (w : Nat) (g : Holder), (s.holders.set v ⟨o, k', false⟩)[w]? = some g → ∃ g', s.holders[w]? = some g' ∧ g'.owner = g.owner := by
        intro w g hg
        rcases get_set hg with ⟨rfl, rfl⟩ | ⟨_, hg⟩
        · exact ⟨_, hv, rfl⟩
        · exact ⟨g, hg, rfl⟩
      obtain ⟨a, h1, h2⟩ := old w g hg
      obtain ⟨b, h3, h4⟩ := old x g' hg'
      exact h.once w x a b h1 h3 (by rw [h2, h4, he])
    · rcases get_set hu with ⟨rfl, rfl⟩ | ⟨_, hu⟩
      · simp only at hw; rw [hp] at hw; cases hw
      · exact h.gone u uh hu hw
    · exact (collect_get _ _ _ _).mpr ⟨h.key w g (used w g hg ha) ha, .inr ⟨w, g, hg, ha, rfl⟩⟩
    · exact (collect_get _ _ _ _).mpr ⟨h.single j hj, .inl hj⟩
    · exact ((collect_get _ _ _ _).mp hj).2
    · obtain ⟨g, h1, h2⟩ := h.gets u w hm
      by_cases hw : v = w
      · subst hw
        rw [hv] at h1; cases h1
        exact ⟨_, List.getElem?_set_self hvl, h2⟩
      · exact ⟨g, by simp only; rw [List.getElem?_set_ne hw]; exact h1, h2⟩
  · cases hs

/-- `getKey` gives a key that exists; all other keys are as before, and only the key and the singleton change. -/
theorem getKey_spec {s : State} (h : Inv s) : (getKey s).2.threads = s.threads ∧ (getKey s).2.holders = s.holders ∧ (getKey s).2.gets = s.gets ∧
    (getKey s).2.keys[(getKey s).1]? = some true ∧ (∀ k : Nat, s.keys[k]? = some true → (getKey s).2.keys[k]? = some true) ∧
    (∀ k, (getKey s).2.single = some (some k) → (getKey s).2.keys[k]? = some true) ∧
    ∀ k : Nat, (getKey s).2.keys[k]? = some true → k ≠ (getKey s).1 → (getKey s).2.single = some (some k) ∨ ∃ (v : Nat) (g : Holder), s.holders[v]? = some g ∧ g.alive = true ∧ g.key = k := by
  have app : ∀ {k : Nat}, (s.keys ++ [true])[k]? = some true → k ≠ s.keys.length → s.keys[k]? = some true := by
    intro k hk hne
    rcases get_append hk with ⟨h1, _⟩ | h1
    · exact absurd h1 hne
    · exact h1
  simp only [getKey]
  split
  · next k hk => exact ⟨rfl, rfl, rfl, h.single k hk, fun _ => id, h.single, fun j hj _ => h.used j hj⟩
  · next hk =>
    refine ⟨rfl, rfl, rfl, by simp, fun j hj => append_keep hj, fun j hj => ?_, fun j hj hne => ?_⟩
    · simp at hj; subst hj; simp
    · rcases h.used j (app hj hne) with h1 | h1
      · rw [hk] at h1; cases h1
      · exact .inr h1
  · next hk =>
    refine ⟨rfl, rfl, rfl, by simp, fun j hj => append_keep hj, fun j hj => ?_, fun j hj hne => ?_⟩
    · rw [hk] at hj; simp at hj
    · rcases h.used j (app hj hne) with h1 | h1
      · rw [hk] at h1; cases h1
      · exact .inr h1

theorem inv_make {s : State} {t : Nat} {th : Thread} (h : Inv s) (ht : s.threads[t]? = some th) (hp : th.phase ≠ .gone) (hn : th.value = none) :
    Inv (make (getKey s).2 t th (getKey s).1) := by
  obtain ⟨e1, e2, e3, e4, e5, e6, e7⟩ := getKey_spec h
  have hlt := lt_of ht
  have fresh : ∀ (v : Nat) (g : Holder), s.holders[v]? = some g → g.owner ≠ t := by
    intro v g hg he
    obtain ⟨uh, h1, h2⟩ := h.own v g hg
    rw [he, ht] at h1; cases h1
    rcases h2 with h2 | ⟨h2, _⟩
    · rw [hn] at h2; cases h2
    · exact hp h2
  constructor
  · intro u uh w hu hw
    simp only [make, e1, e2] at hu ⊢
    rcases get_set hu with ⟨rfl, rfl⟩ | ⟨hne, hu⟩
    · cases hw
      exact ⟨⟨t, (getKey s).1, true⟩, by simp, rfl, .inl ⟨rfl, rfl⟩⟩
    · obtain ⟨g, h1, h2⟩ := h.val u uh w hu hw
      exact ⟨g, append_keep h1, h2⟩
  · intro u uh hu hw
    simp only [make, e1, e2] at hu
    rcases get_set hu with ⟨rfl, rfl⟩ | ⟨_, hu⟩
    · cases hw
    · exact h.noval u uh hu hw
  · intro w g hg
    simp only [make, e1, e2] at hg ⊢
    rcases get_append hg with ⟨rfl, rfl⟩ | hg
    · exact ⟨_, List.getElem?_set_self hlt, .inl rfl⟩
    · obtain ⟨uh, h1, h2⟩ := h.own w g hg
      exact ⟨uh, by rw [List.getElem?_set_ne (Ne.symm (fresh w g hg))]; exact h1, h2⟩
  · intro v w g g' hg hg' he
    simp only [make, e2] at hg hg'
    rcases get_append hg with ⟨rfl, rfl⟩ | hg <;> rcases get_append hg' with ⟨rfl, rfl⟩ | hg'
    · rfl
    · exact absurd he.symm (fresh w g' hg')
    · exact absurd he (fresh v g hg)
    · exact h.once v w g g' hg hg' he
  · intro u uh hu hw
    simp only [make, e1] at hu
    rcases get_set hu with ⟨rfl, rfl⟩ | ⟨_, hu⟩
    · exact absurd hw hp
    · exact h.gone u uh hu hw
  · intro v g hg ha
    simp only [make, e2] at hg ⊢
    rcases get_append hg with ⟨rfl, rfl⟩ | hg
    · exact e4
    · exact e5 _ (h.key v g hg ha)
  · exact e6
  · intro k hk
    simp only [make, e2] at hk ⊢
    by_cases he : k = (getKey s).1
    · exact .inr ⟨s.holders.length, ⟨t, (getKey s).1, true⟩, by simp, rfl, he.symm⟩
    · rcases e7 k hk he with h1 | ⟨v, g, h1, h2⟩
      · exact .inl h1
      · exact .inr ⟨v, g, append_keep h1, h2⟩
  · intro u w hm
    simp only [make, e2, e3, List.mem_append, List.mem_singleton, Prod.mk.injEq] at hm ⊢
    rcases hm with hm | ⟨rfl, rfl⟩
    · obtain ⟨g, h1, h2⟩ := h.gets u w hm
      exact ⟨g, append_keep h1, h2⟩
    · exact ⟨⟨u, (getKey s).1, true⟩, by simp, rfl⟩

theorem inv_get {s s' : State} {t : Nat} {th : Thread} (h : Inv s) (ht : s.threads[t]? = some th) (hp : th.phase ≠ .gone) (hs : get s t th = .ok s') : Inv s' := by
  simp only [get] at hs
  split at hs
  · next v hv =>
    split at hs
    · cases hs
      refine ⟨h.val, h.noval, h.own, h.once, h.gone, h.key, h.single, h.used, fun u w hm => ?_⟩
      simp only [List.mem_append, List.mem_singleton, Prod.mk.injEq] at hm
      rcases hm with hm | ⟨rfl, rfl⟩
      · exact h.gets u w hm
      · obtain ⟨g, h1, h2, _⟩ := h.val u th w ht hv
        exact ⟨g, h1, h2⟩
    · cases hs
  · next hv =>
    cases hs
    exact inv_make h ht hp hv

theorem inv_step {s s' : State} {a : Act} (h : Inv s) (hs : step s a = .ok s') : Inv s' := by
  cases a with
  | start => cases hs; exact inv_start h
  | get t =>
    simp only [step] at hs
    split at hs
    · cases hs
    · next th ht =>
      split at hs
      · cases hs
      · next hp => exact inv_get h ht hp hs
  | exit t =>
    simp only [step] at hs
    split at hs
    · cases hs
    · next th ht =>
      split at hs
      · next hp => cases hs; exact inv_exit h ht hp
      · cases hs
  | dtor t =>
    simp only [step] at hs
    split at hs
    · cases hs
    · next th ht =>
      split at hs
      · next hp =>
        split at hs
        · cases hs
        · next k v hsp => exact inv_dtor h ht hp hsp hs
      · cases hs
  | finish t =>
    simp only [step] at hs
    split at hs
    · cases hs
    · next th ht =>
      split at hs
      · next hp => cases hs; exact inv_finish h ht hp.2
      · cases hs
  | kill =>
    simp only [step] at hs
    split at hs
    · cases hs; exact inv_kill h
    · next hk => cases hs; exact inv_kill_none h hk

theorem inv_run : ∀ {as : List Act} {s s' : State}, Inv s → run s as = .ok s' → Inv s'
  | [], s, s', h, hr => by cases hr; exact h
  | a :: as, s, s', h, hr => by
    simp only [run] at hr
    split at hr
    · next s1 hs => exact inv_run (inv_step h hs) hr
    · next hs => exact absurd hr (hs s')

/-- In every history of threads that start, use the variable and end: a thread always gets the same value, and no other thread gets it. -/
theorem own_value {as : List Act} {s : State} (h : run init as = .ok s) {t u v w : Nat} (ht : (t, v) ∈ s.gets) (hu : (u, w) ∈ s.gets) : t = u ↔ v = w := by
  have hi := inv_run inv_init h
  obtain ⟨g, h1, h2⟩ := hi.gets t v ht
  obtain ⟨g', h3, h4⟩ := hi.gets u w hu
  constructor
  · intro he; exact hi.once v w g g' h1 h3 (by rw [h2, h4, he])
  · intro he; subst he; rw [h1] at h3; cases h3; rw [← h2, ← h4]

/-- A running thread gets a value that is alive: `Get` is defined there, always. -/
theorem running_gets {as : List Act} {s : State} (h : run init as = .ok s) {t : Nat} {th : Thread} (ht : s.threads[t]? = some th) (hp : th.phase = .running) :
    ∃ s' v k, step s (.get t) = .ok s' ∧ s'.gets = s.gets ++ [(t, v)] ∧ s'.holders[v]? = some ⟨t, k, true⟩ := by
  have hi := inv_run inv_init h
  simp only [step, ht]
  rw [if_neg (by rw [hp]; simp)]
  cases hv : th.value with
  | none =>
    obtain ⟨e1, e2, e3, _⟩ := getKey_spec hi
    simp only [get, hv]
    exact ⟨_, s.holders.length, (getKey s).1, rfl, by simp [make, e2, e3], by simp [make, e2]⟩
  | some v =>
    obtain ⟨⟨o, k, al⟩, h1, h2, h3⟩ := hi.val t th v ht hv
    simp only at h2 h3
    subst h2
    rcases h3 with ⟨rfl, _⟩ | ⟨_, _, h3⟩
    · simp only [get, hv, h1]
      exact ⟨_, v, k, rfl, rfl, h1⟩
    · rw [hp] at h3; cases h3

/-- The values of a thread that is gone are destroyed, those of a running thread are alive, and the key of a value that is alive exists. -/
theorem destroyed_with_thread {as : List Act} {s : State} (h : run init as = .ok s) {v t k : Nat} {alive : Bool} (hv : s.holders[v]? = some ⟨t, k, alive⟩) :
    (∀ th, s.threads[t]? = some th → (th.phase = .gone → alive = false) ∧ (th.phase = .running → alive = true)) ∧ (alive = true → s.keys[k]? = some true) := by
  have hi := inv_run inv_init h
  refine ⟨fun th ht => ⟨fun hp => ?_, fun hp => ?_⟩, hi.key v _ hv⟩
  · obtain ⟨uh, h1, h2⟩ := hi.own v _ hv
    simp only at h1 h2
    rw [ht] at h1; cases h1
    rcases h2 with h2 | h2
    · rw [hi.gone t th ht hp] at h2; cases h2
    · exact h2.2
  · obtain ⟨uh, h1, h2⟩ := hi.own v _ hv
    simp only at h1 h2
    rw [ht] at h1; cases h1
    rcases h2 with h2 | ⟨h2, _⟩
    · obtain ⟨g, h3, _, h4⟩ := hi.val t th v ht h2
      rw [hv] at h3; cases h3
      rcases h4 with h4 | ⟨_, _, h4⟩
      · exact h4.1
      · rw [hp] at h4; cases h4
    · rw [hp] at h2; cases h2

/-- No key is left over: one that exists is that of the singleton or of a value. -/
theorem keys_deleted {as : List Act} {s : State} (h : run init as = .ok s) {k : Nat} (hk : s.keys[k]? = some true) :
    s.single = some (some k) ∨ ∃ (v t : Nat), s.holders[v]? = some ⟨t, k, true⟩ := by
  rcases (inv_run inv_init h).used k hk with h1 | ⟨v, ⟨o, k', al⟩, h1, h2, h3⟩
  · exact .inl h1
  · simp only at h2 h3; subst h2; subst h3; exact .inr ⟨v, o, h1⟩

/-- What is undefined is only a `Get` in a thread whose destructors run, after that of the value. -/
theorem defined_partial {as : List Act} {s : State} (h : run init as = .ok s) {a : Act} (hs : step s a = .ub) :
    ∃ (t : Nat) (th : Thread), a = .get t ∧ s.threads[t]? = some th ∧ th.phase = .ending ∧ th.specific = none := by
  have hi := inv_run inv_init h
  cases a with
  | start => cases hs
  | get t =>
    simp only [step] at hs
    split at hs
    · cases hs
    · next th ht =>
      split at hs
      · cases hs
      · refine ⟨t, th, rfl, ht, ?_⟩
        simp only [get] at hs
        split at hs
        · next v hv =>
          obtain ⟨⟨o, k, al⟩, h1, h2, h3⟩ := hi.val t th v ht hv
          rcases h3 with ⟨h3, _⟩ | ⟨_, h3, h4⟩
          · simp only at h3
            subst h3
            rw [h1] at hs; simp at hs
          · exact ⟨h4, h3⟩
        · cases hs
  | exit t =>
    simp only [step] at hs
    split at hs
    · cases hs
    · split at hs <;> cases hs
  | dtor t =>
    simp only [step] at hs
    split at hs
    · cases hs
    · next th ht =>
      split at hs
      · split at hs
        · cases hs
        · next k v hsp =>
          cases hth : th.value with
          | none => rw [hi.noval t th ht hth] at hsp; cases hsp
          | some w =>
            obtain ⟨⟨o, k', al⟩, h1, h2, h3⟩ := hi.val t th w ht hth
            rcases h3 with ⟨h4, h3⟩ | ⟨_, h3, _⟩
            · rw [hsp] at h3; cases h3
              simp only at h4
              subst h4
              have := hi.key v _ h1 rfl
              simp only at this
              simp [dtor, h1, this] at hs
            · rw [hsp] at h3; cases h3
      · cases hs
  | finish t =>
    simp only [step] at hs
    split at hs
    · cases hs
    · split at hs <;> cases hs
  | kill => simp only [step] at hs; split at hs <;> cases hs

/-- A thread cannot end before the value is destroyed, and its destructor can always run then. -/
theorem destroyed_before_end {as : List Act} {s : State} (h : run init as = .ok s) {t : Nat} {th : Thread} (ht : s.threads[t]? = some th) (hp : th.phase = .ending) :
    (∃ s', step s (.finish t) = .ok s') ∨ ∃ s', step s (.dtor t) = .ok s' := by
  cases hsp : th.specific with
  | none => exact .inl ⟨_, by simp only [step, ht]; rw [if_pos ⟨hp, hsp⟩]⟩
  | some p =>
    obtain ⟨k, v⟩ := p
    cases hs : step s (.dtor t) with
    | no =>
      simp only [step, ht, hsp] at hs
      rw [if_pos hp] at hs
      simp only [dtor] at hs
      split at hs <;> cases hs
    | ok s' => exact .inr ⟨s', rfl⟩
    | ub =>
      obtain ⟨_, _, he, _⟩ := defined_partial h hs
      cases he

example : run init [.start, .start, .get 0, .get 1, .get 0, .exit 0, .kill, .dtor 0, .finish 0, .exit 1, .dtor 1, .finish 1] =
    .ok ⟨[⟨.gone, none, none⟩, ⟨.gone, none, none⟩], [⟨0, 0, false⟩, ⟨1, 0, false⟩], [false], some none, [(0, 0), (1, 1), (0, 0)]⟩ := by decide

/-- The destructor does not reset `s_value`: a destructor of the same thread that runs later gets a value that is destroyed. -/
theorem after_dtor_violated : run init [.start, .get 0, .exit 0, .dtor 0, .get 0] = .ub := by decide

end Verif.Thread.Local
