import Verif.Coll.CowSpec
/-
Collections are values and enumerators are snapshots: every program shows the same through the copy-on-write classes as through the
value semantics of CowSpec.
-/
namespace Verif.Coll
variable {α : Type}

theorem expired_iff (w : World α) (h : Nat) : w.expired h = true ↔ ∀ o ∈ w.objs, ∀ x, o = some x → x.holder ≠ h := by
  unfold World.expired
  rw [List.all_eq_true]
  constructor
  · intro hh o ho x hx hc
    subst hx
    have := hh _ ho
    simp [hc] at this
  · intro hh o ho
    cases o with
    | none => rfl
    | some x => simpa using hh _ ho x rfl

/-- How an object stands for what was given out. -/
def Shows (w : World α) : Option Obj → Option (Spec.Given α) → Prop
  | none, none => True
  | some (.enumerator h cur stop rev), some (.enumerator rest) =>
    ∃ a xs, w.holders[h]? = some a ∧ w.arrays[a]? = some xs ∧ stop ≤ xs.length ∧
      rest = Spec.window (if rev then xs.reverse else xs) (cur, stop)
  | some (.enumerable h), some (.enumerable all) =>
    ∃ a xs, w.holders[h]? = some a ∧ w.arrays[a]? = some xs ∧ all = xs.reverse
  | _, _ => False

/-- The world stands for the state. -/
structure Rep (w : World α) (s : Spec.State α) : Prop where
  colls : w.colls.length = s.colls.length
  elems : ∀ (i : Nat) (c : Coll), w.colls[i]? = some c → w.arrays[c.items]? = s.colls[i]? ∧ c.items < w.arrays.length
  apart : ∀ (i j : Nat) (c d : Coll), w.colls[i]? = some c → w.colls[j]? = some d → c.items = d.items → i = j
  objs : w.objs.length = s.given.length
  shows : ∀ (k : Nat) (o : Option Obj) (g : Option (Spec.Given α)), w.objs[k]? = some o → s.given[k]? = some g → Shows w o g
  holder : ∀ (i : Nat) (c : Coll) (h : Nat), w.colls[i]? = some c → c.holder = some h → w.holders[h]? = some c.items
  known : ∀ (h a : Nat), w.holders[h]? = some a → a < w.arrays.length
  owner : ∀ (i : Nat) (c : Coll) (h : Nat), w.colls[i]? = some c → w.holders[h]? = some c.items → c.holder = some h ∨ w.expired h = true
  live : ∀ o ∈ w.objs, ∀ x, o = some x → x.holder < w.holders.length

theorem rep_empty : Rep (World.empty : World α) Spec.empty := by
  constructor <;> simp [World.empty, Spec.empty]

theorem Shows.mono {w w' : World α} {o : Option Obj} {g : Option (Spec.Given α)} (h : Shows w o g)
    (hh : ∀ x, o = some x → ∀ (a : Nat), w.holders[x.holder]? = some a → w'.holders[x.holder]? = some a ∧ (∀ xs, w.arrays[a]? = some xs → w'.arrays[a]? = some xs)) :
    Shows w' o g := by
  cases o with
  | none => cases g <;> exact h
  | some x =>
    cases x with
    | enumerator hd cur stop rev =>
      cases g with
      | none => exact h
      | some g =>
        cases g with
        | enumerable _ => exact h
        | enumerator rest =>
          obtain ⟨a, xs, h1, h2, h3, h4⟩ := h
          obtain ⟨k1, k2⟩ := hh _ rfl a h1
          exact ⟨a, xs, k1, k2 _ h2, h3, h4⟩
    | enumerable hd =>
      cases g with
      | none => exact h
      | some g =>
        cases g with
        | enumerator _ => exact h
        | enumerable rest =>
          obtain ⟨a, xs, h1, h2, h3⟩ := h
          obtain ⟨k1, k2⟩ := hh _ rfl a h1
          exact ⟨a, xs, k1, k2 _ h2, h3⟩

theorem getElem?_append_some {β : Type} {l : List β} {i : Nat} {b : β} (h : l[i]? = some b) (r : List β) : (l ++ r)[i]? = some b := by
  have := (List.getElem?_eq_some_iff.mp h).1
  rw [List.getElem?_append_left this]; exact h

theorem Rep.elems_eq {w : World α} {s : Spec.State α} (r : Rep w s) {i : Nat} {c : Coll} (h : w.colls[i]? = some c) :
    s.colls[i]? = some (w.elems c.items) := by
  obtain ⟨h1, h2⟩ := r.elems i c h
  rw [← h1]
  unfold World.elems
  rw [List.getD_eq_getElem?_getD, List.getElem?_eq_getElem h2]
  rfl

theorem Rep.absent {w : World α} {s : Spec.State α} (r : Rep w s) {i : Nat} (h : w.colls[i]? = none) : s.colls[i]? = none := by
  rw [List.getElem?_eq_none_iff] at h ⊢
  rw [← r.colls]; exact h

/-- Storing a fresh container in a collection. -/
theorem rep_store {w : World α} {s : Spec.State α} (r : Rep w s) {i : Nat} {c : Coll} (hc : w.colls[i]? = some c) (xs : List α) :
    Rep (w.store i xs) { s with colls := s.colls.set i xs } := by
  have hi := (List.getElem?_eq_some_iff.mp hc).1
  have hsi : i < s.colls.length := by rw [← r.colls]; exact hi
  refine ⟨by simp [World.store, r.colls], ?_, ?_, r.objs, ?_, ?_, ?_, ?_, r.live⟩
  · intro j d hd
    simp only [World.store, List.getElem?_set] at hd ⊢
    by_cases hj : i = j
    · subst hj
      simp only [if_true, hi] at hd
      injection hd with hd; subst hd
      simp [hsi]
    · simp only [hj, if_false] at hd ⊢
      obtain ⟨h1, h2⟩ := r.elems j d hd
      rw [List.getElem?_append_left h2, h1]
      simp; omega
  · intro j k d e hd he hde
    simp only [World.store, List.getElem?_set] at hd he
    by_cases hj : i = j
    · by_cases hk : i = k
      · omega
      · simp only [hj, if_true] at hd; simp only [hk, if_false] at he
        rw [← hj] at hd; simp only [hi, if_true] at hd
        injection hd with hd; subst hd
        have := (r.elems k e he).2
        simp only [] at hde; omega
    · simp only [hj, if_false] at hd
      by_cases hk : i = k
      · simp only [hk, if_true] at he
        rw [← hk] at he; simp only [hi, if_true] at he
        injection he with he; subst he
        have := (r.elems j d hd).2
        simp only [] at hde; omega
      · simp only [hk, if_false] at he
        exact r.apart j k d e hd he hde
  · intro k o g ho hg
    refine (r.shows k o g ho hg).mono ?_
    intro x hx a ha
    exact ⟨ha, fun xs hxs => getElem?_append_some hxs _⟩
  · intro j d h hd hh
    simp only [World.store, List.getElem?_set] at hd ⊢
    by_cases hj : i = j
    · subst hj
      simp only [if_true, hi] at hd
      injection hd with hd; subst hd
      cases hh
    · simp only [hj, if_false] at hd
      exact r.holder j d h hd hh
  · intro h a ha
    have := r.known h a ha
    simp [World.store]; omega
  · intro j d h hd hh
    simp only [World.store, List.getElem?_set] at hd hh ⊢
    by_cases hj : i = j
    · subst hj
      simp only [if_true, hi] at hd
      injection hd with hd; subst hd
      have := r.known _ _ hh
      simp only [] at this; omega
    · simp only [hj, if_false] at hd
      exact r.owner j d h hd hh

/-- Changing the container of a collection whose holder is not in use. -/
theorem rep_inPlace {w : World α} {s : Spec.State α} (r : Rep w s) {i : Nat} {c : Coll} (hc : w.colls[i]? = some c)
    (hu : w.unshared c = true) (xs : List α) : Rep (w.inPlace i xs) { s with colls := s.colls.set i xs } := by
  have hi := (List.getElem?_eq_some_iff.mp hc).1
  have hsi : i < s.colls.length := by rw [← r.colls]; exact hi
  have hw : w.inPlace i xs = { w with arrays := w.arrays.set c.items xs } := by unfold World.inPlace; rw [hc]
  rw [hw]
  have hci := (r.elems i c hc).2
  refine ⟨by simp [r.colls], ?_, r.apart, r.objs, ?_, r.holder, ?_, r.owner, r.live⟩
  · intro j d hd
    simp only [List.length_set]
    simp only [List.getElem?_set]
    by_cases hj : i = j
    · subst hj
      rw [hc] at hd; injection hd with hd; subst hd
      simp [hsi, hci]
    · have : c.items ≠ d.items := fun h => hj (r.apart i j c d hc hd h)
      simp only [hj, this, if_false]
      exact r.elems j d hd
  · intro k o g ho hg
    refine (r.shows k o g ho hg).mono ?_
    intro x hx a ha
    refine ⟨ha, fun ys hys => ?_⟩
    simp only [List.getElem?_set]
    have : c.items ≠ a := by
      intro hca
      subst hca
      have hne : w.expired x.holder = false := by
        cases he : w.expired x.holder with
        | false => rfl
        | true => exact absurd rfl ((expired_iff w x.holder).mp he o (List.mem_of_getElem? ho) x hx)
      rcases r.owner i c x.holder hc ha with h | h
      · unfold World.unshared at hu
        rw [h] at hu
        simp only [] at hu
        rw [hne] at hu; cases hu
      · rw [hne] at h; cases h
    simp only [this, if_false]
    exact hys
  · intro h a ha
    have := r.known h a ha
    simpa using this

theorem store_unshared (w : World α) (i : Nat) (xs : List α) (hi : i < w.colls.length) :
    (w.store i xs).colls[i]? = some ⟨w.arrays.length, none⟩ ∧ (w.store i xs).unshared ⟨w.arrays.length, none⟩ = true := by
  constructor
  · simp [World.store, hi]
  · rfl

theorem rep_copyOnWrite {w : World α} {s : Spec.State α} (r : Rep w s) {i : Nat} {c : Coll} (hc : w.colls[i]? = some c) :
    Rep (w.copyOnWrite i c) s ∧ ∃ d, (w.copyOnWrite i c).colls[i]? = some d ∧ (w.copyOnWrite i c).unshared d = true := by
  unfold World.copyOnWrite
  by_cases hu : w.unshared c = true
  · rw [if_pos hu]
    exact ⟨r, c, hc, hu⟩
  · rw [if_neg hu]
    have hi := (List.getElem?_eq_some_iff.mp hc).1
    have hs : ({ s with colls := s.colls.set i (w.elems c.items) } : Spec.State α) = s := by
      cases s with
      | mk colls given =>
        congr 1
        have := r.elems_eq hc
        apply List.ext_getElem?
        intro j
        rw [List.getElem?_set]
        by_cases hj : i = j
        · subst hj
          simp only [if_true]
          rw [this]
          have := (List.getElem?_eq_some_iff.mp this).1
          simp [this]
        · simp [hj]
    have h := rep_store r hc (w.elems c.items)
    rw [hs] at h
    exact ⟨h, _, store_unshared w i _ hi⟩

/-- A new collection with a container of its own. -/
theorem rep_new {w : World α} {s : Spec.State α} (r : Rep w s) (xs : List α) :
    Rep { w with arrays := w.arrays ++ [xs], colls := w.colls ++ [⟨w.arrays.length, none⟩] } { s with colls := s.colls ++ [xs] } := by
  have key : ∀ (j : Nat) (d : Coll), (w.colls ++ [⟨w.arrays.length, none⟩])[j]? = some d → (j < w.colls.length ∧ w.colls[j]? = some d) ∨ (j = w.colls.length ∧ d = ⟨w.arrays.length, none⟩) := by
    intro j d hd
    rcases Nat.lt_or_ge j w.colls.length with hj | hj
    · rw [List.getElem?_append_left hj] at hd
      exact .inl ⟨hj, hd⟩
    · rw [List.getElem?_append_right hj] at hd
      have : j - w.colls.length = 0 := by
        rcases Nat.eq_zero_or_pos (j - w.colls.length) with h | h
        · exact h
        · rw [List.getElem?_eq_none (by simp; omega)] at hd; cases hd
      rw [this] at hd
      injection hd with hd
      exact .inr ⟨by omega, hd.symm⟩
  refine ⟨by simp [r.colls], ?_, ?_, r.objs, ?_, ?_, ?_, ?_, r.live⟩
  · intro j d hd
    rcases key j d hd with ⟨hj, hd⟩ | ⟨hj, hd⟩
    · obtain ⟨h1, h2⟩ := r.elems j d hd
      simp only [List.length_append, List.length_singleton]
      rw [List.getElem?_append_left h2, h1, List.getElem?_append_left (by rw [← r.colls]; exact hj)]
      exact ⟨rfl, by omega⟩
    · subst hd; subst hj
      simp [r.colls]
  · intro j k d e hd he hde
    rcases key j d hd with ⟨hj, hd⟩ | ⟨hj, hd⟩ <;> rcases key k e he with ⟨hk, he⟩ | ⟨hk, he⟩
    · exact r.apart j k d e hd he hde
    · have := (r.elems j d hd).2
      subst he; simp only [] at hde; omega
    · have := (r.elems k e he).2
      subst hd; simp only [] at hde; omega
    · omega
  · intro k o g ho hg
    refine (r.shows k o g ho hg).mono ?_
    intro x hx a ha
    exact ⟨ha, fun xs hxs => getElem?_append_some hxs _⟩
  · intro j d h hd hh
    rcases key j d hd with ⟨hj, hd⟩ | ⟨hj, hd⟩
    · exact r.holder j d h hd hh
    · subst hd; cases hh
  · intro h a ha
    have := r.known h a ha
    simp; omega
  · intro j d h hd hh
    rcases key j d hd with ⟨hj, hd⟩ | ⟨hj, hd⟩
    · exact r.owner j d h hd hh
    · subst hd
      have := r.known _ _ hh
      simp only [] at this; omega

/-- The holder of a collection. -/
theorem rep_getHolder {w : World α} {s : Spec.State α} (r : Rep w s) {i : Nat} {c : Coll} (hc : w.colls[i]? = some c) :
    Rep (w.getHolder i c).1 s ∧ (w.getHolder i c).1.holders[(w.getHolder i c).2]? = some c.items ∧
    (w.getHolder i c).1.arrays = w.arrays ∧ (w.getHolder i c).1.objs = w.objs ∧
    (∃ d, (w.getHolder i c).1.colls[i]? = some d ∧ d.items = c.items ∧ d.holder = some (w.getHolder i c).2) := by
  have hi := (List.getElem?_eq_some_iff.mp hc).1
  have fresh : w.unshared c = true → 
    Rep { w with holders := w.holders ++ [c.items], colls := w.colls.set i { c with holder := some w.holders.length } } s := by
    intro hu
    have key : ∀ (j : Nat) (d : Coll), (w.colls.set i { c with holder := some w.holders.length })[j]? = some d →
        ∃ e, w.colls[j]? = some e ∧ e.items = d.items ∧ ((j = i ∧ d.holder = some w.holders.length) ∨ (j ≠ i ∧ d = e)) := by
      intro j d hd
      rw [List.getElem?_set] at hd
      by_cases hj : i = j
      · subst hj
        simp only [if_true, hi] at hd
        injection hd with hd; subst hd
        exact ⟨c, hc, rfl, .inl ⟨rfl, rfl⟩⟩
      · simp only [hj, if_false] at hd
        exact ⟨d, hd, rfl, .inr ⟨fun h => hj h.symm, rfl⟩⟩
    have dead : w.expired w.holders.length = true := by
      rw [expired_iff]
      intro o ho x hx
      have := r.live o ho x hx
      omega
    refine ⟨by simp [r.colls], ?_, ?_, r.objs, ?_, ?_, ?_, ?_, ?_⟩
    · intro j d hd
      obtain ⟨e, he, hed, _⟩ := key j d hd
      rw [← hed]
      exact r.elems j e he
    · intro j k d e hd he hde
      obtain ⟨d', hd', hdd, _⟩ := key j d hd
      obtain ⟨e', he', hee, _⟩ := key k e he
      exact r.apart j k d' e' hd' he' (by rw [hdd, hee, hde])
    · intro k o g ho hg
      refine (r.shows k o g ho hg).mono ?_
      intro x hx a ha
      exact ⟨getElem?_append_some ha _, fun xs hxs => hxs⟩
    · intro j d h hd hh
      obtain ⟨e, he, hed, h1 | h1⟩ := key j d hd
      · rw [h1.2] at hh
        injection hh with hh; subst hh
        have hj := h1.1; subst hj
        rw [hc] at he; injection he with he; subst he
        rw [← hed]
        simp
      · have := h1.2; subst this
        exact getElem?_append_some (r.holder j d h he hh) _
    · intro h a ha
      rcases Nat.lt_or_ge h w.holders.length with hl | hl
      · rw [List.getElem?_append_left hl] at ha
        exact r.known h a ha
      · rw [List.getElem?_append_right hl] at ha
        have : h - w.holders.length = 0 := by
          rcases Nat.eq_zero_or_pos (h - w.holders.length) with h' | h'
          · exact h'
          · rw [List.getElem?_eq_none (by simp; omega)] at ha; cases ha
        rw [this] at ha
        injection ha with ha; subst ha
        exact (r.elems i c hc).2
    · intro j d h hd hh
      obtain ⟨e, he, hed, h1⟩ := key j d hd
      rcases Nat.lt_or_ge h w.holders.length with hl | hl
      · simp only [] at hh
        rw [List.getElem?_append_left hl] at hh
        rw [← hed] at hh
        rcases r.owner j e h he hh with h2 | h2
        · rcases h1 with h1 | h1
          · have hj := h1.1; subst hj
            rw [hc] at he; injection he with he; subst he
            right
            unfold World.unshared at hu
            rw [h2] at hu
            exact hu
          · left; rw [h1.2]; exact h2
        · exact .inr h2
      · right
        simp only [] at hh
        have hb : h = w.holders.length := by
          have := (List.getElem?_eq_some_iff.mp hh).1
          simp at this; omega
        subst hb
        exact dead
    · intro o ho x hx
      have := r.live o ho x hx
      simp; omega
  unfold World.getHolder
  cases hh : c.holder with
  | none =>
    simp only []
    refine ⟨fresh (by unfold World.unshared; rw [hh]), by simp, trivial, trivial, { c with holder := some w.holders.length }, by simp [hi], rfl, rfl⟩
  | some h =>
    simp only []
    by_cases he : w.expired h = true
    · rw [if_pos he]
      refine ⟨fresh (by unfold World.unshared; rw [hh]; exact he), by simp, rfl, rfl, { c with holder := some w.holders.length }, by simp [hi], rfl, rfl⟩
    · rw [if_neg he]
      exact ⟨r, r.holder i c h hc hh, rfl, rfl, c, hc, rfl, hh⟩

/-- Giving out an object that owns a holder which belongs to the collection that has that container, or is in use already. -/
theorem rep_give {w : World α} {s : Spec.State α} (r : Rep w s) {o : Obj} {g : Spec.Given α} (hs : Shows w (some o) (some g))
    (hh : ∀ (j : Nat) (d : Coll), w.colls[j]? = some d → w.holders[o.holder]? = some d.items → d.holder = some o.holder)
    (hl : o.holder < w.holders.length) :
    Rep (w.give o) { s with given := s.given ++ [some g] } := by
  refine ⟨r.colls, r.elems, r.apart, by simp [World.give, r.objs], ?_, r.holder, r.known, ?_, ?_⟩
  · intro k o' g' ho hg
    have hk : (w.objs[k]? = some o' ∧ s.given[k]? = some g') ∨ (o' = some o ∧ g' = some g) := by
      simp only [World.give] at ho
      simp only [] at hg
      rcases Nat.lt_or_ge k w.objs.length with hkl | hkl
      · rw [List.getElem?_append_left hkl] at ho
        rw [List.getElem?_append_left (by rw [← r.objs]; exact hkl)] at hg
        exact .inl ⟨ho, hg⟩
      · have : k = w.objs.length := by
          have := (List.getElem?_eq_some_iff.mp ho).1
          simp at this; omega
        subst this
        simp at ho
        rw [r.objs] at hg
        simp at hg
        exact .inr ⟨ho.symm, hg.symm⟩
    rcases hk with ⟨h1, h2⟩ | ⟨h1, h2⟩
    · exact (r.shows k o' g' h1 h2).mono (fun x hx a ha => ⟨ha, fun xs hxs => hxs⟩)
    · subst h1; subst h2
      exact hs.mono (fun x hx a ha => ⟨ha, fun xs hxs => hxs⟩)
  · intro j d h hd hhd
    by_cases he : h = o.holder
    · subst he
      exact .inl (hh j d hd hhd)
    · rcases r.owner j d h hd hhd with h1 | h1
      · exact .inl h1
      · right
        rw [expired_iff] at h1 ⊢
        intro o' ho' x hx
        simp only [World.give, List.mem_append, List.mem_singleton] at ho'
        rcases ho' with ho' | ho'
        · exact h1 o' ho' x hx
        · subst ho'
          injection hx with hx; subst hx
          exact fun hc => he hc.symm
  · intro o' ho' x hx
    simp only [World.give, List.mem_append, List.mem_singleton] at ho'
    rcases ho' with ho' | ho'
    · exact r.live o' ho' x hx
    · subst ho'
      injection hx with hx; subst hx
      exact hl

/-- An object moves or goes away. -/
theorem rep_setObj {w : World α} {s : Spec.State α} (r : Rep w s) (k : Nat) {o : Option Obj} {g : Option (Spec.Given α)}
    (hs : k < w.objs.length → Shows w o g) (hh : ∀ x, o = some x → ∃ y, w.objs[k]? = some (some y) ∧ y.holder = x.holder) :
    Rep { w with objs := w.objs.set k o } { s with given := s.given.set k g } := by
  have hmem : ∀ o' ∈ w.objs.set k o, ∀ x, o' = some x → ∃ o'' ∈ w.objs, ∃ y, o'' = some y ∧ y.holder = x.holder := by
    intro o' ho' x hx
    rcases List.mem_or_eq_of_mem_set ho' with h | h
    · exact ⟨o', h, x, hx, rfl⟩
    · subst h
      obtain ⟨y, hy, hyx⟩ := hh x hx
      exact ⟨_, List.mem_of_getElem? hy, y, rfl, hyx⟩
  refine ⟨r.colls, r.elems, r.apart, by simp [r.objs], ?_, r.holder, r.known, ?_, ?_⟩
  · intro j o' g' ho hg
    simp only [] at ho hg
    rw [List.getElem?_set] at ho hg
    by_cases hj : k = j
    · subst hj
      simp only [if_true] at ho hg
      by_cases hk : k < w.objs.length
      · have hk' : k < s.given.length := by rw [← r.objs]; exact hk
        simp only [hk, if_true] at ho
        simp only [hk', if_true] at hg
        injection ho with ho; injection hg with hg
        subst ho; subst hg
        exact (hs hk).mono (fun x hx a ha => ⟨ha, fun xs hxs => hxs⟩)
      · simp only [hk, if_false] at ho; cases ho
    · simp only [hj, if_false] at ho hg
      exact (r.shows j o' g' ho hg).mono (fun x hx a ha => ⟨ha, fun xs hxs => hxs⟩)
  · intro j d h hd hhd
    rcases r.owner j d h hd hhd with h1 | h1
    · exact .inl h1
    · right
      rw [expired_iff] at h1 ⊢
      intro o' ho' x hx
      obtain ⟨o'', h2, y, h3, h4⟩ := hmem o' ho' x hx
      rw [← h4]
      exact h1 o'' h2 y h3
  · intro o' ho' x hx
    obtain ⟨o'', h2, y, h3, h4⟩ := hmem o' ho' x hx
    rw [← h4]
    exact r.live o'' h2 y h3

theorem window_min (xs : List α) (a b : Nat) : Spec.window xs (a, min b xs.length) = Spec.window xs (a, b) := by
  unfold Spec.window
  simp only []
  rcases Nat.le_total b xs.length with h | h
  · rw [Nat.min_eq_left h]
  · rw [Nat.min_eq_right h, List.take_of_length_le (Nat.le_refl _), List.take_of_length_le h]

theorem window_get {xs : List α} {a b : Nat} (h : a < b) (hb : b ≤ xs.length) :
    ∃ x, xs[a]? = some x ∧ Spec.window xs (a, b) = x :: Spec.window xs (a + 1, b) := by
  refine ⟨xs[a], List.getElem?_eq_getElem (by omega), ?_⟩
  unfold Spec.window
  simp only []
  have hl : a < (xs.take b).length := by simp; omega
  rw [List.drop_eq_getElem_cons hl]
  simp

theorem window_nil {xs : List α} {a b : Nat} (h : ¬ a < b) : Spec.window xs (a, b) = [] := by
  unfold Spec.window
  simp only []
  apply List.drop_eq_nil_of_le
  simp; omega

theorem Rep.obj {w : World α} {s : Spec.State α} (r : Rep w s) (k : Nat) :
    (w.objs[k]? = none ∧ s.given[k]? = none) ∨ ∃ o g, w.objs[k]? = some o ∧ s.given[k]? = some g ∧ Shows w o g := by
  cases h : w.objs[k]? with
  | none =>
    left
    rw [List.getElem?_eq_none_iff] at h
    exact ⟨rfl, List.getElem?_eq_none (by rw [← r.objs]; exact h)⟩
  | some o =>
    right
    have hk := (List.getElem?_eq_some_iff.mp h).1
    have hk' : k < s.given.length := by rw [← r.objs]; exact hk
    exact ⟨o, s.given[k], rfl, List.getElem?_eq_getElem hk', r.shows k o _ h (List.getElem?_eq_getElem hk')⟩

theorem elems_of {w : World α} {a : Nat} {xs : List α} (h : w.arrays[a]? = some xs) : w.elems a = xs := by
  unfold World.elems
  rw [List.getD_eq_getElem?_getD, h]; rfl

theorem arrays_of {w : World α} {s : Spec.State α} (r : Rep w s) {i : Nat} {c : Coll} (h : w.colls[i]? = some c) :
    w.arrays[c.items]? = some (w.elems c.items) := by
  rw [(r.elems i c h).1, r.elems_eq h]

theorem getHolder_lt {w : World α} {i : Nat} {c : Coll} {a : Nat} (h : (w.getHolder i c).1.holders[(w.getHolder i c).2]? = some a) :
    (w.getHolder i c).2 < (w.getHolder i c).1.holders.length := (List.getElem?_eq_some_iff.mp h).1

theorem ite_length (rev : Bool) (xs : List α) : (if rev then xs.reverse else xs).length = xs.length := by
  cases rev <;> simp

/-- One call: the same answer, and the states still stand for each other. -/
theorem step_refines {w : World α} {s : Spec.State α} (r : Rep w s) (a : Act α) :
    Rep (w.step a).1 (Spec.step s a).1 ∧ (w.step a).2 = (Spec.step s a).2 := by
  cases a with
  | create => exact ⟨rep_new r [], rfl⟩
  | copy j =>
    simp only [World.step, Spec.step]
    cases h : w.colls[j]? with
    | none => rw [r.absent h]; exact ⟨r, rfl⟩
    | some c => rw [r.elems_eq h]; exact ⟨rep_new r _, rfl⟩
  | assign i j =>
    simp only [World.step, Spec.step]
    cases h : w.colls[i]? with
    | none => rw [r.absent h]; exact ⟨r, rfl⟩
    | some c =>
      rw [r.elems_eq h]
      cases h' : w.colls[j]? with
      | none => rw [r.absent h']; exact ⟨r, rfl⟩
      | some d =>
        rw [r.elems_eq h']
        exact ⟨rep_store r h _, rfl⟩
  | mutate i f =>
    simp only [World.step, Spec.step]
    cases h : w.colls[i]? with
    | none => rw [r.absent h]; exact ⟨r, rfl⟩
    | some c =>
      rw [r.elems_eq h]
      simp only []
      cases hf : f (w.elems c.items) with
      | none =>
        refine ⟨?_, rfl⟩
        simp only [Option.getD_none]
        have : ({ s with colls := s.colls.set i (w.elems c.items) } : Spec.State α) = s := by
          cases s with
          | mk colls given =>
            congr 1
            have := r.elems_eq h
            apply List.ext_getElem?
            intro j
            rw [List.getElem?_set]
            by_cases hj : i = j
            · subst hj
              simp only [if_true]
              rw [this]
              have := (List.getElem?_eq_some_iff.mp this).1
              simp [this]
            · simp [hj]
        rw [this]; exact r
      | some ys =>
        refine ⟨?_, rfl⟩
        obtain ⟨h1, d, h2, h3⟩ := rep_copyOnWrite r h
        exact rep_inPlace h1 h2 h3 ys
  | clear i =>
    simp only [World.step, Spec.step]
    cases h : w.colls[i]? with
    | none => rw [r.absent h]; exact ⟨r, rfl⟩
    | some c =>
      rw [r.elems_eq h]
      refine ⟨?_, rfl⟩
      simp only []
      by_cases hu : w.unshared c = true
      · rw [if_pos hu]; exact rep_inPlace r h hu []
      · rw [if_neg hu]; exact rep_store r h []
  | query i =>
    simp only [World.step, Spec.step]
    cases h : w.colls[i]? with
    | none => rw [r.absent h]; exact ⟨r, rfl⟩
    | some c => rw [r.elems_eq h]; exact ⟨r, rfl⟩
  | enumerate i rev win =>
    simp only [World.step, Spec.step]
    cases h : w.colls[i]? with
    | none => rw [r.absent h]; exact ⟨r, rfl⟩
    | some c =>
      rw [r.elems_eq h]
      refine ⟨?_, rfl⟩
      obtain ⟨h1, h2, h3, h4, d, h5, h6, h7⟩ := rep_getHolder r h
      refine rep_give h1 ?_ ?_ (getHolder_lt h2)
      · refine ⟨c.items, w.elems c.items, h2, by rw [h3]; exact arrays_of r h, by omega, ?_⟩
        have := window_min (if rev then (w.elems c.items).reverse else w.elems c.items) (win (w.elems c.items)).1 (win (w.elems c.items)).2
        rw [ite_length] at this
        exact this.symm
      · intro j e he hhe
        simp only [Obj.holder] at hhe ⊢
        rw [h2] at hhe
        injection hhe with hhe
        have := h1.apart j i e d he h5 (by rw [h6, hhe])
        subst this
        rw [h5] at he; injection he with he; subst he
        exact h7
  | reverse i =>
    simp only [World.step, Spec.step]
    cases h : w.colls[i]? with
    | none => rw [r.absent h]; exact ⟨r, rfl⟩
    | some c =>
      rw [r.elems_eq h]
      refine ⟨?_, rfl⟩
      obtain ⟨h1, h2, h3, h4, d, h5, h6, h7⟩ := rep_getHolder r h
      refine rep_give h1 ?_ ?_ (getHolder_lt h2)
      · exact ⟨c.items, w.elems c.items, h2, by rw [h3]; exact arrays_of r h, rfl⟩
      · intro j e he hhe
        simp only [Obj.holder] at hhe ⊢
        rw [h2] at hhe
        injection hhe with hhe
        have := h1.apart j i e d he h5 (by rw [h6, hhe])
        subst this
        rw [h5] at he; injection he with he; subst he
        exact h7
  | enumFrom k =>
    simp only [World.step, Spec.step]
    rcases r.obj k with ⟨h1, h2⟩ | ⟨o, g, h1, h2, h3⟩
    · rw [h1, h2]; exact ⟨r, rfl⟩
    · rw [h1, h2]
      cases o with
      | none =>
        cases g with
        | none => exact ⟨r, rfl⟩
        | some g => exact h3.elim
      | some o =>
        cases o with
        | enumerator hd cur stop rev =>
          cases g with
          | none => exact h3.elim
          | some g =>
            cases g with
            | enumerable _ => exact h3.elim
            | enumerator rest => exact ⟨r, rfl⟩
        | enumerable hd =>
          cases g with
          | none => exact h3.elim
          | some g =>
            cases g with
            | enumerator _ => exact h3.elim
            | enumerable all =>
              obtain ⟨a, xs, k1, k2, k3⟩ := h3
              simp only [k1]
              refine ⟨?_, trivial⟩
              refine rep_give r ?_ ?_ (List.getElem?_eq_some_iff.mp k1).1
              · refine ⟨a, xs, k1, k2, by rw [elems_of k2]; omega, ?_⟩
                rw [elems_of k2, k3]
                unfold Spec.window
                simp only [List.drop_zero, if_true]
                rw [List.take_of_length_le (by simp)]
              · intro j d hd' hhd
                rcases r.owner j d hd hd' hhd with h | h
                · exact h
                · exact absurd rfl ((expired_iff w hd).mp h _ (List.mem_of_getElem? h1) _ rfl)
  | valid k =>
    simp only [World.step, Spec.step]
    rcases r.obj k with ⟨h1, h2⟩ | ⟨o, g, h1, h2, h3⟩
    · rw [h1, h2]; exact ⟨r, rfl⟩
    · rw [h1, h2]
      cases o with
      | none =>
        cases g with
        | none => exact ⟨r, rfl⟩
        | some g => exact h3.elim
      | some o =>
        cases o with
        | enumerator hd cur stop rev =>
          cases g with
          | none => exact h3.elim
          | some g =>
            cases g with
            | enumerable _ => exact h3.elim
            | enumerator rest =>
              obtain ⟨a, xs, k1, k2, k3, k4⟩ := h3
              refine ⟨r, ?_⟩
              simp only [k4]
              by_cases hc : cur < stop
              · obtain ⟨x, _, hx⟩ := window_get (xs := if rev then xs.reverse else xs) hc (by rw [ite_length]; exact k3)
                rw [hx]; simp [hc]
              · rw [window_nil hc]; simp [hc]
        | enumerable hd =>
          cases g with
          | none => exact h3.elim
          | some g =>
            cases g with
            | enumerator _ => exact h3.elim
            | enumerable all => exact ⟨r, rfl⟩
  | get k =>
    simp only [World.step, Spec.step]
    rcases r.obj k with ⟨h1, h2⟩ | ⟨o, g, h1, h2, h3⟩
    · rw [h1, h2]; exact ⟨r, rfl⟩
    · rw [h1, h2]
      cases o with
      | none =>
        cases g with
        | none => exact ⟨r, rfl⟩
        | some g => exact h3.elim
      | some o =>
        cases o with
        | enumerator hd cur stop rev =>
          cases g with
          | none => exact h3.elim
          | some g =>
            cases g with
            | enumerable _ => exact h3.elim
            | enumerator rest =>
              obtain ⟨a, xs, k1, k2, k3, k4⟩ := h3
              simp only [k4]
              by_cases hc : cur < stop
              · obtain ⟨x, hg, hx⟩ := window_get (xs := if rev then xs.reverse else xs) hc (by rw [ite_length]; exact k3)
                have hd' : w.deref hd cur rev = some x := by
                  unfold World.deref
                  rw [k1]
                  simp only [elems_of k2]
                  cases rev <;> simpa using hg
                rw [hx, if_pos hc, hd']
                exact ⟨r, rfl⟩
              · rw [window_nil hc, if_neg hc]
                exact ⟨r, rfl⟩
        | enumerable hd =>
          cases g with
          | none => exact h3.elim
          | some g =>
            cases g with
            | enumerator _ => exact h3.elim
            | enumerable all => exact ⟨r, rfl⟩
  | next k =>
    simp only [World.step, Spec.step]
    rcases r.obj k with ⟨h1, h2⟩ | ⟨o, g, h1, h2, h3⟩
    · rw [h1, h2]; exact ⟨r, rfl⟩
    · rw [h1, h2]
      cases o with
      | none =>
        cases g with
        | none => exact ⟨r, rfl⟩
        | some g => exact h3.elim
      | some o =>
        cases o with
        | enumerator hd cur stop rev =>
          cases g with
          | none => exact h3.elim
          | some g =>
            cases g with
            | enumerable _ => exact h3.elim
            | enumerator rest =>
              obtain ⟨a, xs, k1, k2, k3, k4⟩ := h3
              simp only [k4]
              by_cases hc : cur < stop
              · obtain ⟨x, hg, hx⟩ := window_get (xs := if rev then xs.reverse else xs) hc (by rw [ite_length]; exact k3)
                rw [hx, if_pos hc]
                refine ⟨rep_setObj r k (fun _ => ⟨a, xs, k1, k2, k3, rfl⟩) ?_, rfl⟩
                intro y hy
                injection hy with hy; subst hy
                exact ⟨_, h1, rfl⟩
              · rw [window_nil hc, if_neg hc]
                exact ⟨r, rfl⟩
        | enumerable hd =>
          cases g with
          | none => exact h3.elim
          | some g =>
            cases g with
            | enumerator _ => exact h3.elim
            | enumerable all => exact ⟨r, rfl⟩
  | drop k =>
    exact ⟨rep_setObj r k (fun _ => trivial) (fun x hx => nomatch hx), rfl⟩

theorem run_refines (as : List (Act α)) : ∀ {w : World α} {s : Spec.State α}, Rep w s → (w.run as).2 = (Spec.run s as).2 := by
  induction as with
  | nil => intro w s _; rfl
  | cons a as ih =>
    intro w s r
    obtain ⟨h1, h2⟩ := step_refines r a
    simp only [World.run, Spec.run]
    rw [h2, ih h1]

/-- Every program gets the same answers from the collections as from plain values: collections do not influence each other, changes
    of a collection are not seen by the enumerators (forward, reverse, from a position, of a reverse enumerable) given out before,
    and those show the elements there were when they were created. -/
theorem collections_are_values (as : List (Act α)) : ((World.empty : World α).run as).2 = (Spec.run Spec.empty as).2 :=
  run_refines as rep_empty

/-- No program reads outside of a container, other than by using something that was not given out: reading through an enumerator
    gives an element or throws. -/
theorem snapshot_safe (as : List (Act α)) (k : Nat) (rest : List α)
    (h : (Spec.run (Spec.empty : Spec.State α) as).1.given[k]? = some (some (.enumerator rest))) :
    ((World.empty.run as).1.step (.get k)).2 = match rest with
      | [] => .threw
      | x :: _ => .value x := by
  have aux : ∀ (as : List (Act α)) (w : World α) (s : Spec.State α), Rep w s → Rep (w.run as).1 (Spec.run s as).1 := by
    intro as
    induction as with
    | nil => intro w s r; exact r
    | cons a as ih => intro w s r; exact ih _ _ (step_refines r a).1
  have := (step_refines (aux as _ _ rep_empty) (.get k)).2
  rw [this]
  simp only [Spec.step, h]
  cases rest <;> rfl

/-- A list with elements 1, 2, 3; an enumerator is taken and moved, the list is cleared and refilled, the enumerator still shows 2, 3; a
    second, reverse, enumerator shows the new contents. -/
example : (World.empty.run ([.create, .mutate 0 (fun _ => some [1, 2, 3]), .enumerate 0 false (fun xs => (0, xs.length)), .next 0, .clear 0,
    .mutate 0 (fun xs => some (xs ++ [7, 8])), .reverse 0, .enumFrom 1, .get 0, .next 0, .get 0, .next 0, .valid 0, .get 0, .get 2, .drop 0, .query 0] : List (Act Nat))).2
    = [.done, .done, .done, .done, .done, .done, .done, .done, .value 2, .done, .value 3, .done, .answer false, .threw, .value 8, .done, .contents [7, 8]] := by
  decide

/-! RemoveWhere -/

/-- With a predicate that only looks at the element: the same as removing all the elements in question at once. -/
theorem removeLoop_quiet (pred : α → Bool) (i : Nat) : ∀ (n p : Nat) (w : World α) (s : Spec.State α) (c : Coll) (xs : List α), Rep w s →
    w.colls[i]? = some c → w.unshared c = true → s.colls[i]? = some xs → p + n = xs.length →
    Rep (World.removeLoop i pred (fun _ => false) n p w) { s with colls := s.colls.set i (xs.take p ++ (xs.drop p).filter (fun x => !pred x)) } := by
  intro n
  induction n with
  | zero =>
    intro p w s c xs r hc hu hx hp
    have : xs.take p ++ (xs.drop p).filter (fun x => !pred x) = xs := by
      rw [List.drop_eq_nil_of_le (by omega), List.take_of_length_le (by omega)]; simp
    rw [this]
    have : ({ s with colls := s.colls.set i xs } : Spec.State α) = s := by
      cases s with
      | mk colls given =>
        congr 1
        apply List.ext_getElem?
        intro j
        rw [List.getElem?_set]
        by_cases hj : i = j
        · subst hj
          simp only [if_true]
          simp only [] at hx
          rw [hx]
          have := (List.getElem?_eq_some_iff.mp hx).1
          simp [this]
        · simp [hj]
    rw [this]; exact r
  | succ n ih =>
    intro p w s c xs r hc hu hx hp
    have he : w.elems c.items = xs := by
      have := r.elems_eq hc
      rw [hx] at this; injection this with this; exact this.symm
    have hpl : p < xs.length := by omega
    simp only [World.removeLoop, hc, he]
    rw [List.getElem?_eq_getElem hpl]
    simp only [Bool.false_eq_true, if_false]
    have hd : xs.drop p = xs[p] :: xs.drop (p + 1) := List.drop_eq_getElem_cons hpl
    by_cases hpr : pred xs[p] = true
    · rw [if_pos hpr]
      have r' := rep_inPlace r hc hu (xs.eraseIdx p)
      have hsi := (List.getElem?_eq_some_iff.mp hx).1
      have hc' : (w.inPlace i (xs.eraseIdx p)).colls[i]? = some c := by
        unfold World.inPlace; rw [hc]; exact hc
      have hu' : (w.inPlace i (xs.eraseIdx p)).unshared c = true := by
        unfold World.inPlace; rw [hc]; exact hu
      have := ih p _ _ c (xs.eraseIdx p) r' hc' hu' (by simp [hsi]) (by rw [List.length_eraseIdx_of_lt hpl]; omega)
      have hl : (xs.eraseIdx p).take p ++ ((xs.eraseIdx p).drop p).filter (fun x => !pred x) = xs.take p ++ (xs.drop p).filter (fun x => !pred x) := by
        have hlen : (xs.take p).length = p := by simp; omega
        rw [hd, List.filter_cons_of_neg (by simp [hpr]), List.eraseIdx_eq_take_drop_succ]
        rw [List.take_append_of_le_length (by omega), List.drop_append_of_le_length (by omega), List.drop_eq_nil_of_le (by omega), List.take_of_length_le (by omega)]
        rfl
      rw [hl] at this
      simpa using this
    · rw [if_neg hpr]
      have := ih (p + 1) w s c xs r hc hu hx (by omega)
      have hl : xs.take (p + 1) ++ (xs.drop (p + 1)).filter (fun x => !pred x) = xs.take p ++ (xs.drop p).filter (fun x => !pred x) := by
        rw [hd, List.filter_cons_of_pos (by simp [hpr]), List.take_succ, List.getElem?_eq_getElem hpl]
        simp only [Option.toList_some, List.append_assoc, List.singleton_append]
      rw [hl] at this
      exact this

/-- RemoveWhere with a predicate that does not itself take enumerators of the collection removes exactly the elements in question and leaves
    all enumerators as they are. -/
theorem removeWhere_quiet {w : World α} {s : Spec.State α} (r : Rep w s) {i : Nat} {xs : List α} (hx : s.colls[i]? = some xs) (pred : α → Bool) :
    Rep (w.removeWhere i pred (fun _ => false)) { s with colls := s.colls.set i (xs.filter (fun x => !pred x)) } := by
  unfold World.removeWhere
  cases hc : w.colls[i]? with
  | none => rw [r.absent hc] at hx; cases hx
  | some c =>
    simp only []
    obtain ⟨h1, d, h2, h3⟩ := rep_copyOnWrite r hc
    have he : w.elems c.items = xs := by
      have := r.elems_eq hc
      rw [hx] at this; injection this with this; exact this.symm
    have := removeLoop_quiet pred i xs.length 0 _ s d xs h1 h2 h3 hx (by omega)
    rw [he]
    simpa using this

/-- RemoveWhere in the middle of any program, with a predicate that only looks at the element: from then on everything is as if the collection had been
    assigned the elements for which the predicate is false; enumerators given out before still show all the old ones. -/
theorem removeWhere_partial (before after : List (Act α)) (i : Nat) (pred : α → Bool) (xs : List α)
    (hx : (Spec.run (Spec.empty : Spec.State α) before).1.colls[i]? = some xs) :
    ((((World.empty : World α).run before).1.removeWhere i pred (fun _ => false)).run after).2
      = (Spec.run { (Spec.run Spec.empty before).1 with colls := (Spec.run Spec.empty before).1.colls.set i (xs.filter (fun x => !pred x)) } after).2 := by
  have aux : ∀ (as : List (Act α)) (w : World α) (s : Spec.State α), Rep w s → Rep (w.run as).1 (Spec.run s as).1 := by
    intro as
    induction as with
    | nil => intro w s r; exact r
    | cons a as ih => intro w s r; exact ih _ _ (step_refines r a).1
  exact run_refines after (removeWhere_quiet (aux before _ _ rep_empty) hx pred)

/-- An enumerator taken before the removal still shows the removed element 2. -/
example : let w := (World.empty.run ([.create, .mutate 0 (fun _ => some [1, 2, 3, 4]), .enumerate 0 false (fun xs => (1, xs.length))] : List (Act Nat))).1.removeWhere 0 (fun x => x % 2 = 0) (fun _ => false)
    (w.run [.get 0, .query 0]).2 = [.value 2, .contents [1, 3]] := by
  decide

/-- The predicate asks for an enumerator of the collection (say, to look for duplicates) and keeps it: the enumerator is not a snapshot, the elements
    removed later vanish from under it (from a node based container it is a dangling iterator; here the position past the end). -/
theorem peeking_predicate_violated :
    let w := (World.empty.run ([.create, .mutate 0 (fun _ => some [1, 2, 3])] : List (Act Nat))).1.removeWhere 0 (fun _ => true) (fun x => x = 1)
    (w.step (.get 0)).2 = .ub ∧ (w.step (.valid 0)).2 = .answer true := by
  decide

end Verif.Coll
