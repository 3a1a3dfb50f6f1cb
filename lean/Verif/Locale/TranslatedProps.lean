import Verif.Locale.Translated

/-! C142: translated strings are values; what is selected, formatted and joined. -/

namespace Verif.Locale

/-! ### Specification -/

namespace Spec

/-- The translations of a string: for each language a text or none. -/
abbrev Translations := Nat → Option Text

/-- Strings and builders as values; a builder is used up by `Get`. -/
structure State where
  strings : List Translations
  builders : List (Option Translations)

/-- The translations with one added or replaced. -/
def add (f : Translations) (lang : Nat) (text : Text) : Translations := fun l => if l = lang then some text else f l

inductive Out where
  | ok (s : State)
  | threw (s : State)
  | undefined

/-- What the operations mean for values. -/
def step (s : State) : Act → Out
  | .make lang text => .ok { s with strings := s.strings ++ [add (fun _ => none) lang text] }
  | .empty => .ok { s with strings := s.strings ++ [fun _ => none] }
  | .copy i => match s.strings[i]? with
    | none => .undefined
    | some f => .ok { s with strings := s.strings ++ [f] }
  | .assign i j => match s.strings[j]? with
    | none => .undefined
    | some f => .ok { s with strings := s.strings.set i f }
  | .builder => .ok { s with builders := s.builders ++ [some fun _ => none] }
  | .builderFrom i => match s.strings[i]? with
    | none => .undefined
    | some f => .ok { s with builders := s.builders ++ [some f] }
  | .add b lang text => match s.builders[b]? with
    | some (some f) => .ok { s with builders := s.builders.set b (some (add f lang text)) }
    | _ => .undefined
  | .get b => match s.builders[b]? with
    | none => .undefined
    | some none => .threw s
    | some (some f) => .ok { strings := s.strings ++ [f], builders := s.builders.set b none }

def run (s : State) : List Act → Option State
  | [] => some s
  | a :: as => match step s a with
    | .ok s' => run s' as
    | .threw s' => run s' as
    | .undefined => none

end Spec

/-- The entries are in the order of the codes. -/
def Sorted (d : Dict) : Prop := (d.map (·.1)).Pairwise (· < ·)

/-! ### Dictionaries -/

theorem find_nil (k : Nat) : Dict.find [] k = none := rfl

theorem find_cons (k' : Nat) (v' : Text) (d : Dict) (k : Nat) : Dict.find ((k', v') :: d) k = if k = k' then some v' else Dict.find d k := by
  unfold Dict.find
  rw [List.find?_cons]
  by_cases h : k = k'
  · subst h; simp
  · have : (k' == k) = false := by simp; omega
    simp [this, h]

theorem find_set (d : Dict) (k : Nat) (v : Text) (l : Nat) : (d.set k v).find l = if l = k then some v else d.find l := by
  induction d with
  | nil => rw [Dict.set, find_cons, find_nil]
  | cons p d ih =>
    obtain ⟨k', v'⟩ := p
    rw [Dict.set]
    split
    · rw [find_cons]
    · split
      · rename_i h; subst h
        rw [find_cons, find_cons]
        split <;> rfl
      · rw [find_cons, ih, find_cons]
        by_cases h1 : l = k'
        · rw [if_pos h1, if_pos h1, if_neg (by omega)]
        · rw [if_neg h1, if_neg h1]

theorem set_keys (d : Dict) (k : Nat) (v : Text) : ∀ x ∈ (d.set k v).map (·.1), x = k ∨ x ∈ d.map (·.1) := by
  induction d with
  | nil => intro x hx; rw [Dict.set] at hx; simp at hx; exact .inl hx
  | cons p d ih =>
    obtain ⟨k', v'⟩ := p
    intro x hx
    rw [Dict.set] at hx
    split at hx
    · simpa using hx
    · split at hx
      · rename_i h; subst h
        simp only [List.map_cons, List.mem_cons] at hx ⊢
        rcases hx with h | h
        · exact .inl h
        · exact .inr (.inr h)
      · simp only [List.map_cons, List.mem_cons] at hx ⊢
        rcases hx with h | h
        · exact .inr (.inl h)
        · rcases ih x h with h | h
          · exact .inl h
          · exact .inr (.inr h)

theorem sorted_set {d : Dict} (h : Sorted d) (k : Nat) (v : Text) : Sorted (d.set k v) := by
  unfold Sorted at *
  induction d with
  | nil => rw [Dict.set]; simp
  | cons p d ih =>
    obtain ⟨k', v'⟩ := p
    rw [List.map_cons, List.pairwise_cons] at h
    simp only [] at h
    rw [Dict.set]
    split
    · rename_i hk
      rw [List.map_cons, List.pairwise_cons]
      refine ⟨?_, by rw [List.map_cons, List.pairwise_cons]; exact h⟩
      intro a ha
      simp only [List.map_cons, List.mem_cons] at ha ⊢
      rcases ha with rfl | ha
      · exact hk
      · have := h.1 a ha; omega
    · split
      · rename_i hk; subst hk
        rw [List.map_cons, List.pairwise_cons]
        exact h
      · rw [List.map_cons, List.pairwise_cons]
        refine ⟨?_, ih h.2⟩
        intro a ha
        simp only []
        rcases set_keys d k v a ha with rfl | ha
        · omega
        · exact h.1 a ha

theorem find_mem {d : Dict} {k : Nat} {v : Text} (hs : Sorted d) : d.find k = some v ↔ (k, v) ∈ d := by
  unfold Sorted at hs
  induction d with
  | nil => simp [find_nil]
  | cons p d ih =>
    obtain ⟨k', v'⟩ := p
    rw [List.map_cons, List.pairwise_cons] at hs
    rw [find_cons, List.mem_cons]
    by_cases h : k = k'
    · subst h
      rw [if_pos rfl]
      constructor
      · intro e; injection e with e; subst e; exact .inl rfl
      · rintro (e | e)
        · injection e with _ e; rw [e]
        · have h2 := hs.1 k (List.mem_map.mpr ⟨_, e, rfl⟩)
          simp only [] at h2
          omega
    · rw [if_neg h, ih hs.2]
      constructor
      · exact .inr
      · rintro (e | e)
        · injection e with e _; exact absurd e h
        · exact e

theorem find_eq_none {d : Dict} {k : Nat} : d.find k = none ↔ ∀ v, (k, v) ∉ d := by
  induction d with
  | nil => simp [find_nil]
  | cons p d ih =>
    obtain ⟨k', v'⟩ := p
    rw [find_cons]
    by_cases h : k = k'
    · subst h
      rw [if_pos rfl]
      exact ⟨fun e => (by cases e), fun h => absurd List.mem_cons_self (h v')⟩
    · simp [h, ih]

/-! ### Value semantics -/

/-- A dictionary on the heap with these translations. -/
def At (heap : List Dict) (p : Nat) (f : Spec.Translations) : Prop := ∃ d, heap[p]? = some d ∧ Sorted d ∧ ∀ k, d.find k = f k

/-- What a builder of the specification corresponds to. -/
def BuilderIs (s : State) (b : Nat) (x : Builder) : Option Spec.Translations → Prop
  | none => x.product = none
  | some f => ∃ p : Nat, x.product = some p ∧ At s.heap p f ∧
    (x.dirty = true → p ∉ s.strings ∧ ∀ (b' : Nat) (x' : Builder), b' ≠ b → s.builders[b']? = some x' → x'.product ≠ some p)

/-- The objects have the values of the specification; what a builder may change belongs to it alone. -/
structure Rel (s : State) (t : Spec.State) : Prop where
  slen : s.strings.length = t.strings.length
  str : ∀ (i : Nat) p f, s.strings[i]? = some p → t.strings[i]? = some f → At s.heap p f
  blen : s.builders.length = t.builders.length
  bld : ∀ (b : Nat) x y, s.builders[b]? = some x → t.builders[b]? = some y → BuilderIs s b x y

theorem At.push {heap : List Dict} {p : Nat} {f : Spec.Translations} (h : At heap p f) (d : Dict) : At (heap ++ [d]) p f := by
  obtain ⟨e, h1, h2⟩ := h
  refine ⟨e, ?_, h2⟩
  have := (List.getElem?_eq_some_iff.mp h1).1
  rw [List.getElem?_append_left this, h1]

theorem At.lt {heap : List Dict} {p : Nat} {f : Spec.Translations} (h : At heap p f) : p < heap.length := by
  obtain ⟨e, h1, _⟩ := h
  exact (List.getElem?_eq_some_iff.mp h1).1

theorem At.new (heap : List Dict) {d : Dict} {f : Spec.Translations} (h : Sorted d) (hf : ∀ k, d.find k = f k) : At (heap ++ [d]) heap.length f :=
  ⟨d, by simp, h, hf⟩

theorem getElem?_push {α : Type} (l : List α) (x : α) (i : Nat) : (l ++ [x])[i]? = if i = l.length then some x else l[i]? := by
  by_cases h : i < l.length
  · rw [List.getElem?_append_left h, if_neg (by omega)]
  · by_cases h2 : i = l.length
    · subst h2; simp
    · rw [if_neg h2, List.getElem?_append_right (by omega), List.getElem?_eq_none (by simp; omega), List.getElem?_eq_none (by omega)]

theorem str_mem {s : State} {t : Spec.State} (h : Rel s t) {p : Nat} (hp : p ∈ s.strings) : p < s.heap.length := by
  obtain ⟨i, hi⟩ := List.getElem?_of_mem hp
  have hl : i < t.strings.length := by rw [← h.slen]; exact (List.getElem?_eq_some_iff.mp hi).1
  exact (h.str i p _ hi (List.getElem?_eq_getElem hl)).lt

theorem bld_lt {s : State} {t : Spec.State} (h : Rel s t) {b p : Nat} {x : Builder} (hb : s.builders[b]? = some x) (hp : x.product = some p) : p < s.heap.length := by
  have hl : b < t.builders.length := by rw [← h.blen]; exact (List.getElem?_eq_some_iff.mp hb).1
  have := h.bld b x _ hb (List.getElem?_eq_getElem hl)
  cases hy : t.builders[b] with
  | none => rw [hy] at this; simp only [BuilderIs, hp] at this; cases this
  | some f =>
    rw [hy] at this
    obtain ⟨q, e, this⟩ := this
    rw [hp] at e; injection e with e; subst e; exact this.1.lt

/-- What a step leads to in both machines. -/
def Agree : Out → Spec.Out → Prop
  | .ok s, .ok t => Rel s t
  | .threw s, .threw t => Rel s t
  | .undefined, .undefined => True
  | _, _ => False

theorem rel_push {s : State} {t : Spec.State} (h : Rel s t) {d : Dict} {f : Spec.Translations} (hd : Sorted d) (hf : ∀ k, d.find k = f k) :
    Rel { s with heap := s.heap ++ [d], strings := s.strings ++ [s.heap.length] } { t with strings := t.strings ++ [f] } where
  slen := by simp [h.slen]
  str := by
    intro i p g hi hg
    simp only [getElem?_push, ← h.slen] at hi hg
    by_cases e : i = s.strings.length
    · rw [if_pos e] at hi hg
      injection hi with hi; injection hg with hg
      subst hi hg
      exact At.new _ hd hf
    · rw [if_neg e] at hi hg
      exact (h.str i p g hi hg).push d
  blen := h.blen
  bld := by
    intro b x y hb hy
    have := h.bld b x y hb hy
    cases y with
    | none => exact this
    | some f' =>
      obtain ⟨p, e1, this⟩ := this
      refine ⟨p, e1, this.1.push d, fun hd => ⟨?_, (this.2 hd).2⟩⟩
      intro hm
      rcases List.mem_append.mp hm with hm | hm
      · exact (this.2 hd).1 hm
      · have := this.1.lt
        rw [List.mem_singleton] at hm
        omega

theorem step_agree {s : State} {t : Spec.State} (h : Rel s t) (a : Act) : Agree (step s a) (Spec.step t a) := by
  cases a with
  | make lang text => exact rel_push h (sorted_set (by simp [Sorted]) _ _) (fun k => by rw [find_set]; rfl)
  | empty => exact rel_push h (by simp [Sorted]) (fun k => rfl)
  | copy i =>
    simp only [step, Spec.step]
    by_cases hi : i < s.strings.length
    · rw [List.getElem?_eq_getElem hi, List.getElem?_eq_getElem (by rw [← h.slen]; exact hi)]
      simp only [Agree]
      have hat := h.str i _ _ (List.getElem?_eq_getElem hi) (List.getElem?_eq_getElem (by rw [← h.slen]; exact hi))
      refine ⟨by simp [h.slen], ?_, h.blen, ?_⟩
      · intro j p g hj hg
        simp only [getElem?_push, ← h.slen] at hj hg
        by_cases e : j = s.strings.length
        · rw [if_pos e] at hj hg
          injection hj with hj; injection hg with hg
          subst hj hg
          exact hat
        · rw [if_neg e] at hj hg
          exact h.str j p g hj hg
      · intro b x y hb hy
        have := h.bld b x y hb hy
        cases y with
        | none => exact this
        | some f' =>
          obtain ⟨p, e1, this⟩ := this
          refine ⟨p, e1, this.1, fun hd => ⟨?_, (this.2 hd).2⟩⟩
          intro hm
          rcases List.mem_append.mp hm with hm | hm
          · exact (this.2 hd).1 hm
          · rw [List.mem_singleton] at hm
            exact (this.2 hd).1 (by rw [hm]; exact List.getElem_mem hi)
    · rw [List.getElem?_eq_none (by omega), List.getElem?_eq_none (by rw [← h.slen]; omega)]
      trivial
  | assign j i =>
    simp only [step, Spec.step]
    by_cases hi : i < s.strings.length
    · rw [List.getElem?_eq_getElem hi, List.getElem?_eq_getElem (by rw [← h.slen]; exact hi)]
      simp only [Agree]
      have hat := h.str i _ _ (List.getElem?_eq_getElem hi) (List.getElem?_eq_getElem (by rw [← h.slen]; exact hi))
      refine ⟨by simp [h.slen], ?_, h.blen, ?_⟩
      · intro k p g hk hg
        simp only [List.getElem?_set, ← h.slen] at hk hg
        by_cases e : j = k
        · rw [if_pos e] at hk hg
          by_cases hl : j < s.strings.length
          · rw [if_pos hl] at hk hg
            injection hk with hk; injection hg with hg
            subst hk hg
            exact hat
          · rw [if_neg hl] at hk; cases hk
        · rw [if_neg e] at hk hg
          exact h.str k p g hk hg
      · intro b x y hb hy
        have := h.bld b x y hb hy
        cases y with
        | none => exact this
        | some f' =>
          obtain ⟨p, e1, this⟩ := this
          refine ⟨p, e1, this.1, fun hd => ⟨?_, (this.2 hd).2⟩⟩
          intro hm
          rcases List.mem_or_eq_of_mem_set hm with hm | hm
          · exact (this.2 hd).1 hm
          · exact (this.2 hd).1 (by rw [hm]; exact List.getElem_mem hi)
    · rw [List.getElem?_eq_none (by omega), List.getElem?_eq_none (by rw [← h.slen]; omega)]
      trivial
  | builder =>
    simp only [step, Spec.step, Agree]
    refine ⟨h.slen, fun i p f hi hf => (h.str i p f hi hf).push _, by simp [h.blen], ?_⟩
    intro b x y hb hy
    simp only [getElem?_push, ← h.blen] at hb hy
    by_cases e : b = s.builders.length
    · rw [if_pos e] at hb hy
      injection hb with hb; injection hy with hy
      subst hb hy
      refine ⟨_, rfl, At.new _ (by simp [Sorted]) (fun k => rfl), fun _ => ⟨?_, ?_⟩⟩
      · intro hm; have := str_mem h hm; omega
      · intro b' x' hne hb' hp
        simp only [getElem?_push] at hb'
        rw [if_neg (by omega)] at hb'
        have := bld_lt h hb' hp
        omega
    · rw [if_neg e] at hb hy
      have := h.bld b x y hb hy
      cases y with
      | none => exact this
      | some f' =>
        obtain ⟨p, e1, this⟩ := this
        refine ⟨p, e1, this.1.push _, fun hd => ⟨(this.2 hd).1, ?_⟩⟩
        intro b' x' hne hb' hp
        simp only [getElem?_push] at hb'
        by_cases e' : b' = s.builders.length
        · rw [if_pos e'] at hb'
          injection hb' with hb'; subst hb'
          injection hp with hp
          have := this.1.lt
          omega
        · rw [if_neg e'] at hb'
          exact (this.2 hd).2 b' x' hne hb' hp
  | builderFrom i =>
    simp only [step, Spec.step]
    by_cases hi : i < s.strings.length
    · rw [List.getElem?_eq_getElem hi, List.getElem?_eq_getElem (by rw [← h.slen]; exact hi)]
      simp only [Agree]
      have hat := h.str i _ _ (List.getElem?_eq_getElem hi) (List.getElem?_eq_getElem (by rw [← h.slen]; exact hi))
      refine ⟨h.slen, h.str, by simp [h.blen], ?_⟩
      intro b x y hb hy
      simp only [getElem?_push, ← h.blen] at hb hy
      by_cases e : b = s.builders.length
      · rw [if_pos e] at hb hy
        injection hb with hb; injection hy with hy
        subst hb hy
        exact ⟨_, rfl, hat, fun hd => (by cases hd)⟩
      · rw [if_neg e] at hb hy
        have := h.bld b x y hb hy
        cases y with
        | none => exact this
        | some f' =>
          obtain ⟨p, e1, this⟩ := this
          refine ⟨p, e1, this.1, fun hd => ⟨(this.2 hd).1, ?_⟩⟩
          intro b' x' hne hb' hp
          simp only [getElem?_push] at hb'
          by_cases e' : b' = s.builders.length
          · rw [if_pos e'] at hb'
            injection hb' with hb'; subst hb'
            injection hp with hp
            exact (this.2 hd).1 (by rw [← hp]; exact List.getElem_mem hi)
          · rw [if_neg e'] at hb'
            exact (this.2 hd).2 b' x' hne hb' hp
    · rw [List.getElem?_eq_none (by omega), List.getElem?_eq_none (by rw [← h.slen]; omega)]
      trivial
  | add b lang text =>
    simp only [step, Spec.step]
    by_cases hb : b < s.builders.length
    · have hx := List.getElem?_eq_getElem hb
      have hy := List.getElem?_eq_getElem (l := t.builders) (i := b) (by rw [← h.blen]; exact hb)
      have hbl := h.bld b _ _ hx hy
      rw [hx, hy]
      generalize s.builders[b] = x at *
      generalize t.builders[b]'(by rw [← h.blen]; exact hb) = y at *
      simp only []
      unfold addTo
      cases y with
      | none => simp only [BuilderIs] at hbl; rw [hbl]; trivial
      | some f =>
        obtain ⟨p, e1, hbl⟩ := hbl
        rw [e1]
        simp only []
        obtain ⟨⟨d, d1, d2, d3⟩, hown⟩ := hbl
        have hpl := (List.getElem?_eq_some_iff.mp d1).1
        have hnew : ∀ k, (d.set lang text).find k = Spec.add f lang text k := by
          intro k; rw [find_set, d3]; rfl
        by_cases hd : x.dirty = true
        · rw [if_pos hd]
          obtain ⟨o1, o2⟩ := hown hd
          have keep : ∀ q g, At s.heap q g → q ≠ p → At (s.heap.modify p (·.set lang text)) q g := by
            rintro q g ⟨e, e1, e2⟩ hq
            refine ⟨e, ?_, e2⟩
            rw [List.getElem?_modify, e1]
            show some (if p = q then e.set lang text else e) = some e
            rw [if_neg (Ne.symm hq)]
          refine ⟨h.slen, ?_, by simp [h.blen], ?_⟩
          · intro i q g hi hg
            exact keep q g (h.str i q g hi hg) (fun e => o1 (by rw [← e]; exact List.mem_of_getElem? hi))
          · intro b' x' y' hb' hy'
            by_cases e : b = b'
            · subst e
              simp only [] at hb'
              rw [hx] at hb'
              injection hb' with hb'; subst hb'
              simp only [] at hy'
              rw [List.getElem?_set_self (by rw [← h.blen]; exact hb)] at hy'
              injection hy' with hy'; subst hy'
              refine ⟨p, e1, ⟨d.set lang text, ?_, sorted_set d2 _ _, hnew⟩, hown⟩
              rw [List.getElem?_modify, d1]
              show some (if p = p then d.set lang text else d) = some _
              rw [if_pos rfl]
            · simp only [] at hb' hy'
              rw [List.getElem?_set_ne e] at hy'
              have := h.bld b' x' y' hb' hy'
              cases y' with
              | none => exact this
              | some g =>
                obtain ⟨q, e2, this⟩ := this
                exact ⟨q, e2, keep q g this.1 (fun e' => o2 b' x' (fun e3 => e e3.symm) hb' (by rw [e2, e'])), this.2⟩
        · rw [if_neg hd]
          have hgd : s.heap.getD p [] = d := by rw [List.getD_eq_getElem?_getD, d1]; rfl
          rw [hgd]
          refine ⟨h.slen, fun i q g hi hg => (h.str i q g hi hg).push _, by simp [h.blen], ?_⟩
          intro b' x' y' hb' hy'
          simp only [] at hb' hy'
          by_cases e : b = b'
          · subst e
            rw [List.getElem?_set_self hb] at hb'
            rw [List.getElem?_set_self (by rw [← h.blen]; exact hb)] at hy'
            injection hb' with hb'; injection hy' with hy'
            subst hb' hy'
            refine ⟨_, rfl, At.new _ (sorted_set d2 _ _) hnew, fun _ => ⟨?_, ?_⟩⟩
            · intro hm; have := str_mem h hm; omega
            · intro b'' x'' hne hb'' hp
              simp only [] at hb''
              rw [List.getElem?_set_ne (Ne.symm hne)] at hb''
              have := bld_lt h hb'' hp
              omega
          · rw [List.getElem?_set_ne e] at hb' hy'
            have := h.bld b' x' y' hb' hy'
            cases y' with
            | none => exact this
            | some g =>
              obtain ⟨q, e2, this⟩ := this
              refine ⟨q, e2, this.1.push _, fun hd' => ⟨(this.2 hd').1, ?_⟩⟩
              intro b'' x'' hne hb'' hp
              simp only [] at hb''
              by_cases e4 : b = b''
              · subst e4
                rw [List.getElem?_set_self hb] at hb''
                injection hb'' with hb''
                subst hb''
                injection hp with hp
                have := this.1.lt
                omega
              · rw [List.getElem?_set_ne e4] at hb''
                exact (this.2 hd').2 b'' x'' hne hb'' hp
    · rw [List.getElem?_eq_none (by omega), List.getElem?_eq_none (by rw [← h.blen]; omega)]
      trivial
  | get b =>
    simp only [step, Spec.step]
    by_cases hb : b < s.builders.length
    · have hx := List.getElem?_eq_getElem hb
      have hy := List.getElem?_eq_getElem (l := t.builders) (i := b) (by rw [← h.blen]; exact hb)
      have hbl := h.bld b _ _ hx hy
      rw [hx, hy]
      generalize s.builders[b] = x at *
      generalize t.builders[b]'(by rw [← h.blen]; exact hb) = y at *
      simp only []
      cases y with
      | none => simp only [BuilderIs] at hbl; rw [hbl]; exact h
      | some f =>
        obtain ⟨p, e1, hbl⟩ := hbl
        rw [e1]
        simp only [Agree]
        refine ⟨by simp [h.slen], ?_, by simp [h.blen], ?_⟩
        · intro i q g hi hg
          simp only [getElem?_push, ← h.slen] at hi hg
          by_cases e : i = s.strings.length
          · rw [if_pos e] at hi hg
            injection hi with hi; injection hg with hg
            subst hi hg
            exact hbl.1
          · rw [if_neg e] at hi hg
            exact h.str i q g hi hg
        · intro b' x' y' hb' hy'
          simp only [] at hb' hy'
          by_cases e : b = b'
          · subst e
            rw [List.getElem?_set_self hb] at hb'
            rw [List.getElem?_set_self (by rw [← h.blen]; exact hb)] at hy'
            injection hb' with hb'; injection hy' with hy'
            subst hb' hy'
            rfl
          · rw [List.getElem?_set_ne e] at hb' hy'
            have := h.bld b' x' y' hb' hy'
            cases y' with
            | none => exact this
            | some g =>
              obtain ⟨q, e2, this⟩ := this
              refine ⟨q, e2, this.1, fun hd' => ⟨?_, ?_⟩⟩
              · intro hm
                rcases List.mem_append.mp hm with hm | hm
                · exact (this.2 hd').1 hm
                · rw [List.mem_singleton] at hm
                  exact (this.2 hd').2 b x e hx (by rw [e1, hm])
              · intro b'' x'' hne hb'' hp
                simp only [] at hb''
                by_cases e4 : b = b''
                · subst e4
                  rw [List.getElem?_set_self hb] at hb''
                  injection hb'' with hb''
                  subst hb''
                  cases hp
                · rw [List.getElem?_set_ne e4] at hb''
                  exact (this.2 hd').2 b'' x'' hne hb'' hp
    · rw [List.getElem?_eq_none (by omega), List.getElem?_eq_none (by rw [← h.blen]; omega)]
      trivial

theorem run_agree (as : List Act) : ∀ {s : State} {t : Spec.State}, Rel s t →
    (run s as = none ↔ Spec.run t as = none) ∧ ∀ s', run s as = some s' → ∃ t', Spec.run t as = some t' ∧ Rel s' t' := by
  induction as with
  | nil => intro s t h; exact ⟨by simp [run, Spec.run], fun s' hs => ⟨t, rfl, by injection hs with hs; subst hs; exact h⟩⟩
  | cons a as ih =>
    intro s t h
    have := step_agree h a
    rw [run, Spec.run]
    generalize step s a = o at *
    generalize Spec.step t a = q at *
    cases o <;> cases q <;> simp only [Agree] at this
    · exact ih this
    · exact ih this
    · exact ⟨by simp, fun s' hs => (by cases hs)⟩

/-- C142.  Translated strings and builders are values although they share dictionaries: after any sequence of operations (other than
reading an archive into a string) every string has the translations that the operations give it, and no later use of a builder or of
another string changes them.  A builder gives the translations it was made from with those added, once; a second `Get` throws, adding
after `Get` is undefined. -/
theorem strings_are_values (as : List Act) :
    (run State.init as = none ↔ Spec.run ⟨[], []⟩ as = none) ∧
    ∀ s, run State.init as = some s → ∃ t, Spec.run ⟨[], []⟩ as = some t ∧ s.strings.length = t.strings.length ∧
      ∀ i f, t.strings[i]? = some f → ∃ d, s.content i = some d ∧ Sorted d ∧ ∀ k, d.find k = f k := by
  have h0 : Rel State.init ⟨[], []⟩ := ⟨rfl, fun i p f h => by simp [State.init] at h, rfl, fun b x y h => by simp [State.init] at h⟩
  obtain ⟨h1, h2⟩ := run_agree as h0
  refine ⟨h1, fun s hs => ?_⟩
  obtain ⟨t, ht, hr⟩ := h2 s hs
  refine ⟨t, ht, hr.slen, ?_⟩
  intro i f hf
  have hl : i < s.strings.length := by rw [hr.slen]; exact (List.getElem?_eq_some_iff.mp hf).1
  obtain ⟨d, d1, d2, d3⟩ := hr.str i _ f (List.getElem?_eq_getElem hl) hf
  refine ⟨d, ?_, d2, d3⟩
  unfold State.content
  rw [List.getElem?_eq_getElem hl]
  exact d1

example : (run State.init [.make 1 ['a'], .builderFrom 0, .add 0 2 ['b'], .add 0 1 ['c'], .get 0, .copy 1]).map (fun s => [s.content 0, s.content 1, s.content 2]) =
    some [some [(1, ['a'])], some [(1, ['c']), (2, ['b'])], some [(1, ['c']), (2, ['b'])]] := by decide

/-- C142 is violated by misuse that compiles: a builder is used up by `Get`. -/
theorem builder_reuse_violated : run State.init [.builder, .get 0, .add 0 1 ['a']] = none ∧
    (∃ s, run State.init [.builder, .get 0] = some s ∧ ∃ s', step s (.get 0) = .threw s') := ⟨rfl, _, rfl, _, rfl⟩

/-! ### Selecting -/

/-- The translation into `lang`, any one if `lang` is 0: that with the smallest code. -/
def Translation (d : Dict) (lang : Nat) (v : Text) : Prop :=
  (lang ≠ 0 ∧ (lang, v) ∈ d) ∨ (lang = 0 ∧ ∃ k, (k, v) ∈ d ∧ ∀ k' v', (k', v') ∈ d → k ≤ k')

/-- C142.  There is a translation into a language exactly if one was given, into "any" exactly if there are any; `GetTranslation` gives
it. -/
theorem tryGet_spec {d : Dict} (hs : Sorted d) (lang : Nat) : (∀ v, tryGet d lang = some v ↔ Translation d lang v) ∧
    (has d lang = true ↔ ∃ v, Translation d lang v) := by
  have h1 : ∀ v, tryGet d lang = some v ↔ Translation d lang v := by
    intro v
    unfold tryGet Translation
    by_cases h : lang = 0
    · rw [if_pos h]
      constructor
      · intro hv
        cases d with
        | nil => cases hv
        | cons p d =>
          obtain ⟨k, v'⟩ := p
          simp only [List.map_cons, List.head?_cons, Option.some.injEq] at hv
          subst hv
          refine .inr ⟨h, k, List.mem_cons_self, ?_⟩
          intro k' v'' hm
          rcases List.mem_cons.mp hm with e | e
          · injection e with e _; omega
          · unfold Sorted at hs
            rw [List.map_cons, List.pairwise_cons] at hs
            exact Nat.le_of_lt (hs.1 k' (List.mem_map.mpr ⟨_, e, rfl⟩))
      · rintro (⟨a, _⟩ | ⟨_, k, hm, hmin⟩)
        · exact absurd h a
        · cases d with
          | nil => cases hm
          | cons p d =>
            obtain ⟨k0, v0⟩ := p
            have hle := hmin k0 v0 List.mem_cons_self
            unfold Sorted at hs
            rw [List.map_cons, List.pairwise_cons] at hs
            rcases List.mem_cons.mp hm with e | e
            · injection e with _ e; subst e; rfl
            · have := hs.1 k (List.mem_map.mpr ⟨_, e, rfl⟩)
              simp only [] at this
              omega
    · rw [if_neg h, find_mem hs]
      constructor
      · intro a; exact .inl ⟨h, a⟩
      · rintro (⟨_, a⟩ | ⟨a, _⟩)
        · exact a
        · exact absurd a h
  refine ⟨h1, ?_⟩
  have h2 : has d lang = (tryGet d lang).isSome := by
    unfold has tryGet
    split
    · cases d <;> rfl
    · rfl
  rw [h2, Option.isSome_iff_exists]
  exact ⟨fun ⟨v, hv⟩ => ⟨v, (h1 v).mp hv⟩, fun ⟨v, hv⟩ => ⟨v, (h1 v).mpr hv⟩⟩

/-- C142.  `SelectTranslation` gives the translation into the first of the languages that has one, else any translation, else nothing. -/
theorem select_spec {d : Dict} (hs : Sorted d) (lang : Nat) (langs : List Nat) :
    (∀ pre l post v, lang :: langs = pre ++ l :: post → (∀ l' ∈ pre, ∀ v', ¬ Translation d l' v') → Translation d l v → select d lang langs = v) ∧
    ((∀ l ∈ lang :: langs, ∀ v', ¬ Translation d l v') → ∀ v, Translation d 0 v → select d lang langs = v) ∧
    (d = [] → select d lang langs = []) := by
  have none_ : ∀ l, (∀ v', ¬ Translation d l v') → tryGet d l = none := by
    intro l hl
    cases h : tryGet d l with
    | none => rfl
    | some v => exact absurd (((tryGet_spec hs l).1 v).mp h) (hl v)
  have skip : ∀ (pre rest : List Nat), (∀ l' ∈ pre, ∀ v', ¬ Translation d l' v') → (pre ++ rest).findSome? (tryGet d) = rest.findSome? (tryGet d) := by
    intro pre rest hp
    induction pre with
    | nil => rfl
    | cons l pre ih =>
      rw [List.cons_append, List.findSome?_cons, none_ l (hp l List.mem_cons_self)]
      exact ih (fun l' h => hp l' (List.mem_cons_of_mem _ h))
  have e : lang :: (langs ++ [0]) = (lang :: langs) ++ [0] := rfl
  unfold select selectFrom
  rw [e]
  refine ⟨?_, ?_, ?_⟩
  · intro pre l post v he hp hv
    rw [he, List.append_assoc, skip pre _ hp, List.cons_append, List.findSome?_cons, ((tryGet_spec hs l).1 v).mpr hv]
    rfl
  · intro hp v hv
    rw [skip _ _ hp, List.findSome?_cons, ((tryGet_spec hs 0).1 v).mpr hv]
    rfl
  · rintro rfl
    rw [skip (lang :: langs) [0] (by
      intro l _ v hv
      rcases hv with ⟨_, h⟩ | ⟨_, k, h, _⟩ <;> cases h)]
    rfl

example : select [(1, ['a']), (5, ['b'])] 7 [5] = ['b'] ∧ select [(1, ['a']), (5, ['b'])] 7 [] = ['a'] := by decide

/-! ### Formatting and joining -/

theorem fold_set_find (g : Nat → Text → Text) (d : Dict) : ∀ acc : Dict, Sorted acc → Sorted d →
    Sorted (d.foldl (fun acc p => acc.set p.1 (g p.1 p.2)) acc) ∧
    ∀ k, (d.foldl (fun acc p => acc.set p.1 (g p.1 p.2)) acc).find k = (match d.find k with | some v => some (g k v) | none => acc.find k) := by
  induction d with
  | nil => intro acc ha _; exact ⟨ha, fun k => rfl⟩
  | cons p d ih =>
    obtain ⟨k', v'⟩ := p
    intro acc ha hd
    unfold Sorted at hd
    rw [List.map_cons, List.pairwise_cons] at hd
    obtain ⟨h1, h2⟩ := ih (acc.set k' (g k' v')) (sorted_set ha _ _) hd.2
    rw [List.foldl_cons]
    refine ⟨h1, fun k => ?_⟩
    rw [h2 k, find_cons, find_set]
    by_cases hk : k = k'
    · subst hk
      have : Dict.find d k = none := by
        rw [find_eq_none]
        intro v hm
        have := hd.1 k (List.mem_map.mpr ⟨_, hm, rfl⟩)
        simp only [] at this
        omega
      rw [this, if_pos rfl, if_pos rfl]
    · rw [if_neg hk, if_neg hk]

/-- C142.  `TranslatedStringFormat` translates into exactly the languages of the format; each text is the format of that language with the
arguments in that language. -/
theorem format_spec (fmt : Text → List Text → Text) {d : Dict} (hs : Sorted d) (args : List Arg) :
    Sorted (formatAll fmt d args) ∧ ∀ k, (formatAll fmt d args).find k = (d.find k).map fun v => fmt v (args.map (translate k)) := by
  obtain ⟨h1, h2⟩ := fold_set_find (fun k v => fmt v (args.map (translate k))) d [] (by simp [Sorted]) hs
  refine ⟨h1, fun k => ?_⟩
  unfold formatAll
  rw [h2 k]
  cases d.find k <;> rfl

theorem tsbAdd_find (m : Dict) (a : Arg) (k : Nat) : (tsbAdd m a).find k = (m.find k).map (· ++ translate k a) := by
  unfold tsbAdd
  induction m with
  | nil => rfl
  | cons p m ih =>
    obtain ⟨k', v'⟩ := p
    rw [List.map_cons, find_cons, find_cons, ih]
    by_cases h : k = k'
    · subst h; rw [if_pos rfl, if_pos rfl]; rfl
    · rw [if_neg h, if_neg h]

theorem tsbAdd_sorted {m : Dict} (h : Sorted m) (a : Arg) : Sorted (tsbAdd m a) := by
  unfold Sorted tsbAdd at *
  rw [List.map_map]
  exact h

theorem tsbNew_fold (langs : List Nat) : ∀ m : Dict, Sorted m → Sorted (langs.foldl (fun m l => if (m.find l).isSome then m else m.set l []) m) ∧
    ∀ k, (langs.foldl (fun m l => if (m.find l).isSome then m else m.set l []) m).find k =
      (match m.find k with | some v => some v | none => if k ∈ langs then some [] else none) := by
  induction langs with
  | nil => intro m hm; refine ⟨hm, fun k => ?_⟩; rw [List.foldl_nil]; cases m.find k <;> rfl
  | cons l langs ih =>
    intro m hm
    rw [List.foldl_cons]
    by_cases h : (m.find l).isSome = true
    · rw [if_pos h]
      obtain ⟨h1, h2⟩ := ih m hm
      refine ⟨h1, fun k => ?_⟩
      rw [h2 k]
      cases hk : m.find k with
      | some v => rfl
      | none =>
        simp only [List.mem_cons]
        have : k ≠ l := by rintro rfl; rw [hk] at h; cases h
        simp [this]
    · rw [if_neg h]
      obtain ⟨h1, h2⟩ := ih (m.set l []) (sorted_set hm _ _)
      refine ⟨h1, fun k => ?_⟩
      rw [h2 k, find_set]
      by_cases hk : k = l
      · subst hk
        have : m.find k = none := by cases h' : m.find k with | none => rfl | some v => rw [h'] at h; exact absurd rfl h
        rw [if_pos rfl, this]
        simp
      · rw [if_neg hk]
        cases m.find k with
        | some v => rfl
        | none => simp [hk]

theorem tsbGet_find {m : Dict} (h : Sorted m) : Sorted (tsbGet m) ∧ ∀ k, (tsbGet m).find k = m.find k := by
  obtain ⟨h1, h2⟩ := fold_set_find (fun _ v => v) m [] (by simp [Sorted]) h
  refine ⟨h1, fun k => ?_⟩
  have := h2 k
  unfold tsbGet
  rw [this]
  cases m.find k <;> rfl

/-- C142.  A `TranslatedStringBuilder` gives exactly the languages it was made for, each with the arguments in that language, in order. -/
theorem builder_concat (langs : List Nat) (args : List Arg) :
    Sorted (tsbGet (args.foldl tsbAdd (tsbNew langs))) ∧
    ∀ k, (tsbGet (args.foldl tsbAdd (tsbNew langs))).find k = if k ∈ langs then some (args.map (translate k)).flatten else none := by
  obtain ⟨n1, n2⟩ := tsbNew_fold langs [] (by simp [Sorted])
  have key : ∀ (args : List Arg) (m : Dict), Sorted m → Sorted (args.foldl tsbAdd m) ∧
      ∀ k, (args.foldl tsbAdd m).find k = (m.find k).map (· ++ (args.map (translate k)).flatten) := by
    intro args
    induction args with
    | nil => intro m hm; refine ⟨hm, fun k => ?_⟩; rw [List.foldl_nil]; cases m.find k <;> simp
    | cons a args ih =>
      intro m hm
      obtain ⟨h1, h2⟩ := ih (tsbAdd m a) (tsbAdd_sorted hm a)
      refine ⟨h1, fun k => ?_⟩
      rw [List.foldl_cons, h2 k, tsbAdd_find]
      cases m.find k <;> simp
  obtain ⟨k1, k2⟩ := key args (tsbNew langs) n1
  obtain ⟨g1, g2⟩ := tsbGet_find k1
  refine ⟨g1, fun k => ?_⟩
  rw [g2, k2]
  have : (tsbNew langs).find k = if k ∈ langs then some [] else none := n2 k
  rw [this]
  split <;> simp

/-- C142.  `Join` gives for each language the items in that language with the separator between them. -/
theorem join_spec (langs : List Nat) (sep : Text) (args : List Arg) (k : Nat) :
    (joinAll langs sep args).find k = if k ∈ langs then some (List.intercalate sep (args.map (translate k))) else none := by
  obtain ⟨n1, n2⟩ := tsbNew_fold langs [] (by simp [Sorted])
  have key : ∀ (args : List Arg) (m : Dict), Sorted m → Sorted (joinLoop sep args false m) ∧
      ∀ k, (joinLoop sep args false m).find k = (m.find k).map (· ++ (args.map (fun a => sep ++ translate k a)).flatten) := by
    intro args
    induction args with
    | nil => intro m hm; refine ⟨hm, fun k => ?_⟩; rw [joinLoop]; cases m.find k <;> simp
    | cons a args ih =>
      intro m hm
      rw [joinLoop]
      obtain ⟨h1, h2⟩ := ih (tsbAdd (tsbAdd m (.plain sep)) a) (tsbAdd_sorted (tsbAdd_sorted hm _) a)
      simp only [Bool.false_eq_true, if_false]
      refine ⟨h1, fun k => ?_⟩
      rw [h2 k, tsbAdd_find, tsbAdd_find]
      cases m.find k <;> simp [translate]
  have inter : ∀ (x : Text) (xs : List Text), List.intercalate sep (x :: xs) = x ++ (xs.map (sep ++ ·)).flatten := by
    intro x xs
    induction xs generalizing x with
    | nil => simp [List.intercalate]
    | cons y ys ih =>
      have : List.intercalate sep (x :: y :: ys) = x ++ sep ++ List.intercalate sep (y :: ys) := by simp [List.intercalate]
      rw [this, ih]
      simp
  have n1' : Sorted (tsbNew langs) := n1
  have hnew : (tsbNew langs).find k = if k ∈ langs then some [] else none := n2 k
  unfold joinAll
  cases args with
  | nil =>
    rw [joinLoop, (tsbGet_find n1').2 k, hnew]
    simp [List.intercalate]
  | cons a args =>
    rw [joinLoop]
    simp only [if_true]
    obtain ⟨k1, k2⟩ := key args (tsbAdd (tsbNew langs) a) (tsbAdd_sorted n1' a)
    rw [(tsbGet_find k1).2 k, k2, tsbAdd_find, hnew, List.map_cons, inter]
    split <;> simp [List.map_map, Function.comp_def]

example : joinAll [2, 1] [','] [.plain ['a'], .translated [(1, ['x']), (2, ['y'])]] = [(1, ['a', ',', 'x']), (2, ['a', ',', 'y'])] := by decide

end Verif.Locale
