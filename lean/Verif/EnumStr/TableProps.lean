import Verif.EnumStr.Props
/-
C127: from values to names and back.
-/
namespace Verif.EnumStr

/-! ### The maps -/

theorem slt_total {a b : Val} (h1 : a.slt b = false) (h2 : b.slt a = false) : a = b := by
  have h1' : ¬ a.toInt < b.toInt := by simpa [BitVec.slt] using h1
  have h2' : ¬ b.toInt < a.toInt := by simpa [BitVec.slt] using h2
  exact BitVec.eq_of_toInt_eq (by omega)

theorem slt_irrefl (a : Val) : a.slt a = false := by simp [BitVec.slt]

theorem slt_trans {a b c : Val} (h1 : a.slt b = true) (h2 : b.slt c = true) : a.slt c = true := by
  simp [BitVec.slt] at *; omega

/-- The map is ordered. -/
def Ordered (m : List (Val × Text)) : Prop := m.Pairwise (fun a b => a.1.slt b.1 = true)

theorem insert_mem {v : Val} {n : Text} : ∀ {m : List (Val × Text)} {e : Val × Text}, e ∈ insertValue v n m → e ∈ m ∨ e = (v, n) := by
  intro m
  induction m with
  | nil => intro e h; simp [insertValue] at h; exact Or.inr h
  | cons x r ih =>
    intro e h
    rw [insertValue] at h
    split at h
    · rcases List.mem_cons.mp h with h | h
      · exact Or.inr h
      · exact Or.inl h
    · split at h
      · rcases List.mem_cons.mp h with h | h
        · exact Or.inl (by simp [h])
        · rcases ih h with h | h
          · exact Or.inl (by simp [h])
          · exact Or.inr h
      · exact Or.inl h

theorem insert_ordered {v : Val} {n : Text} : ∀ {m : List (Val × Text)}, Ordered m → Ordered (insertValue v n m) := by
  intro m
  induction m with
  | nil => intro _; exact List.pairwise_singleton _ _
  | cons x r ih =>
    intro h
    obtain ⟨h1, h2⟩ := List.pairwise_cons.mp h
    rw [insertValue]
    split
    · next hlt =>
      refine List.pairwise_cons.mpr ⟨?_, h⟩
      intro e he
      rcases List.mem_cons.mp he with rfl | he
      · exact hlt
      · exact slt_trans hlt (h1 e he)
    · split
      · next _ hgt =>
        refine List.pairwise_cons.mpr ⟨?_, ih h2⟩
        intro e he
        rcases insert_mem he with he | rfl
        · exact h1 e he
        · exact hgt
      · exact h

/-- The first name of a value stays; other values are not affected. -/
theorem insert_find {v : Val} {n : Text} (w : Val) : ∀ {m : List (Val × Text)}, Ordered m →
    (insertValue v n m).find? (fun e => e.1 = w) =
      (m.find? (fun e => e.1 = w)).or (if v = w then some (v, n) else none) := by
  intro m
  induction m with
  | nil =>
    intro _
    rw [insertValue]
    by_cases h : v = w <;> simp [h]
  | cons x r ih =>
    intro h
    obtain ⟨h1, h2⟩ := List.pairwise_cons.mp h
    rw [insertValue]
    split
    · next hlt =>
      by_cases hv : v = w
      · subst hv
        have hnone : (x :: r).find? (fun e => decide (e.1 = v)) = none := by
          refine List.find?_eq_none.mpr ?_
          intro e he
          have : v.slt e.1 = true := by
            rcases List.mem_cons.mp he with rfl | he
            · exact hlt
            · exact slt_trans hlt (h1 e he)
          simp only [decide_eq_true_eq]
          intro heq
          rw [heq, slt_irrefl] at this
          cases this
        rw [hnone]
        simp
      · rw [List.find?_cons]
        simp only [hv, decide_false, if_false, Option.or_none]
    · split
      · next hnlt hgt =>
        rw [List.find?_cons, List.find?_cons]
        by_cases hx : x.1 = w
        · simp [hx]
        · simp only [hx, decide_false]
          exact ih h2
      · next hnlt hngt =>
        have heq : v = x.1 := slt_total (by simpa using hnlt) (by simpa using hngt)
        by_cases hv : v = w
        · rw [List.find?_cons]
          have : x.1 = w := by rw [← heq, hv]
          simp [this]
        · simp [hv]

theorem fill_toStr (l : List (Val × Text)) : ∀ m : Map, Ordered m.toStr → Ordered (fill m l).toStr ∧
    (∀ w, (fill m l).toStr.find? (fun e => e.1 = w) = (m.toStr.find? (fun e => e.1 = w)).or (l.find? (fun e => e.1 = w))) ∧
    (∀ e ∈ (fill m l).toStr, e ∈ m.toStr ∨ e ∈ l) := by
  induction l with
  | nil => intro m h; exact ⟨h, by intro w; simp [fill], by intro e he; exact Or.inl he⟩
  | cons x r ih =>
    intro m h
    obtain ⟨a, b, c⟩ := ih { m with toStr := insertValue x.1 x.2 m.toStr, fromStr := insertName x.2 x.1 m.fromStr } (insert_ordered h)
    refine ⟨a, ?_, ?_⟩
    · intro w
      show (fill _ r).toStr.find? _ = _
      rw [b w]
      show ((insertValue x.1 x.2 m.toStr).find? _).or _ = _
      rw [insert_find w h, List.find?_cons]
      by_cases hx : x.1 = w
      · cases (m.toStr.find? (fun e => decide (e.1 = w))) <;> simp [hx, Prod.ext_iff]
      · cases (m.toStr.find? (fun e => decide (e.1 = w))) <;> simp [hx]
    · intro e he
      rcases c e he with he | he
      · rcases insert_mem he with he | rfl
        · exact Or.inl he
        · exact Or.inr (by simp)
      · exact Or.inr (by simp [he])

theorem insertName_find (n k : Text) (v : Val) (m : List (Text × Val)) :
    findName (insertName n v m) k = (findName m k).or (if n = k then some v else none) := by
  unfold insertName
  cases h : findName m n with
  | some w =>
    simp only [Option.isSome_some, if_true]
    by_cases hk : n = k
    · subst hk; rw [h]; simp
    · simp [hk]
  | none =>
    simp only [Option.isSome_none, Bool.false_eq_true, if_false]
    unfold findName
    rw [List.find?_append]
    by_cases hk : n = k
    · cases m.find? (fun e => decide (e.1 = k)) <;> simp [hk]
    · cases m.find? (fun e => decide (e.1 = k)) <;> simp [hk]

theorem fill_fromStr (l : List (Val × Text)) : ∀ (m : Map) (k : Text),
    findName (fill m l).fromStr k = (findName m.fromStr k).or ((l.find? (fun e => e.2 = k)).map (fun e => e.1)) := by
  induction l with
  | nil => intro m k; simp [fill]
  | cons x r ih =>
    intro m k
    show findName (fill _ r).fromStr k = _
    rw [ih]
    show (findName (insertName x.2 x.1 m.fromStr) k).or _ = _
    rw [insertName_find, List.find?_cons]
    by_cases hx : x.2 = k
    · cases findName m.fromStr k <;> simp [hx]
    · cases findName m.fromStr k <;> simp [hx]

/-- What the two maps hold after `Init`. -/
theorem build_spec (vs : List Val) (ns : List Text) :
    (∀ w, (build vs ns).toStr.find? (fun e => e.1 = w) = (vs.zip ns).find? (fun e => e.1 = w)) ∧
    (∀ e ∈ (build vs ns).toStr, e ∈ vs.zip ns) ∧
    (∀ k, findName (build vs ns).fromStr k = ((vs.zip ns).find? (fun e => e.2 = k)).map (fun e => e.1)) := by
  obtain ⟨_, b, c⟩ := fill_toStr (vs.zip ns) ⟨[], [], vs⟩ List.Pairwise.nil
  refine ⟨fun w => by rw [build, b w]; rfl, fun e he => ?_, fun k => by rw [build, fill_fromStr]; rfl⟩
  rcases c e he with h | h
  · cases h
  · exact h

/-- A name of the enum class and its value. -/
def Spec.Declared (vs : List Val) (ns : List Text) (n : Text) (v : Val) : Prop := ∃ i : Nat, ns[i]? = some n ∧ vs[i]? = some v

theorem zip_declared {vs : List Val} {ns : List Text} {n : Text} {v : Val} : (v, n) ∈ vs.zip ns ↔ Spec.Declared vs ns n v := by
  constructor
  · intro h
    obtain ⟨i, hi, he⟩ := List.mem_iff_getElem.mp h
    rw [List.getElem_zip] at he
    rw [List.length_zip] at hi
    exact ⟨i, by rw [List.getElem?_eq_getElem (by omega)]; injection he with a b; rw [b], by
      rw [List.getElem?_eq_getElem (by omega)]; injection he with a b; rw [a]⟩
  · rintro ⟨i, h1, h2⟩
    obtain ⟨a, b⟩ := List.getElem?_eq_some_iff.mp h1
    obtain ⟨c, d⟩ := List.getElem?_eq_some_iff.mp h2
    refine List.mem_iff_getElem.mpr ⟨i, by rw [List.length_zip]; omega, ?_⟩
    rw [List.getElem_zip, b, d]

theorem find_declared {vs : List Val} {ns : List Text} (hd : ns.Nodup) {n : Text} {v : Val} :
    findName (build vs ns).fromStr n = some v ↔ Spec.Declared vs ns n v := by
  rw [(build_spec vs ns).2.2 n]
  constructor
  · intro h
    obtain ⟨e, he, rfl⟩ := Option.map_eq_some_iff.mp h
    have h1 := List.mem_of_find?_eq_some he
    have h2 := List.find?_some he
    simp only [decide_eq_true_eq] at h2
    rw [← h2]
    exact zip_declared.mp h1
  · intro h
    have hm := zip_declared.mpr h
    cases hf : (vs.zip ns).find? (fun e => decide (e.2 = n)) with
    | none =>
      have := List.find?_eq_none.mp hf _ hm
      simp at this
    | some e =>
      have h1 := zip_declared.mp (List.mem_of_find?_eq_some hf)
      have h2 := List.find?_some hf
      simp only [decide_eq_true_eq] at h2
      rw [h2] at h1
      obtain ⟨i, a, b⟩ := h1
      obtain ⟨j, c, d⟩ := h
      have hij : i = j := (List.getElem?_inj (List.getElem?_eq_some_iff.mp a).1 hd).mp (by rw [a, c])
      subst hij
      rw [b] at d
      simp only [Option.map_some]
      exact d

/-! ### To text -/

/-- C127.  A declared value is written as the first name it was declared with. -/
theorem to_string_declared {vs : List Val} {ns : List Text} {i : Nat} {v : Val} {n : Text} (h1 : vs[i]? = some v) (h2 : ns[i]? = some n)
    (hf : ∀ j : Nat, j < i → vs[j]? ≠ some v) : enumToString (build vs ns) v = n := by
  have hfind : (vs.zip ns).find? (fun e => decide (e.1 = v)) = some (v, n) := by
    refine List.find?_eq_some_iff_getElem.mpr ⟨by simp, i, ?_, ?_, ?_⟩
    · have a := (List.getElem?_eq_some_iff.mp h1).1
      have b := (List.getElem?_eq_some_iff.mp h2).1
      rw [List.length_zip]; omega
    · rw [List.getElem_zip]
      rw [(List.getElem?_eq_some_iff.mp h1).2, (List.getElem?_eq_some_iff.mp h2).2]
    · intro j hj
      rw [List.getElem_zip]
      have := hf j hj
      have a := (List.getElem?_eq_some_iff.mp h1).1
      rw [List.getElem?_eq_getElem (by omega)] at this
      simpa using this
  unfold enumToString
  rw [(build_spec vs ns).1 v, hfind]

theorem union_append (a b : List Val) : Spec.union (a ++ b) = Spec.union a ||| Spec.union b := by
  induction a with
  | nil => simp [Spec.union]
  | cons x r ih => simp [Spec.union, ih, BitVec.or_assoc]

theorem bars_append {a : List Text} (h : a ≠ []) (n : Text) : Spec.bars (a ++ [n]) = Spec.bars a ++ '|' :: n := by
  induction a with
  | nil => exact absurd rfl h
  | cons x r ih =>
    cases r with
    | nil => rfl
    | cons y r => simp only [List.cons_append, Spec.bars] at ih ⊢; rw [ih (by simp)]; simp

theorem bars_ne {a : List Text} (h : a ≠ []) (hn : ∀ x ∈ a, x ≠ []) : Spec.bars a ≠ [] := by
  cases a with
  | nil => exact absurd rfl h
  | cons x r =>
    have hx := hn x (by simp)
    cases r with
    | nil => exact hx
    | cons y r => simp [Spec.bars]

/-- `a` has no bits outside `b`. -/
def Sub (a b : Val) : Prop := ∀ i, a.getLsbD i = true → b.getLsbD i = true

theorem sub_iff {a b : Val} : a &&& ~~~b = 0 ↔ Sub a b := by
  constructor
  · intro h i ha
    have := congrArg (fun x : Val => x.getLsbD i) h
    have hi : i < 32 := BitVec.lt_of_getLsbD ha
    simp [ha, hi] at this
    exact this
  · intro h
    apply BitVec.eq_of_getLsbD_eq
    intro i hi
    have := h i
    cases ha : a.getLsbD i with
    | false => simp [ha]
    | true => simp [ha, this ha]

theorem sub_antisymm {a b : Val} (h1 : Sub a b) (h2 : Sub b a) : a = b := by
  apply BitVec.eq_of_getLsbD_eq
  intro i hi
  cases ha : a.getLsbD i with
  | true => exact (h1 i ha).symm
  | false =>
    cases hb : b.getLsbD i with
    | false => rfl
    | true => rw [h2 i hb] at ha; cases ha

theorem sub_or {a b c : Val} (h1 : Sub a c) (h2 : Sub b c) : Sub (a ||| b) c := by
  intro i h
  simp at h
  rcases h with h | h
  · exact h1 i h
  · exact h2 i h

theorem sub_union {l : List Val} {c : Val} (h : ∀ x ∈ l, Sub x c) : Sub (Spec.union l) c := by
  induction l with
  | nil => intro i h; simp [Spec.union] at h
  | cons x r ih => exact sub_or (h x (by simp)) (ih (fun y hy => h y (by simp [hy])))

theorem union_sub {l : List Val} {x : Val} (h : x ∈ l) : Sub x (Spec.union l) := by
  induction l with
  | nil => cases h
  | cons y r ih =>
    intro i hi
    simp only [Spec.union, BitVec.getLsbD_or, Bool.or_eq_true]
    rcases List.mem_cons.mp h with rfl | h
    · exact Or.inl hi
    · exact Or.inr (ih h i hi)

/-- What the loop has found so far. -/
structure Found (all : List (Val × Text)) (val f : Val) (r : Text) (ps : List (Val × Text)) : Prop where
  mem : ∀ p ∈ ps, p ∈ all
  sub : ∀ p ∈ ps, Sub p.1 val
  flags : f = Spec.union (ps.map (fun p => p.1))
  text : r = Spec.bars (ps.map (fun p => p.2))
  new : ∀ (a : List (Val × Text)) (p : Val × Text) (b : List (Val × Text)), ps = a ++ p :: b → ¬ Sub p.1 (Spec.union (a.map (fun p => p.1)))

theorem found_add {all : List (Val × Text)} {val f : Val} {r : Text} {ps : List (Val × Text)} (hn : ∀ p ∈ all, p.2 ≠ []) (h : Found all val f r ps) {e : Val × Text} (he : e ∈ all)
    (hs : Sub e.1 val) (hnew : ¬ Sub e.1 f) : Found all val (f ||| e.1) (appendName r e.2) (ps ++ [e]) := by
  refine ⟨?_, ?_, ?_, ?_, ?_⟩
  rotate_right
  · intro a p b hab
    rcases List.eq_nil_or_concat b with rfl | ⟨b', q, rfl⟩
    · obtain ⟨h1, h2⟩ := List.append_inj' hab rfl
      injection h2 with h2 _
      rw [← h1, ← h2, ← h.flags]; exact hnew
    · have e1 : a ++ p :: (b' ++ [q]) = (a ++ p :: b') ++ [q] := by simp
      have hab' : ps ++ [e] = (a ++ p :: b') ++ [q] := by rw [hab]; simp
      obtain ⟨h1, _⟩ := List.append_inj' hab' rfl
      exact h.new a p b' h1
  · intro p hp
    rcases List.mem_append.mp hp with hp | hp
    · exact h.mem p hp
    · rw [List.mem_singleton.mp hp]; exact he
  · intro p hp
    rcases List.mem_append.mp hp with hp | hp
    · exact h.sub p hp
    · rw [List.mem_singleton.mp hp]; exact hs
  · rw [h.flags, List.map_append, union_append]; simp [Spec.union]
  · rw [appendName, h.text, List.map_append]
    cases ps with
    | nil => simp [Spec.bars]
    | cons p ps =>
      rw [if_neg (bars_ne (by simp) ?_), List.map_singleton, bars_append (by simp)]
      intro x hx
      obtain ⟨q, hq, rfl⟩ := List.mem_map.mp hx
      exact hn q (h.mem q hq)

theorem flagLoop_spec (all : List (Val × Text)) (hn : ∀ p ∈ all, p.2 ≠ []) (val : Val) : ∀ (rest : List (Val × Text)), (∀ e ∈ rest, e ∈ all) →
    ∀ (f : Val) (r : Text) (ps : List (Val × Text)), Found all val f r ps → ∃ ps', Found all val (flagLoop val rest f r).1 (flagLoop val rest f r).2 ps' ∧
      (∀ x, Sub x f → Sub x (flagLoop val rest f r).1) ∧
      ((flagLoop val rest f r).1 = val ∨ ∀ e ∈ rest, Sub e.1 val → Sub e.1 (flagLoop val rest f r).1) := by
  intro rest
  induction rest with
  | nil => intro _ f r ps h; exact ⟨ps, h, fun _ h => h, Or.inr (fun e he => by cases he)⟩
  | cons e rest ih =>
    intro hm f r ps h
    have mono : ∀ x, Sub x f → Sub x (f ||| e.1) := fun x hx i hi => by simp [hx i hi]
    rw [flagLoop]
    by_cases hw : wanted val f e.1 = true
    · rw [if_pos hw]
      have hw' := hw
      simp [wanted] at hw'
      have hs : Sub e.1 val := sub_iff.mp hw'.1.2
      have h' := found_add hn h (hm e (by simp)) hs (fun hc => hw'.2 (sub_iff.mpr hc))
      by_cases hv : f ||| e.1 = val
      · rw [if_pos hv]; exact ⟨_, h', mono, Or.inl hv⟩
      · rw [if_neg hv]
        obtain ⟨ps', a, b, c⟩ := ih (fun e he => hm e (by simp [he])) _ _ _ h'
        refine ⟨ps', a, fun x hx => b x (mono x hx), ?_⟩
        rcases c with c | c
        · exact Or.inl c
        · refine Or.inr ?_
          intro x hx hsx
          rcases List.mem_cons.mp hx with rfl | hx
          · exact b _ (fun i hi => by simp [hi])
          · exact c x hx hsx
    · rw [if_neg hw]
      by_cases hv : f = val
      · rw [if_pos hv]; exact ⟨ps, h, fun _ h => h, Or.inl hv⟩
      · rw [if_neg hv]
        obtain ⟨ps', a, b, c⟩ := ih (fun e he => hm e (by simp [he])) _ _ _ h
        refine ⟨ps', a, b, ?_⟩
        rcases c with c | c
        · exact Or.inl c
        · refine Or.inr ?_
          intro x hx hsx
          rcases List.mem_cons.mp hx with rfl | hx
          · refine b _ ?_
            have hand : x.1 &&& val = x.1 := by
              apply BitVec.eq_of_getLsbD_eq
              intro i hi
              have := hsx i
              cases hxi : x.1.getLsbD i with
              | false => simp [hxi]
              | true => simp [hxi, this hxi]
            simp only [wanted, hand, sub_iff.mpr hsx, decide_true, Bool.and_true, Bool.and_eq_true, decide_eq_true_eq, ne_eq] at hw
            by_cases h0 : x.1 = 0
            · rw [h0]; intro i hi; simp at hi
            · have : x.1 &&& ~~~f = 0 := Classical.byContradiction (fun hc => hw ⟨h0, hc⟩)
              exact sub_iff.mp this
          · exact c x hx hsx

theorem build_mem {vs : List Val} {ns : List Text} {p : Val × Text} (h : p ∈ (build vs ns).toStr) : Spec.Declared vs ns p.2 p.1 :=
  zip_declared.mp ((build_spec vs ns).2.1 p h)

theorem not_declared {vs : List Val} {ns : List Text} {v : Val} (hv : v ∉ vs) : (build vs ns).toStr.find? (fun e => decide (e.1 = v)) = none := by
  rw [(build_spec vs ns).1 v]
  refine List.find?_eq_none.mpr ?_
  intro e he
  have : e.1 ∈ vs := (List.of_mem_zip (a := e.1) (b := e.2) he).1
  simp only [decide_eq_true_eq]
  rintro rfl
  exact hv this

/-- C127.  A value that is not declared, but is made of declared flags, is written as declared names with '|' between them, whose union is the value;
every name adds something to those before it. -/
theorem to_string_flags {vs : List Val} {ns : List Text} (hlen : vs.length = ns.length) (hn : ∀ n ∈ ns, n ≠ []) {v : Val} (hv : v ∉ vs) {l : List Val} (hl : ∀ x ∈ l, x ∈ vs)
    (hu : Spec.union l = v) : ∃ ps : List (Val × Text), (∀ p ∈ ps, Spec.Declared vs ns p.2 p.1) ∧ Spec.union (ps.map (fun p => p.1)) = v ∧
      enumToString (build vs ns) v = Spec.bars (ps.map (fun p => p.2)) ∧
      ∀ (a : List (Val × Text)) (p : Val × Text) (b : List (Val × Text)), ps = a ++ p :: b →
        Spec.union (a.map (fun p => p.1)) ||| p.1 ≠ Spec.union (a.map (fun p => p.1)) := by
  have hne : ∀ p ∈ (build vs ns).toStr, p.2 ≠ [] := by
    intro p hp
    obtain ⟨i, h, _⟩ := build_mem hp
    exact hn _ (List.mem_of_getElem? h)
  obtain ⟨ps, a, _, c⟩ := flagLoop_spec _ hne v _ (fun e he => he) 0 [] [] ⟨by simp, by simp, rfl, rfl, by simp⟩
  have hfull : (flagLoop v (build vs ns).toStr 0 []).1 = v := by
    rcases c with c | c
    · exact c
    · refine sub_antisymm ?_ ?_
      · rw [a.flags]
        refine sub_union ?_
        intro x hx
        obtain ⟨p, hp, rfl⟩ := List.mem_map.mp hx
        exact a.sub p hp
      · rw [← hu]
        refine sub_union ?_
        intro x hx
        rw [hu]
        have hxv : Sub x v := hu ▸ union_sub hx
        have hxm := hl x hx
        obtain ⟨i, hi, he⟩ := List.mem_iff_getElem.mp hxm
        have hz : (x, ns[i]'(by omega)) ∈ vs.zip ns := zip_declared.mpr ⟨i, List.getElem?_eq_getElem (by omega), by rw [List.getElem?_eq_getElem hi, he]⟩
        cases hf : (build vs ns).toStr.find? (fun e => decide (e.1 = x)) with
        | none =>
          rw [(build_spec vs ns).1 x] at hf
          have := List.find?_eq_none.mp hf _ hz
          simp at this
        | some e =>
          have h1 := List.mem_of_find?_eq_some hf
          have h2 := List.find?_some hf
          simp only [decide_eq_true_eq] at h2
          have := c e h1 (by rw [h2]; exact hxv)
          rw [h2] at this
          exact this
  refine ⟨ps, fun p hp => build_mem (a.mem p hp), by rw [← a.flags, hfull], ?_, ?_⟩
  rotate_right
  · intro x p y he hc
    refine a.new x p y he ?_
    intro i hi
    have := congrArg (fun z : Val => z.getLsbD i) hc
    simpa [hi] using this
  unfold enumToString
  rw [not_declared hv]
  simp only [hfull, ne_eq, not_true_eq_false, if_false]
  exact a.text

/-- C127.  A value that is not declared and not made of declared flags is written as an unsigned decimal number. -/
theorem to_string_number {vs : List Val} {ns : List Text} (hlen : vs.length = ns.length) (hn : ∀ n ∈ ns, n ≠ []) {v : Val} (hv : ∀ l : List Val, (∀ x ∈ l, x ∈ vs) → Spec.union l ≠ v) :
    ∃ ds, enumToString (build vs ns) v = ds ∧ ds ≠ [] ∧ ds.all Str.isDigit = true ∧ Str.decimal ds = v.toNat ∧ (ds.head? = some '0' → ds = ['0']) := by
  have hne : ∀ p ∈ (build vs ns).toStr, p.2 ≠ [] := by
    intro p hp
    obtain ⟨i, h, _⟩ := build_mem hp
    exact hn _ (List.mem_of_getElem? h)
  have hv' : v ∉ vs := by
    intro h
    exact hv [v] (by simpa using h) (by simp [Spec.union])
  obtain ⟨ps, a, _, _⟩ := flagLoop_spec _ hne v _ (fun e he => he) 0 [] [] ⟨by simp, by simp, rfl, rfl, by simp⟩
  have hnot : (flagLoop v (build vs ns).toStr 0 []).1 ≠ v := by
    rw [a.flags]
    refine hv _ ?_
    intro x hx
    obtain ⟨p, hp, rfl⟩ := List.mem_map.mp hx
    obtain ⟨i, _, h⟩ := build_mem (a.mem p hp)
    exact List.mem_of_getElem? h
  have hu := Str.int_types_ok Str.u32 (by simp)
  have hlt := v.isLt
  obtain ⟨ds, h1, h2, h3, h4, h5⟩ := Str.toText_spec hu.1 hu.2 (v := (v.toNat : Int)) (by simp [Str.u32]) (by simp [Str.u32]; omega)
  refine ⟨ds, ?_, h2, h3, by rw [h4]; simp, h5⟩
  unfold enumToString
  rw [not_declared hv']
  simp only [hnot, ne_eq, not_false_eq_true, if_true, h1]
  rw [if_neg (by omega)]
  rfl

end Verif.EnumStr
